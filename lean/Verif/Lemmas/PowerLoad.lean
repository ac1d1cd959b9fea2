import Verif.Lemmas.Power
namespace Verif.Power
open Verif.Device

/-- The connection of a device after loading. -/
def settled (f : File) (s0 : St) (k : Nat) : Option Nat := (s0.dev k).conn.filter fun a => decide (a ∈ f.ds)

theorem settled_some {f : File} {s0 : St} {k a : Nat} : settled f s0 k = some a ↔ Linked f s0 k a := by
  unfold settled Linked
  rw [Option.filter_eq_some_iff]
  simp

/-- What is known of a device after it was loaded in a new manager that started in `s0`. -/
structure Loaded (c : Cfg) (f : File) (s0 s : St) (k : Nat) : Prop where
  conn : (s.dev k).conn = settled f s0 k
  deps : (s.dev k).deps = (s.dev k).conn.toList
  sync : (s.dev k).status = .enabled ↔ Alive s k
  alive : Alive s k ↔ Alive s0 k ∧ ¬ Stranded c f s0 k
  wait : (s.dev k).status = .waiting ↔ Stranded c f s0 k

/-- Loading, when the devices of `L` were loaded. -/
structure LI (c : Cfg) (f : File) (s0 s : St) (L : List Nat) : Prop where
  inv : Inv c s
  rest : ∀ k, k ∉ L → s.dev k = s0.dev k
  done : ∀ k ∈ L, Loaded c f s0 s k
  sub : ∀ k ∈ L, k ∈ f.ds

theorem Loaded.soft {c f s0 s s' k} (h : Loaded c f s0 s k)
    (e : s'.dev k = s.dev k ∨ ((s.dev k).status ≠ .enabled ∧ s'.dev k = { s.dev k with proc := .gone })) : Loaded c f s0 s' k := by
  rcases e with e | ⟨hn, e⟩
  · exact ⟨by rw [e]; exact h.conn, by rw [e]; exact h.deps, by unfold Alive; rw [e]; exact h.sync, by unfold Alive; rw [e]; exact h.alive, by rw [e]; exact h.wait⟩
  · have hna : ¬ Alive s k := fun ha => hn (h.sync.mpr ha)
    have hna' : ¬ Alive s' k := by unfold Alive; rw [e]; simp
    refine ⟨by rw [e]; exact h.conn, by rw [e]; exact h.deps, ?_, ?_, by rw [e]; exact h.wait⟩
    · rw [e]; exact ⟨fun x => absurd x hn, fun x => absurd x hna'⟩
    · exact ⟨fun x => absurd x hna', fun x => absurd (h.alive.mpr x) hna⟩

theorem install_eq {c : Cfg} (s : St) (d : Nat) : install c s d = branches c (reload s d) d := by
  unfold install machine
  rw [if_neg (by rw [upd_self]; simp)]
  rfl

theorem ap_not_stranded {c f s k} (h : c.kind k ≠ .iface) : ¬ Stranded c f s k := fun hs => h hs.2.1

/-- Whether the dependencies of a device are met while it is loaded. -/
theorem ready_iff {c f s0 s s1 L d} (hL : LI c f s0 s L) (hd : d ∉ L) (hds : d ∈ f.ds) (h1 : ∀ k, k ≠ d → s1.dev k = s.dev k)
    (h2 : s1.dev d = { s0.dev d with conn := settled f s0 d }) (h3 : ∀ a, settled f s0 d = some a → a ∈ L) (hw : Wf c s1) (ha : Alive s0 d) :
    Ready c (reload s1 d) d ↔ ¬ Stranded c f s0 d := by
  have hdev : (reload s1 d).dev d = { s1.dev d with status := .disabled, toggle := false, deps := (s1.dev d).conn.toList } := by rw [reload, upd_self]
  by_cases hk : c.kind d = .iface
  · have hon : ∀ a, settled f s0 d = some a → (On c (reload s1 d) a ↔ Remote c a ∨ Alive s0 a) := by
      intro a hs
      have hal := h3 a hs
      have had : a ≠ d := fun e => hd (e ▸ hal)
      have hka : c.kind a ≠ .iface := (hw.deps d a (hw.conn d a (by rw [h2]; exact hs))).2
      have hl := hL.done a hal
      have e1 : (reload s1 d).dev a = s.dev a := by rw [reload, upd_ne s1 had, h1 a had]
      unfold On Remote
      rw [e1, hl.sync, hl.alive]
      simp [ap_not_stranded hka]
    unfold Ready
    rw [hdev, h2]
    dsimp only
    constructor
    · rintro ⟨r1, r2⟩ hs
      cases hc : settled f s0 d with
      | none => exact r1 hk hc
      | some a =>
        rw [hc] at r2
        have := (hon a hc).mp (r2 a (by simp))
        exact hs.2.2.2 ⟨a, settled_some.mp hc, this⟩
    · intro hs
      have : ∃ a, Linked f s0 d a ∧ (Remote c a ∨ Alive s0 a) := Classical.byContradiction fun hn => hs ⟨hds, hk, ha, hn⟩
      obtain ⟨a, hl, hr⟩ := this
      have hc := settled_some.mpr hl
      rw [hc]
      refine ⟨fun _ h => (Option.some_ne_none a) h, fun b hb => ?_⟩
      simp at hb
      subst hb
      exact (hon b hc).mpr hr
  · have : (s1.dev d).conn = none := (hw.ap hk).2
    refine ⟨fun _ => ap_not_stranded hk, fun _ => ⟨fun e => absurd e hk, ?_⟩⟩
    rw [hdev, this]
    simp

theorem settled_kind {c : Cfg} {s1 : St} {d a : Nat} (hw : Wf c s1) (hc : (s1.dev d).conn = some a) : c.kind a ≠ .iface := (hw.deps d a (hw.conn d a hc)).2

theorem install_step {c f s0 s s1 L d} (hL : LI c f s0 s L) (hd : d ∉ L) (hds : d ∈ f.ds) (h1 : ∀ k, k ≠ d → s1.dev k = s.dev k)
    (h2 : s1.dev d = { s0.dev d with conn := settled f s0 d }) (h3 : ∀ a, settled f s0 d = some a → a ∈ L) (hi : Inv c s1)
    (hr : (install c s1 d).2 = false) : LI c f s0 (install c s1 d).1 (d :: L) := by
  obtain ⟨i1, i2, i3, i4⟩ := install_spec hi hr
  have hi' := reload_inv hi d
  have hcd : (s1.dev d).conn = settled f s0 d := by rw [h2]
  have hpd : (s1.dev d).proc = (s0.dev d).proc := by rw [h2]
  have hrdev : (reload s1 d).dev d = { s1.dev d with status := .disabled, toggle := false, deps := (s1.dev d).conn.toList } := by rw [reload, upd_self]
  refine ⟨install_inv hi d, ?_, ?_, ?_⟩
  · intro k hk
    simp only [List.mem_cons, not_or] at hk
    rcases i1.other k hk.1 with e | ⟨m, _⟩
    · rw [e, reload, upd_ne s1 hk.1, h1 k hk.1, hL.rest k hk.2]
    · rw [hcd] at m
      have : settled f s0 d = some k := by cases hc : settled f s0 d <;> simp_all
      exact absurd (h3 k this) hk.2
  · intro k hk
    by_cases hkd : k = d
    · subst hkd
      have hb := install_eq (c := c) s1 k
      have hsafe := (branches_safe hi'.wf k).2 (by rw [hrdev]) (by rw [← hb]; exact hr)
      have hon := (branches_spec hi'.wf k).on (by rw [← hb]; exact hr)
      rw [← hb] at hsafe hon
      have hsync : ((install c s1 k).1.dev k).status = .enabled ↔ Alive (install c s1 k).1 k :=
        ⟨fun h => (hon h).2, fun h => hsafe.elim (fun x => x) (fun x => absurd h x)⟩
      have hal : Alive s0 k ↔ (s1.dev k).proc = .alive := by rw [hpd]; rfl
      refine ⟨?_, ?_, hsync, ?_, ?_⟩
      · rw [i1.conn, hrdev]; exact hcd
      · rw [i1.deps, i1.conn, hrdev]
      · rw [← hsync, i2, hal]
        constructor
        · rintro ⟨x, y⟩; exact ⟨x, (ready_iff hL hd hds h1 h2 h3 hi.wf (hal.mpr x)).mp y⟩
        · rintro ⟨x, y⟩; exact ⟨x, (ready_iff hL hd hds h1 h2 h3 hi.wf (hal.mpr x)).mpr y⟩
      · rw [i3]
        constructor
        · rintro ⟨x, y⟩
          exact Classical.byContradiction fun hn => y ((ready_iff hL hd hds h1 h2 h3 hi.wf (hal.mpr x)).mpr hn)
        · intro hs
          exact ⟨hal.mp hs.2.2.1, fun y => (ready_iff hL hd hds h1 h2 h3 hi.wf hs.2.2.1).mp y hs⟩
    · have hkl : k ∈ L := by simpa [hkd] using hk
      refine (hL.done k hkl).soft ?_
      have e0 : (reload s1 d).dev k = s.dev k := by rw [reload, upd_ne s1 hkd, h1 k hkd]
      rcases i1.other k hkd with e | ⟨_, m, e⟩
      · exact .inl (e.trans e0)
      · rw [e0] at e m; exact .inr ⟨m, e⟩
  · intro k hk
    rcases List.mem_cons.mp hk with e | h
    · rw [e]; exact hds
    · exact hL.sub k h

/-- Loading a device fails only for an interface that is stranded and whose process cannot be ended. -/
theorem install_fails {c f s0 s s1 L d} (hL : LI c f s0 s L) (hd : d ∉ L) (hds : d ∈ f.ds) (h1 : ∀ k, k ≠ d → s1.dev k = s.dev k)
    (h2 : s1.dev d = { s0.dev d with conn := settled f s0 d }) (h3 : ∀ a, settled f s0 d = some a → a ∈ L) (hi : Inv c s1)
    (hr : (install c s1 d).2 = true) : Stranded c f s0 d ∧ ∃ n, c.kill n = false := by
  have hi' := reload_inv hi d
  have hrdev : (reload s1 d).dev d = { s1.dev d with status := .disabled, toggle := false, deps := (s1.dev d).conn.toList } := by rw [reload, upd_self]
  obtain ⟨g1, g2⟩ := depsEnabled_spec c (reload s1 d) d
  have hself : (dependenciesEnabled c (reload s1 d) d).1.dev d = (reload s1 d).dev d := g1.same (.inl (hi'.wf.self d))
  rw [install_eq] at hr
  unfold branches at hr
  rw [hrdev] at hr
  dsimp only at hr
  by_cases hp : running (reload s1 d) d = true
  · rw [if_pos hp] at hr
    have hpa : (s1.dev d).proc = .alive := by simpa [running, hrdev] using hp
    have ha : Alive s0 d := by rw [h2] at hpa; exact hpa
    cases hb : dependenciesEnabled c (reload s1 d) d with
    | mk s' b =>
      rw [hb] at hr g2 hself
      dsimp only at hr g2 hself
      cases b with
      | true => cases hr
      | false =>
        have hs : Stranded c f s0 d := Classical.byContradiction fun hn => by
          have := g2.mpr ((ready_iff hL hd hds h1 h2 h3 hi.wf ha).mpr hn)
          cases this
        refine ⟨hs, ?_⟩
        have hp' : (s'.dev d).proc = .alive := by rw [hself, hrdev]; exact hpa
        cases hk : c.kill s'.kills with
        | false => exact ⟨_, hk⟩
        | true =>
          dsimp only at hr
          unfold shutdown at hr
          rw [hp'] at hr
          dsimp only at hr
          rw [hk] at hr
          cases hr
  · rw [if_neg hp, if_neg (by simp)] at hr
    cases hr

/-- The manager while it loads. -/
structure MI (c : Cfg) (f : File) (s0 : St) (m : Mgr) : Prop where
  li : LI c f s0 m.s m.objs
  nodup : m.objs.Nodup

theorem LI.perm {c f s0 s L L'} (h : LI c f s0 s L) (hp : ∀ k, k ∈ L' ↔ k ∈ L) : LI c f s0 s L' :=
  ⟨h.inv, fun k hk => h.rest k (fun x => hk ((hp k).mpr x)), fun k hk => h.done k ((hp k).mp hk), fun k hk => h.sub k ((hp k).mp hk)⟩

theorem dev_settled {s0 : St} {f : File} {d : Nat} (h : (s0.dev d).conn = settled f s0 d) : s0.dev d = { s0.dev d with conn := settled f s0 d } := by
  rw [← h]

theorem settled_none {f : File} {s0 : St} {k : Nat} (h : (s0.dev k).conn = none) : settled f s0 k = none := by unfold settled; rw [h]; rfl

/-- `getDevice` of an access point. -/
theorem getOne_ap {c f s0 s L a} (hL : LI c f s0 s L) (hi0 : Inv c s0) (ha : a ∉ L) (hads : a ∈ f.ds) (hk : c.kind a ≠ .iface) :
    (install c s a).2 = false ∧ LI c f s0 (install c s a).1 (a :: L) := by
  have hn : (s0.dev a).conn = none := (hi0.wf.ap hk).2
  have hs := settled_none (f := f) hn
  have h2 : s.dev a = { s0.dev a with conn := settled f s0 a } := by rw [hL.rest a ha]; exact dev_settled (by rw [hs, hn])
  have h3 : ∀ b, settled f s0 a = some b → b ∈ L := by intro b hb; rw [hs] at hb; cases hb
  have hr : (install c s a).2 = false := by
    cases h : (install c s a).2 with
    | false => rfl
    | true => exact absurd (install_fails hL ha hads (fun _ _ => rfl) h2 h3 hL.inv h).1 (ap_not_stranded hk)
  exact ⟨hr, install_step hL ha hads (fun _ _ => rfl) h2 h3 hL.inv hr⟩

theorem nodup_snoc {L : List Nat} {d : Nat} (h : L.Nodup) (hd : d ∉ L) : (L ++ [d]).Nodup := by
  rw [List.nodup_append]
  exact ⟨h, by simp, by rintro a ha b hb e; simp at hb; subst hb; subst e; exact hd ha⟩

theorem mem_two (k : Nat) (L : List Nat) (d a : Nat) : k ∈ L ++ [d] ++ [a] ↔ k = d ∨ k ∈ a :: L := by
  simp only [List.mem_append, List.mem_cons, List.not_mem_nil, or_false]
  constructor
  · rintro ((h | h) | h)
    · exact .inr (.inr h)
    · exact .inl h
    · exact .inr (.inl h)
  · rintro (h | h | h)
    · exact .inl (.inr h)
    · exact .inr h
    · exact .inl (.inl h)

theorem getDevice_spec {c f s0 m} (hm : MI c f s0 m) (hi0 : Inv c s0) {d : Nat} (hds : d ∈ f.ds) :
    ((getDevice c f m d).2 = false → MI c f s0 (getDevice c f m d).1 ∧ d ∈ (getDevice c f m d).1.objs ∧ ∀ k ∈ m.objs, k ∈ (getDevice c f m d).1.objs) ∧
    ((getDevice c f m d).2 = true → Stranded c f s0 d ∧ ∃ n, c.kill n = false) ∧ Inv c (getDevice c f m d).1.s := by
  unfold getDevice
  by_cases hd : d ∈ m.objs
  · rw [if_pos hd]
    exact ⟨fun _ => ⟨hm, hd, fun _ h => h⟩, by simp, hm.li.inv⟩
  · rw [if_neg hd]
    have hdev : m.s.dev d = s0.dev d := hm.li.rest d hd
    -- the device is installed, in `s1`, after what is in `L`
    have key : ∀ (s : St) (L : List Nat) (s1 : St) (O : List Nat), LI c f s0 s L → d ∉ L → (∀ k, k ≠ d → s1.dev k = s.dev k) →
        s1.dev d = { s0.dev d with conn := settled f s0 d } → (∀ a, settled f s0 d = some a → a ∈ L) → Inv c s1 →
        O.Nodup → (∀ k, k ∈ O ↔ k = d ∨ k ∈ L) → (∀ k ∈ m.objs, k ∈ L) →
        ((finishInstall c d (⟨s1, O⟩, false)).2 = false → MI c f s0 (finishInstall c d (⟨s1, O⟩, false)).1 ∧ d ∈ (finishInstall c d (⟨s1, O⟩, false)).1.objs ∧
          ∀ k ∈ m.objs, k ∈ (finishInstall c d (⟨s1, O⟩, false)).1.objs) ∧
        ((finishInstall c d (⟨s1, O⟩, false)).2 = true → Stranded c f s0 d ∧ ∃ n, c.kill n = false) ∧ Inv c (finishInstall c d (⟨s1, O⟩, false)).1.s := by
      intro s L s1 O hL hdL h1 h2 h3 hi hO hmem hsub
      refine ⟨fun hr => ⟨⟨(install_step hL hdL hds h1 h2 h3 hi hr).perm (fun k => ?_), hO⟩, ?_, fun k hk => ?_⟩, fun hr => install_fails hL hdL hds h1 h2 h3 hi hr, install_inv hi d⟩
      · show k ∈ O ↔ _
        rw [hmem k]; simp
      · exact (hmem d).mpr (.inl rfl)
      · exact (hmem k).mpr (.inr (hsub k hk))
    have plain : settled f s0 d = (s0.dev d).conn → (∀ a, settled f s0 d = some a → a ∈ m.objs) →
        ((finishInstall c d (⟨m.s, m.objs ++ [d]⟩, false)).2 = false → MI c f s0 (finishInstall c d (⟨m.s, m.objs ++ [d]⟩, false)).1 ∧ d ∈ (finishInstall c d (⟨m.s, m.objs ++ [d]⟩, false)).1.objs ∧
          ∀ k ∈ m.objs, k ∈ (finishInstall c d (⟨m.s, m.objs ++ [d]⟩, false)).1.objs) ∧
        ((finishInstall c d (⟨m.s, m.objs ++ [d]⟩, false)).2 = true → Stranded c f s0 d ∧ ∃ n, c.kill n = false) ∧ Inv c (finishInstall c d (⟨m.s, m.objs ++ [d]⟩, false)).1.s :=
      fun hs h3 => key m.s m.objs m.s (m.objs ++ [d]) hm.li hd (fun _ _ => rfl) (by rw [hdev]; exact dev_settled hs.symm) h3 hm.li.inv
        (nodup_snoc hm.nodup hd) (fun k => by simp [or_comm]) (fun _ h => h)
    cases hk : c.kind d with
    | ap r =>
      have hn : (s0.dev d).conn = none := (hi0.wf.ap (by rw [hk]; simp)).2
      have := plain (by rw [settled_none hn, hn]) (by intro a ha; rw [settled_none hn] at ha; cases ha)
      exact this
    | iface =>
      cases hc : (m.s.dev d).conn with
      | none =>
        have hn : (s0.dev d).conn = none := by rw [← hdev]; exact hc
        exact plain (by rw [settled_none hn, hn]) (by intro a ha; rw [settled_none hn] at ha; cases ha)
      | some a =>
        have hc0 : (s0.dev d).conn = some a := by rw [← hdev]; exact hc
        have hka : c.kind a ≠ .iface := settled_kind hi0.wf hc0
        have had : a ≠ d := by intro e; subst e; exact hka hk
        dsimp only
        by_cases hads : a ∈ f.ds
        · rw [if_pos hads]
          have hs : settled f s0 d = some a := settled_some.mpr ⟨hc0, hads⟩
          unfold getOne
          by_cases hal : a ∈ m.objs
          · rw [if_pos (by simp [hal])]
            exact plain (by rw [hs, hc0]) (by intro b hb; rw [hs] at hb; injection hb with hb; subst hb; exact hal)
          · rw [if_neg (by simp [hal, had])]
            dsimp only
            obtain ⟨g1, g2⟩ := getOne_ap hm.li hi0 hal hads hka
            rw [g1]
            have hdn : d ∉ a :: m.objs := by simp [hd, Ne.symm had]
            exact key (install c m.s a).1 (a :: m.objs) (install c m.s a).1 (m.objs ++ [d] ++ [a]) g2 hdn (fun _ _ => rfl)
              (by rw [g2.rest d hdn]; exact dev_settled (by rw [hs, hc0])) (by intro b hb; rw [hs] at hb; injection hb with hb; subst hb; simp)
              g2.inv (nodup_snoc (nodup_snoc hm.nodup hd) (by simp [hal, had])) (fun k => mem_two k m.objs d a) (fun k hk => by simp [hk])
        · rw [if_neg hads]
          have hs : settled f s0 d = none := by unfold settled; rw [hc0]; simp [hads]
          exact key m.s m.objs (disconnect m.s d).1 (m.objs ++ [d]) hm.li hd (fun k hkd => by unfold disconnect; rw [upd_ne m.s hkd])
            (by unfold disconnect; rw [upd_self, hdev, hs]) (by intro b hb; rw [hs] at hb; cases hb) (disconnect_inv hm.li.inv d)
            (nodup_snoc hm.nodup hd) (fun k => by simp [or_comm]) (fun _ h => h)

theorem loadLoop_spec {c f s0} (hi0 : Inv c s0) : ∀ (ds : List Nat) (m : Mgr), MI c f s0 m → (∀ d ∈ ds, d ∈ f.ds) →
    ((loadLoop c f m ds).2 = false → MI c f s0 (loadLoop c f m ds).1 ∧ (∀ d ∈ ds, d ∈ (loadLoop c f m ds).1.objs) ∧ ∀ k ∈ m.objs, k ∈ (loadLoop c f m ds).1.objs) ∧
    ((loadLoop c f m ds).2 = true → ∃ d, Stranded c f s0 d ∧ ∃ n, c.kill n = false) ∧ Inv c (loadLoop c f m ds).1.s
  | [], m, hm, _ => ⟨fun _ => ⟨hm, by simp, fun _ h => h⟩, by simp [loadLoop], hm.li.inv⟩
  | d :: ds, m, hm, hds => by
    obtain ⟨h1, h2, h3⟩ := getDevice_spec hm hi0 (hds d (by simp))
    unfold loadLoop
    cases hg : getDevice c f m d with
    | mk m' r =>
      rw [hg] at h1 h2 h3
      dsimp only at h1 h2 h3
      cases r with
      | true => exact ⟨by simp, fun _ => ⟨d, h2 rfl⟩, h3⟩
      | false =>
        obtain ⟨g1, g2, g3⟩ := h1 rfl
        obtain ⟨k1, k2, k3⟩ := loadLoop_spec hi0 ds m' g1 (fun x hx => hds x (by simp [hx]))
        refine ⟨fun hr => ?_, k2, k3⟩
        obtain ⟨l1, l2, l3⟩ := k1 hr
        refine ⟨l1, fun x hx => ?_, fun k hk => l3 k (g3 k hk)⟩
        rcases List.mem_cons.mp hx with e | hx
        · subst e; exact l3 _ g2
        · exact l2 x hx

/-- What loading does. -/
theorem load_spec {c f s0} (hi0 : Inv c s0) :
    ((load c f s0).2 = false → LI c f s0 (load c f s0).1.s f.ds ∧ (load c f s0).1.objs.Nodup ∧ ∀ k, k ∈ (load c f s0).1.objs ↔ k ∈ f.ds) ∧
    ((load c f s0).2 = true → ∃ d, Stranded c f s0 d ∧ ∃ n, c.kill n = false) ∧ Inv c (load c f s0).1.s := by
  obtain ⟨h1, h2, h3⟩ := loadLoop_spec (f := f) hi0 f.ds ⟨s0, []⟩ ⟨⟨hi0, fun _ _ => rfl, by simp, by simp⟩, by simp⟩ (fun _ h => h)
  refine ⟨fun hr => ?_, h2, h3⟩
  obtain ⟨g1, g2, _⟩ := h1 hr
  have hmem : ∀ k, k ∈ (load c f s0).1.objs ↔ k ∈ f.ds := fun k => ⟨g1.li.sub k, g2 k⟩
  exact ⟨g1.li.perm (fun k => (hmem k).symm), g1.nodup, hmem⟩

end Verif.Power
