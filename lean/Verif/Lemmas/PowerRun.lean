import Verif.Lemmas.PowerLoad
namespace Verif.Power
open Verif.Device

/-- A manager after it has loaded its devices, while it does something. -/
structure Run (c : Cfg) (f : File) (s0 s : St) : Prop where
  inv : Inv c s
  conn : ∀ k ∈ f.ds, (s.dev k).conn = settled f s0 k
  deps : ∀ k ∈ f.ds, (s.dev k).deps = (s.dev k).conn.toList
  sync : ∀ k ∈ f.ds, (s.dev k).status = .enabled ↔ Alive s k

theorem LI.run {c f s0 s} (h : LI c f s0 s f.ds) : Run c f s0 s :=
  ⟨h.inv, fun k hk => (h.done k hk).conn, fun k hk => (h.done k hk).deps, fun k hk => (h.done k hk).sync⟩

theorem Run.up {c f s0 s s' L} (h : Run c f s0 s) (hu : Up L s s') (hk : Keeps s s') (hi : Inv c s') : Run c f s0 s' := by
  refine ⟨hi, fun k hd => by rw [hu.conn]; exact h.conn k hd, fun k hd => by rw [hu.deps, hu.conn]; exact h.deps k hd, fun k hd => ?_⟩
  constructor
  · intro he
    by_cases hs : (s.dev k).status = .enabled
    · unfold Alive; rw [hu.same k hs]; exact (h.sync k hd).mp hs
    · exact hu.fresh k hs he
  · intro ha
    have hsafe : Safe s k := by
      by_cases hs : (s.dev k).status = .enabled
      · exact .inl hs
      · exact .inr fun hal => hs ((h.sync k hd).mpr hal)
    rcases hk k hsafe with x | x
    · exact x
    · exact absurd ha x

theorem Run.mono {c f s0 s s' L} (h : Run c f s0 s) (hu : Up L s s') {k : Nat} (hd : k ∈ f.ds) (ha : Alive s k) : Alive s' k := by
  unfold Alive; rw [hu.same k ((h.sync k hd).mpr ha)]; exact ha

theorem Run.soft {c f s0 s s' L} (h : Run c f s0 s) (hs : Soft L s s') (hi : Inv c s') : Run c f s0 s' := h.up hs.up hs.keeps hi

theorem Run.softAlive {c f s0 s s' L} (h : Run c f s0 s) (hs : Soft L s s') (hi : Inv c s') {k : Nat} (hd : k ∈ f.ds) : Alive s' k ↔ Alive s k := by
  rw [← h.sync k hd, ← (h.soft hs hi).sync k hd, hs.status]

/-! ## `enable` -/

theorem enableAp_ap {c : Cfg} {s : St} {d : Nat} (hk : c.kind d ≠ .iface) : enable c s d = enableAp c s d := by
  unfold enable
  cases h : c.kind d with
  | ap r => rfl
  | iface => exact absurd h hk

/-- A device that is waiting is not enabled by `enable`. -/
theorem enable_waiting {c : Cfg} {s : St} {d : Nat} (hi : Inv c s) (hs : (s.dev d).status = .waiting) : ((enable c s d).1.dev d).status ≠ .enabled := by
  have hk : c.kind d = .iface := Classical.byContradiction fun hn => hi.apWait d hn hs
  have hs' : (s.dev d).status ≠ .enabled := by rw [hs]; simp
  obtain ⟨s1, r, h1, h2, h3, h4, h5⟩ := enable_iface hk hs' hi
  rw [h2]
  cases r with
  | true => rw [if_pos rfl, h5]; exact hs'
  | false =>
    rw [if_neg (by simp)]
    unfold branches
    rw [h5]
    dsimp only
    rw [hs]
    dsimp only
    rw [if_pos rfl, finish_status]
    simp

/-- When `enable` raises, the device is not enabled. -/
theorem enable_raises {c : Cfg} {s : St} {d : Nat} (hi : Inv c s) (hr : (enable c s d).2 = true) : ((enable c s d).1.dev d).status ≠ .enabled := by
  by_cases hk : c.kind d = .iface
  · by_cases hs : (s.dev d).status = .enabled
    · exfalso
      have he : enabled c s d = (cleanup s d, true) := by
        unfold enabled; rw [if_neg (by rw [hk]; simp)]; simp [hs]
      unfold enable at hr
      rw [hk] at hr
      dsimp only at hr
      unfold enableWith at hr
      rw [he] at hr
      cases hr
    · obtain ⟨s1, r, h1, h2, h3, h4, h5⟩ := enable_iface hk hs hi
      rw [h2] at hr ⊢
      cases r with
      | true => rw [if_pos rfl, h5]; exact hs
      | false =>
        rw [if_neg (by simp)] at hr ⊢
        rw [(branches_spec h4.wf d).stays hr, h5]
        exact hs
  · rw [enableAp_ap hk] at hr ⊢
    unfold enableAp at hr ⊢
    by_cases hrem : c.kind d = .ap true
    · rw [if_pos hrem] at hr; cases hr
    · rw [if_neg hrem] at hr ⊢
      unfold enableWith at hr ⊢
      obtain ⟨h1, h2⟩ := enabled_spec c s d
      have hi1 := enabled_inv hi d
      cases he : enabled c s d with
      | mk s1 b =>
        rw [he] at h1 h2 hi1 hr
        dsimp only at h1 h2 hi1 hr ⊢
        cases b with
        | true => cases hr
        | false =>
          dsimp only at hr ⊢
          have hi2 := upd_inv hi1 d (fun x => { x with toggle := true }) rfl rfl rfl
          rw [machine_ap hi2.wf hk] at hr ⊢
          rw [(branches_spec hi2.wf d).stays hr, upd_self]
          show (s1.dev d).status ≠ _
          rw [h1.status]
          exact fun hh => absurd (h2.mpr (.inr hh)) (by simp)

/-- What `enable` does to the processes, whatever the launches do. -/
theorem enable_run {c f s0 s} (h : Run c f s0 s) (d : Nat) (hd : d ∈ f.ds) :
    Run c f s0 (enable c s d).1 ∧ (∀ k ∈ f.ds, Alive s k → Alive (enable c s d).1 k) ∧
    (∀ k, k ≠ d → c.kind k = .iface → (enable c s d).1.dev k = s.dev k) ∧
    (∀ k, k ∉ f.ds → (∀ a, settled f s0 d = some a → a ∈ f.ds) → (enable c s d).1.dev k = s.dev k) ∧
    (∀ k ∈ f.ds, Alive (enable c s d).1 k → ¬ Alive s k →
      (k = d ∧ (s.dev d).status ≠ .waiting ∧ (c.kind d = .iface → settled f s0 d ≠ none)) ∨ (c.kind d = .iface ∧ settled f s0 d = some k)) := by
  obtain ⟨h1, h2, h3⟩ := enable_spec h.inv.wf d
  have hrun := h.up h1 (enable_keeps h.inv.wf d) (enable_inv h.inv d)
  have hdeps : (s.dev d).deps = (settled f s0 d).toList := by rw [h.deps d hd, h.conn d hd]
  refine ⟨hrun, fun k hk => h.mono h1 hk, ?_, ?_, ?_⟩
  · intro k hkd hki
    apply h1.out
    intro hm
    rcases List.mem_cons.mp hm with e | e
    · exact hkd e
    · exact (h.inv.wf.deps d k e).2 hki
  · intro k hk hl
    apply h1.out
    intro hm
    rcases List.mem_cons.mp hm with e | e
    · exact hk (e ▸ hd)
    · rw [hdeps] at e
      exact hk (hl k (by cases hc : settled f s0 d <;> simp_all))
  · intro k hk ha hna
    have hm : k ∈ d :: (s.dev d).deps := Classical.byContradiction fun hn => hna (by unfold Alive at ha ⊢; rw [← h1.out k hn]; exact ha)
    rcases List.mem_cons.mp hm with e | e
    · subst e
      have hen := (hrun.sync k hk).mpr ha
      have hns : (s.dev k).status ≠ .enabled := fun x => hna ((h.sync k hk).mp x)
      have hrd := h3 hns hen
      refine .inl ⟨rfl, fun hw => enable_waiting h.inv hw hen, fun hki => ?_⟩
      have := hrd.1 hki
      rw [hrun.conn k hk] at this
      exact this
    · refine .inr ⟨(h.inv.wf.deps d k e).1, ?_⟩
      rw [hdeps] at e
      cases hc : settled f s0 d <;> simp_all

/-- `enable` when processes that are started run. -/
theorem enable_ok {c f s0 s} (hc : ∀ n, c.launch n = .up) (h : Run c f s0 s) (d : Nat) (hd : d ∈ f.ds) (hrem : ¬ Remote c d) :
    (enable c s d).2 = false ∧
    (c.kind d ≠ .iface → Alive (enable c s d).1 d) ∧
    (c.kind d = .iface → ¬ Alive s d → ∀ a, settled f s0 d = some a → a ∈ f.ds → ((s.dev d).status ≠ .waiting → Alive (enable c s d).1 d) ∧
      (¬ Remote c a → Alive (enable c s d).1 a)) := by
  obtain ⟨hrun, -, -, -⟩ := enable_run h d hd
  have hdeps : (s.dev d).deps = (settled f s0 d).toList := by rw [h.deps d hd, h.conn d hd]
  by_cases hk : c.kind d = .iface
  · by_cases hs : (s.dev d).status = .enabled
    · have he : enabled c s d = (cleanup s d, true) := by
        unfold enabled; rw [if_neg (by rw [hk]; simp)]; simp [hs]
      have h2 : (enable c s d).2 = false := by
        unfold enable
        rw [hk]
        dsimp only
        unfold enableWith
        rw [he]
      exact ⟨h2, fun x => absurd hk x, fun _ hna => absurd ((h.sync d hd).mp hs) hna⟩
    · obtain ⟨s1, r, h1, h2, h3, h4, h5⟩ := enable_iface hk hs h.inv
      have hks : ∀ a ∈ (s.dev d).deps, c.kind a ≠ .iface := fun a ha => (h.inv.wf.deps d a ha).2
      have hi2 : Inv c ((cleanup s d).upd d fun x => { x with toggle := true }) := by
        have := enabled_inv h.inv d
        have he : enabled c s d = (cleanup s d, false) := by
          unfold enabled; rw [if_neg (by rw [hk]; simp)]; simp [hs]
        rw [he] at this
        exact upd_inv this d (fun x => { x with toggle := true }) rfl rfl rfl
      have hon := enableDeps_works hc (s.dev d).deps _ hi2 hks
      rw [h1] at hon
      obtain ⟨hr, hon⟩ := hon
      dsimp only at hr hon
      subst hr
      rw [if_neg (by simp)] at h2
      have hbs := branches_spec h4.wf d
      have hon' : ∀ a ∈ (s.dev d).deps, On c (branches c s1 d).1 a := by
        intro a ha
        rcases hon a ha with x | x
        · exact .inl x
        · have had : a ≠ d := fun e => h.inv.wf.self d (e ▸ ha)
          exact .inr (by rw [hbs.loc.otherStatus had]; exact x)
      have hdepAlive : ∀ a, settled f s0 d = some a → a ∈ f.ds → ¬ Remote c a → Alive (branches c s1 d).1 a := by
        intro a ha hads hra
        rcases hon' a (by rw [hdeps, ha]; simp) with x | x
        · exact absurd x hra
        · rw [h2] at hrun; exact (hrun.sync a hads).mp x
      rw [h2]
      by_cases hw : (s.dev d).status = .waiting
      · have hb : branches c s1 d = finish s1 d .disabled := by
          unfold branches
          rw [h5]
          dsimp only
          rw [hw]
          dsimp only
          rw [if_pos rfl]
        refine ⟨by rw [hb]; rfl, fun x => absurd hk x, fun _ _ a ha hads => ⟨fun x => absurd hw x, hdepAlive a ha hads⟩⟩
      · have hst : (s1.dev d).status = .disabled ∨ (s1.dev d).status = .abnormal := by
          rw [h5]; dsimp only; cases hh : (s.dev d).status <;> simp_all
        have hp : (s1.dev d).proc ≠ .alive := by rw [h5]; simp
        have ht : (s1.dev d).toggle = true := by rw [h5]
        cases hcn : settled f s0 d with
        | none =>
          refine ⟨?_, fun x => absurd hk x, fun _ _ a ha => by cases ha⟩
          have hnr : dependenciesEnabled c s1 d = (s1, false) := by
            unfold dependenciesEnabled
            rw [if_pos ⟨hk, by rw [h5]; dsimp only; rw [h.conn d hd]; exact hcn⟩]
          have hb : branches c s1 d = finish s1 d .waiting := by
            unfold branches
            rcases hst with hst | hst <;> rw [hst] <;> simp only [running, hp, ht, decide_false, if_true, Bool.false_eq_true, if_false] <;> rw [hnr]
          rw [hb]; rfl
        | some a =>
          have hrd : Ready c s1 d := ⟨fun _ => by rw [h5]; dsimp only; rw [h.conn d hd, hcn]; simp, by rw [h5]; exact hon⟩
          have hb := branches_up hc h4.wf hst hp ht hrd (by rw [hk]; simp)
          refine ⟨hb.1, fun x => absurd hk x, fun _ _ b hbs hads => ⟨fun _ => ?_, ?_⟩⟩
          · rw [h2] at hrun; exact (hrun.sync d hd).mp hb.2
          · exact hdepAlive b (by rw [hcn]; exact hbs) hads
  · have := enableAp_works hc h.inv hk
    rw [← enableAp_ap hk] at this
    refine ⟨this.1, fun _ => ?_, fun x => absurd x hk⟩
    rcases this.2 with x | x
    · exact absurd x hrem
    · exact (hrun.sync d hd).mp x

/-! ## `on` -/

/-- What `on` has done since the devices were loaded (in `s1`), when `rem` remains. -/
structure OnI (c : Cfg) (f : File) (s0 s1 s : St) (rem : List Nat) : Prop where
  run : Run c f s0 s
  keep : ∀ k ∈ f.ds, Alive s1 k → Alive s k
  only : ∀ k ∈ f.ds, ¬ Remote c k → Alive s k → Alive s1 k ∨ (Wanted c f s0 k ∧ ¬ Stranded c f s0 k)
  left : ∀ k ∈ rem, c.kind k = .iface → (s.dev k).status = (s1.dev k).status
  out : ∀ k, k ∉ f.ds → s.dev k = s1.dev k

theorem settled_mem {f s0 d a} (h : settled f s0 d = some a) : a ∈ f.ds := (settled_some.mp h).2

theorem OnI.enabled {c f s0 s1 s d rem} (h : OnI c f s0 s1 s (d :: rem)) (hd : d ∈ f.ds) : OnI c f s0 s1 (enabled c s d).1 (d :: rem) := by
  obtain ⟨e1, _⟩ := enabled_spec c s d
  have hi := enabled_inv h.run.inv d
  refine ⟨h.run.soft e1 hi, fun k hk ha => (h.run.softAlive e1 hi hk).mpr (h.keep k hk ha), fun k hk hr ha => h.only k hk hr ((h.run.softAlive e1 hi hk).mp ha),
    fun k hk hki => by rw [e1.status]; exact h.left k hk hki, fun k hk => ?_⟩
  rw [e1.same (.inl (by simp only [List.mem_singleton]; intro e; exact hk (e ▸ hd)))]
  exact h.out k hk

theorem OnI.tail {c f s0 s1 s d rem} (h : OnI c f s0 s1 s (d :: rem)) : OnI c f s0 s1 s rem :=
  ⟨h.run, h.keep, h.only, fun k hk => h.left k (by simp [hk]), h.out⟩

theorem OnI.enable {c f s0 s1 s d rem} (hw1 : ∀ k ∈ f.ds, (s1.dev k).status = .waiting ↔ Stranded c f s0 k) (hi0 : Inv c s0)
    (h : OnI c f s0 s1 s (d :: rem)) (hd : d ∈ f.ds) (hn : d ∉ rem) (ha : f.auto d = true) (hrem : ¬ Remote c d) : OnI c f s0 s1 (Device.enable c s d).1 rem := by
  obtain ⟨e1, e2, e3, e4, e5⟩ := enable_run h.run d hd
  refine ⟨e1, fun k hk hal => e2 k hk (h.keep k hk hal), ?_, ?_, ?_⟩
  · intro k hk hr hal
    by_cases hka : Alive s k
    · exact h.only k hk hr hka
    · rcases e5 k hk hal hka with ⟨e, hw, hc⟩ | ⟨hki, hs⟩
      · subst e
        by_cases hki : c.kind k = .iface
        · right
          obtain ⟨a, hs⟩ := Option.ne_none_iff_exists'.mp (hc hki)
          refine ⟨.iface k a hd ha hki (settled_some.mp hs), fun hst => ?_⟩
          exact hw (by rw [h.left k (by simp) hki]; exact (hw1 k hd).mpr hst)
        · right
          refine ⟨.ap k hd ha ?_, ap_not_stranded hki⟩
          cases hkk : c.kind k with
          | ap r => cases r with
            | true => exact absurd hkk hrem
            | false => rfl
          | iface => exact absurd hkk hki
      · right
        have hl := settled_some.mp hs
        have hkk : c.kind k ≠ .iface := settled_kind hi0.wf hl.1
        refine ⟨.under d k hd ha hki hl ?_, ap_not_stranded hkk⟩
        cases hkind : c.kind k with
        | ap r => cases r with
          | true => exact absurd hkind hr
          | false => rfl
        | iface => exact absurd hkind hkk
  · intro k hk hki
    rw [e3 k (fun e => hn (e ▸ hk)) hki]
    exact h.left k (by simp [hk]) hki
  · intro k hk
    rw [e4 k hk (fun a => settled_mem)]
    exact h.out k hk

theorem not_enabled_remote {c : Cfg} {s s' : St} {d : Nat} (h : enabled c s d = (s', false)) : ¬ Remote c d := by
  intro hr
  unfold enabled at h
  rw [if_pos (show c.kind d = .ap true from hr)] at h
  cases h

theorem on_spec {c f s0 s1} (hw1 : ∀ k ∈ f.ds, (s1.dev k).status = .waiting ↔ Stranded c f s0 k) (hi0 : Inv c s0) :
    ∀ (ds : List Nat) (s : St), OnI c f s0 s1 s ds → ds.Nodup → (∀ d ∈ ds, d ∈ f.ds) → OnI c f s0 s1 (on c f s ds).1 []
  | [], s, h, _, _ => h
  | d :: ds, s, h, hnd, hds => by
    have hd := hds d (by simp)
    have hnd' := List.nodup_cons.mp hnd
    have hds' : ∀ x ∈ ds, x ∈ f.ds := fun x hx => hds x (by simp [hx])
    unfold on
    by_cases ha : f.auto d = true
    · rw [if_pos ha]
      have he := h.enabled hd
      cases hb : enabled c s d with
      | mk s' b =>
        rw [hb] at he
        cases b with
        | true => exact on_spec hw1 hi0 ds s' he.tail hnd'.2 hds'
        | false =>
          have hn := he.enable hw1 hi0 hd hnd'.1 ha (not_enabled_remote hb)
          dsimp only
          cases hen : enable c s' d with
          | mk s'' r =>
            rw [hen] at hn
            cases r with
            | true => exact ⟨hn.run, hn.keep, hn.only, by simp, hn.out⟩
            | false => exact on_spec hw1 hi0 ds s'' hn hnd'.2 hds'
    · rw [if_neg ha]
      exact on_spec hw1 hi0 ds s h.tail hnd'.2 hds'

/-- What `on` is to do for a device. -/
def Served (c : Cfg) (f : File) (s0 s : St) (d : Nat) : Prop :=
  f.auto d = true → (c.kind d = .ap false → Alive s d) ∧
    (c.kind d = .iface → ∀ a, settled f s0 d = some a → (¬ Stranded c f s0 d → Alive s d) ∧ (¬ Remote c a → Alive s a))

theorem Served.mono {c f s0 s s' d} (h : Served c f s0 s d) (hd : d ∈ f.ds) (hm : ∀ k ∈ f.ds, Alive s k → Alive s' k) : Served c f s0 s' d :=
  fun ha => ⟨fun hk => hm d hd ((h ha).1 hk), fun hk a hs => ⟨fun hn => hm d hd (((h ha).2 hk a hs).1 hn), fun hr => hm a (settled_mem hs) (((h ha).2 hk a hs).2 hr)⟩⟩

theorem on_works {c f s0 s1} (hc : ∀ n, c.launch n = .up) (hi0 : Inv c s0) (h1 : LI c f s0 s1 f.ds) :
    ∀ (ds : List Nat) (s : St), OnI c f s0 s1 s ds → ds.Nodup → (∀ d ∈ ds, d ∈ f.ds) →
      (on c f s ds).2 = false ∧ (∀ k ∈ f.ds, Alive s k → Alive (on c f s ds).1 k) ∧ ∀ d ∈ ds, Served c f s0 (on c f s ds).1 d
  | [], s, h, _, _ => ⟨rfl, fun _ _ h => h, by simp⟩
  | d :: ds, s, h, hnd, hds => by
    have hd := hds d (by simp)
    have hnd' := List.nodup_cons.mp hnd
    have hds' : ∀ x ∈ ds, x ∈ f.ds := fun x hx => hds x (by simp [hx])
    have hw1 : ∀ k ∈ f.ds, (s1.dev k).status = .waiting ↔ Stranded c f s0 k := fun k hk => (h1.done k hk).wait
    -- the rest, from a state in which the device is served
    have rest : ∀ s', OnI c f s0 s1 s' ds → (∀ k ∈ f.ds, Alive s k → Alive s' k) → Served c f s0 s' d →
        (on c f s' ds).2 = false ∧ (∀ k ∈ f.ds, Alive s k → Alive (on c f s' ds).1 k) ∧ ∀ x ∈ d :: ds, Served c f s0 (on c f s' ds).1 x := by
      intro s' hs' hm hv
      obtain ⟨g1, g2, g3⟩ := on_works hc hi0 h1 ds s' hs' hnd'.2 hds'
      refine ⟨g1, fun k hk ha => g2 k hk (hm k hk ha), fun x hx => ?_⟩
      rcases List.mem_cons.mp hx with e | hx
      · subst e; exact hv.mono hd g2
      · exact g3 x hx
    unfold on
    by_cases ha : f.auto d = true
    · rw [if_pos ha]
      have he := h.enabled hd
      obtain ⟨e1, e2⟩ := enabled_spec c s d
      have hi := enabled_inv h.run.inv d
      have hm1 : ∀ k ∈ f.ds, Alive s k → Alive (enabled c s d).1 k := fun k hk x => (h.run.softAlive e1 hi hk).mpr x
      cases hb : enabled c s d with
      | mk s' b =>
        rw [hb] at he e1 e2 hi hm1
        dsimp only at he e1 e2 hi hm1 ⊢
        cases b with
        | true =>
          refine rest s' he.tail hm1 (fun _ => ?_)
          have hon := e2.mp rfl
          refine ⟨fun hk => ?_, fun hk a hs => ?_⟩
          · rcases hon with x | x
            · rw [hk] at x; cases x
            · exact hm1 d hd ((h.run.sync d hd).mp x)
          · have hst : (s.dev d).status = .enabled := by
              rcases hon with x | x
              · rw [hk] at x; cases x
              · exact x
            have hal := (h.run.sync d hd).mp hst
            have hal1 : Alive s1 d := by
              have := h.left d (by simp) hk
              rw [hst] at this
              exact ((h1.done d hd).sync).mp this.symm
            have hal0 := ((h1.done d hd).alive).mp hal1
            refine ⟨fun _ => hm1 d hd hal, fun hra => ?_⟩
            have : ∃ a, Linked f s0 d a ∧ (Remote c a ∨ Alive s0 a) := Classical.byContradiction fun hn => hal0.2 ⟨hd, hk, hal0.1, hn⟩
            obtain ⟨b, hl, hr⟩ := this
            have : b = a := by have := settled_some.mpr hl; rw [hs] at this; injection this with this; exact this.symm
            subst this
            have hka : c.kind b ≠ .iface := settled_kind hi0.wf hl.1
            have hb0 : Alive s0 b := hr.elim (fun x => absurd x hra) (fun x => x)
            exact hm1 b hl.2 (h.keep b hl.2 (((h1.done b hl.2).alive).mpr ⟨hb0, ap_not_stranded hka⟩))
        | false =>
          have hrem := not_enabled_remote hb
          have hn := he.enable hw1 hi0 hd hnd'.1 ha hrem
          obtain ⟨g1, g2, g3⟩ := enable_ok hc he.run d hd hrem
          obtain ⟨-, m2, -⟩ := enable_run he.run d hd
          have hst := he.left d (by simp)
          have hna : ¬ Alive s d := fun x => by
            have := e2.mpr (.inr ((h.run.sync d hd).mpr x))
            cases this
          have hna' : ¬ Alive s' d := fun x => hna ((h.run.softAlive e1 hi hd).mp x)
          cases hen : enable c s' d with
          | mk s'' r =>
            rw [hen] at hn g1 g2 g3 m2
            dsimp only at hn g1 g2 g3 m2
            subst g1
            dsimp only
            rw [hen]
            refine rest s'' hn (fun k hk x => m2 k hk (hm1 k hk x)) (fun _ => ⟨fun hk => g2 (by rw [hk]; simp), fun hk a hs => ?_⟩)
            obtain ⟨q1, q2⟩ := g3 hk hna' a hs (settled_mem hs)
            refine ⟨fun hns => q1 (fun hw => hns ?_), q2⟩
            exact (hw1 d hd).mp (by rw [← hst hk]; exact hw)
    · rw [if_neg ha]
      exact rest s h.tail (fun _ _ x => x) (fun x => absurd x ha)

/-! ## `off` -/

theorem disable_run {c f s0 s} (h : Run c f s0 s) {d : Nat} (hd : d ∈ f.ds) (hrem : ¬ Remote c d) (ha : Alive s d) :
    Run c f s0 (disable c s d).1 ∧ (∀ k, k ≠ d → (disable c s d).1.dev k = s.dev k) ∧
    ((disable c s d).2 = false → ¬ Alive (disable c s d).1 d) ∧ ((disable c s d).2 = true → Alive (disable c s d).1 d ∧ c.kill s.kills = false) := by
  obtain ⟨h1, h2, _, h4⟩ := disable_spec h.inv.wf d
  obtain ⟨i1, i2, i3⟩ := h4 ((h.sync d hd).mpr ha) hrem
  have hkeep := disable_keeps h.inv.wf d
  have hcase : (disable c s d).2 = true → Alive (disable c s d).1 d ∧ c.kill s.kills = false := by
    intro hr
    have hkill : c.kill s.kills = false := by
      cases hk : c.kill s.kills with
      | false => rfl
      | true => have := i3.mpr (.inr ⟨ha, hk⟩); rw [hr] at this; cases this
    refine ⟨?_, hkill⟩
    have hen := (h.sync d hd).mpr ha
    have he : enabled c s d = (s, true) := by
      unfold enabled
      rw [if_neg (show ¬ c.kind d = .ap true from hrem)]
      congr 1
      · unfold cleanup St.upd
        cases s with
        | mk dev l kk =>
          dsimp only at hen ⊢
          congr 1; funext k
          split
          · next hh => subst hh; rw [if_pos hen]
          · rfl
      · simp [hen]
    have hm : machine c (enableAp c) (s.upd d fun x => { x with toggle := true }) d =
        andThen d .disabled (shutdown c (s.upd d fun x => { x with toggle := true }) d) := by
      unfold machine
      rw [if_neg (by rw [upd_self]; simp [hen])]
      unfold branches
      rw [upd_self, hen]; simp
    have hsh : shutdown c (s.upd d fun x => { x with toggle := true }) d = ({ (s.upd d fun x => { x with toggle := true }) with kills := s.kills + 1 }, true) := by
      unfold shutdown
      rw [upd_self]
      dsimp only
      rw [show (s.dev d).proc = .alive from ha]
      dsimp only
      rw [show (s.upd d fun x => { x with toggle := true }).kills = s.kills from rfl, hkill]
      rfl
    unfold disable
    rw [if_neg (show ¬ c.kind d = .ap true from hrem), he]
    dsimp only
    rw [hm, hsh]
    simp only [andThen]
    unfold Alive
    show ((s.upd d fun x => { x with toggle := true }).dev d).proc = .alive
    rw [upd_self]
    exact ha
  have hoff : (disable c s d).2 = false → ¬ Alive (disable c s d).1 d := fun hr x => by
    have := (i1 hr).2; unfold Alive at x; rw [this] at x; cases x
  refine ⟨⟨disable_inv h.inv d, ?_, ?_, ?_⟩, h2, hoff, hcase⟩
  · intro k hk; rw [h1.otherConn]; exact h.conn k hk
  · intro k hk; rw [h1.otherDeps, h1.otherConn]; exact h.deps k hk
  · intro k hk
    by_cases hkd : k = d
    · subst hkd
      cases hr : (disable c s k).2 with
      | false =>
        have hne : ((disable c s k).1.dev k).status ≠ .enabled := by rw [(i1 hr).1]; simp
        exact ⟨fun x => absurd x hne, fun x => absurd x (hoff hr)⟩
      | true => exact ⟨fun _ => (hcase hr).1, fun _ => i2 hr⟩
    · unfold Alive; rw [h2 k hkd]; exact h.sync k hk

theorem disable_remote {c : Cfg} {s : St} {d : Nat} (h : Remote c d) : disable c s d = (s, false) := by
  unfold disable; rw [if_pos (show c.kind d = .ap true from h)]

/-- `off`: a first part `pre` of the devices is stopped, and the others are as they were; if there are others, the first of them could not be stopped. -/
theorem off_spec {c f s0} : ∀ (ds : List Nat) (s : St), Run c f s0 s → ds.Nodup → (∀ d ∈ ds, d ∈ f.ds) →
    Run c f s0 (off c s ds).1 ∧ ∃ pre post, ds = pre ++ post ∧ (∀ k ∈ pre, ¬ Remote c k → ¬ Alive (off c s ds).1 k) ∧
      (∀ k ∈ f.ds, k ∉ pre → (Alive (off c s ds).1 k ↔ Alive s k)) ∧ (∀ k, k ∉ f.ds → (off c s ds).1.dev k = s.dev k) ∧
      ((off c s ds).2 = false → post = []) ∧
      ((off c s ds).2 = true → ∃ x p, post = x :: p ∧ ¬ Remote c x ∧ Alive s x ∧ ∃ n, c.kill n = false)
  | [], s, h, _, _ => ⟨h, [], [], rfl, by simp, fun _ _ _ => Iff.rfl, fun _ _ => rfl, fun _ => rfl, by simp [off]⟩
  | d :: ds, s, h, hnd, hds => by
    have hd := hds d (by simp)
    have hnd' := List.nodup_cons.mp hnd
    have hds' : ∀ x ∈ ds, x ∈ f.ds := fun x hx => hds x (by simp [hx])
    have rest : ∀ s', Run c f s0 s' → (∀ k ∈ f.ds, k ≠ d → (Alive s' k ↔ Alive s k)) → (¬ Remote c d → ¬ Alive s' d) → (∀ k, k ∉ f.ds → s'.dev k = s.dev k) →
        Run c f s0 (off c s' ds).1 ∧ ∃ pre post, d :: ds = pre ++ post ∧ (∀ k ∈ pre, ¬ Remote c k → ¬ Alive (off c s' ds).1 k) ∧
        (∀ k ∈ f.ds, k ∉ pre → (Alive (off c s' ds).1 k ↔ Alive s k)) ∧ (∀ k, k ∉ f.ds → (off c s' ds).1.dev k = s.dev k) ∧
        ((off c s' ds).2 = false → post = []) ∧
        ((off c s' ds).2 = true → ∃ x p, post = x :: p ∧ ¬ Remote c x ∧ Alive s x ∧ ∃ n, c.kill n = false) := by
      intro s' hr h1 h2 h3
      obtain ⟨g0, pre, post, g1, g2, g3, g4, g5, g6⟩ := off_spec ds s' hr hnd'.2 hds'
      have hdn : d ∉ pre := fun hm => hnd'.1 (by rw [g1]; simp [hm])
      refine ⟨g0, d :: pre, post, by rw [g1]; rfl, ?_, ?_, fun k hk => (g4 k hk).trans (h3 k hk), g5, ?_⟩
      · intro k hk hrk
        rcases List.mem_cons.mp hk with e | hk
        · subst e
          rw [g3 k hd hdn]; exact h2 hrk
        · exact g2 k hk hrk
      · intro k hk hkn
        simp only [List.mem_cons, not_or] at hkn
        rw [g3 k hk hkn.2, h1 k hk hkn.1]
      · intro hr
        obtain ⟨x, p, q1, q2, q3, q4⟩ := g6 hr
        have hxm : x ∈ ds := by rw [g1, q1]; simp
        have hxd : x ≠ d := fun e => hnd'.1 (e ▸ hxm)
        exact ⟨x, p, q1, q2, (h1 x (hds' x hxm) hxd).mp q3, q4⟩
    obtain ⟨e1, e2⟩ := enabled_spec c s d
    have hi := enabled_inv h.inv d
    have hm1 : ∀ k ∈ f.ds, (Alive (enabled c s d).1 k ↔ Alive s k) := fun k hk => h.softAlive e1 hi hk
    have hr1 := h.soft e1 hi
    have ho1 : ∀ k, k ∉ f.ds → (enabled c s d).1.dev k = s.dev k := fun k hk => e1.same (.inl (by simp only [List.mem_singleton]; intro e; exact hk (e ▸ hd)))
    unfold off
    cases hb : enabled c s d with
    | mk s' b =>
      rw [hb] at hi hm1 hr1 ho1 e2
      dsimp only at hi hm1 hr1 ho1 e2 ⊢
      cases b with
      | false =>
        exact rest s' hr1 (fun k hk _ => hm1 k hk) (fun _ hal => by
          have := e2.mpr (.inr ((h.sync d hd).mpr ((hm1 d hd).mp hal))); cases this) ho1
      | true =>
        dsimp only
        by_cases hrem : Remote c d
        · rw [disable_remote hrem]
          exact rest s' hr1 (fun k hk _ => hm1 k hk) (fun x => absurd hrem x) ho1
        · have hal : Alive s d := by
            rcases e2.mp rfl with x | x
            · exact absurd x hrem
            · exact (h.sync d hd).mp x
          obtain ⟨d1, d2, d3, d4⟩ := disable_run hr1 hd hrem ((hm1 d hd).mpr hal)
          cases hdis : disable c s' d with
          | mk s'' r =>
            rw [hdis] at d1 d2 d3 d4
            dsimp only at d1 d2 d3 d4 ⊢
            have hother : ∀ k ∈ f.ds, k ≠ d → (Alive s'' k ↔ Alive s k) := fun k hk hkd => by
              rw [← hm1 k hk]; unfold Alive; rw [d2 k hkd]
            have hout : ∀ k, k ∉ f.ds → s''.dev k = s.dev k := fun k hk => (d2 k (fun e => hk (e ▸ hd))).trans (ho1 k hk)
            cases r with
            | false => exact rest s'' d1 hother (fun _ => d3 rfl) hout
            | true =>
              refine ⟨d1, [], d :: ds, rfl, by simp, ?_, hout, by simp, fun _ => ⟨d, ds, rfl, hrem, hal, _, (d4 rfl).2⟩⟩
              intro k hk _
              by_cases hkd : k = d
              · subst hkd; exact ⟨fun _ => hal, fun _ => (d4 rfl).1⟩
              · exact hother k hk hkd

end Verif.Power
