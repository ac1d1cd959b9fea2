import Verif.Lemmas.VnicFlow
import Verif.Props.LinkNet
/-! # Lemmas: VNICs on a switch -/
namespace Verif.E2E
open Verif.Link (sent upAfter wires lossesIn)

/-! ## Histories -/

theorem exec_append (c : Link.Classes) : ∀ (a b : List Ev) (w : World), w.exec c (a ++ b) = (w.exec c a).exec c b
  | [], _, _ => rfl
  | e :: a, b, w => exec_append c a b (w.step c e)

theorem netHist_append (c : Link.Classes) : ∀ (a b : List Ev) (w : World), netHist c w (a ++ b) = netHist c w a ++ netHist c (w.exec c a) b
  | [], _, _ => rfl
  | e :: a, b, w => by
    show netEv w e ++ netHist c (w.step c e) (a ++ b) = (netEv w e ++ netHist c (w.step c e) a) ++ _
    rw [netHist_append c a b, List.append_assoc]; rfl

theorem vnicHist_append (c : Link.Classes) (u : Nat) : ∀ (a b : List Ev) (w : World), vnicHist c u w (a ++ b) = vnicHist c u w a ++ vnicHist c u (w.exec c a) b
  | [], _, _ => rfl
  | e :: a, b, w => by
    show vnicEv c w u e ++ vnicHist c u (w.step c e) (a ++ b) = (vnicEv c w u e ++ vnicHist c u (w.step c e) a) ++ _
    rw [vnicHist_append c u a b, List.append_assoc]; rfl

theorem sentBy_append (c : Link.Classes) (u : Nat) : ∀ (a b : List Ev) (w : World), sentBy c u w (a ++ b) = sentBy c u w a ++ sentBy c u (w.exec c a) b
  | [], _, _ => rfl
  | e :: a, b, w => by
    show sentNow w u e ++ sentBy c u (w.step c e) (a ++ b) = (sentNow w u e ++ sentBy c u (w.step c e) a) ++ _
    rw [sentBy_append c u a b, List.append_assoc]; rfl

theorem net_exec (c : Link.Classes) : ∀ (h : List Ev) (w : World), (w.exec c h).net = w.net.exec c (netHist c w h)
  | [], _ => rfl
  | e :: h, w => by
    show ((w.step c e).exec c h).net = w.net.exec c (netEv w e ++ netHist c (w.step c e) h)
    rw [net_exec c h, Link.exec_append]; rfl

theorem vexec_append : ∀ (a b : List Vnic.Ev) (s : Vnic.St), Vnic.exec s (a ++ b) = Vnic.exec (Vnic.exec s a) b
  | [], _, _ => rfl
  | e :: a, b, s => vexec_append a b (Vnic.step s e)

theorem vnic_exec (c : Link.Classes) (u : Nat) : ∀ (h : List Ev) (w : World), (w.exec c h).vnic u = Vnic.exec (w.vnic u) (vnicHist c u w h)
  | [], _ => rfl
  | e :: h, w => by
    show ((w.step c e).exec c h).vnic u = Vnic.exec (w.vnic u) (vnicEv c w u e ++ vnicHist c u (w.step c e) h)
    rw [vnic_exec c u h, vexec_append]; rfl

theorem vnic_reach (c : Link.Classes) (addr : Nat → Str) (h : List Ev) (u : Nat) :
    ((World.init addr).exec c h).vnic u = Vnic.exec (.init (addr u)) (vnicHist c u (.init addr) h) := vnic_exec c u h _

theorem snoc_induct {P : List Ev → Prop} (h0 : P []) (hs : ∀ h e, P h → P (h ++ [e])) (h : List Ev) : P h := by
  have : ∀ r : List Ev, P r.reverse := by
    intro r
    induction r with
    | nil => exact h0
    | cons e r ih => rw [List.reverse_cons]; exact hs _ _ ih
  have := this h.reverse
  rwa [List.reverse_reverse] at this

/-! ## The events of the connections -/

theorem writes_sent (l : Nat) (ws : List (Vnic.Key × Bytes)) (id : Nat) (m : Nat) (up : Bool) :
    sent up m (ws.map fun x => .write l (header x.1) id x.2) = if l = m ∧ up = true then (ws.flatMap fun x => Frag.write (header x.1) id x.2).map .wire else [] := by
  induction ws with
  | nil => simp [sent]
  | cons x ws ih =>
    simp only [List.map_cons, sent, ih, List.flatMap_cons, List.map_append]
    split
    · rfl
    · rfl

theorem writes_up (l : Nat) (ws : List (Vnic.Key × Bytes)) (id : Nat) (m : Nat) (up : Bool) :
    upAfter up m (ws.map fun x => .write l (header x.1) id x.2) = up := by
  induction ws with
  | nil => rfl
  | cons x ws ih => exact ih

theorem writes_losses (l : Nat) (ws : List (Vnic.Key × Bytes)) (id : Nat) : lossesIn (ws.map fun x => .write l (header x.1) id x.2) = [] := by
  induction ws with
  | nil => rfl
  | cons x ws ih => exact ih

/-- What an own event gives to the link. -/
theorem netEv_own (w : World) (v : Nat) (e : Vnic.Ev) (id : Nat) : netEv w (.own v e id) = match w.link v with
    | none => []
    | some l => if own e then (Vnic.linkNow (w.vnic v) e).map fun x => .write l (header x.1) id x.2 else [] := by
  simp only [netEv]
  cases w.link v with
  | none => rfl
  | some l =>
    dsimp only
    split
    · next h => rw [Vnic.links_step _ _ h]
    · rfl

/-! ## The links -/

/-- The connections of the VNICs. -/
structure Inv (addr : Nat → Str) (w : World) : Prop where
  vnics : ∀ v, Vnic.Inv [] (w.vnic v)
  address : ∀ v, (w.vnic v).address = addr v
  inj : ∀ u v l, w.link u = some l → w.link v = some l → u = v
  used : ∀ v l, w.link v = some l → l ∈ w.used
  up : ∀ v, (w.vnic v).linkUp = (w.link v).isSome

theorem Inv.init (addr : Nat → Str) : Inv addr (.init addr) := ⟨fun v => Vnic.Inv.init _, fun _ => rfl, nofun, nofun, fun _ => rfl⟩

theorem demuxed_up (c : Link.Classes) (n : Link.Net) (l : Nat) (e : List Link.Ev) (s : Vnic.St) : (Vnic.exec s (demuxed c n l e)).linkUp = s.linkUp := by
  unfold demuxed
  generalize ((n.exec c e).tx l).got.drop ((n.tx l).got).length = ds
  induction ds generalizing s with
  | nil => rfl
  | cons d ds ih =>
    show (Vnic.exec (Vnic.demux s (key d.1.header) d.2) _).linkUp = _
    rw [ih, Vnic.demux_linkUp]

theorem Inv.step {addr : Nat → Str} {c : Link.Classes} {w : World} (h : Inv addr w) (e : Ev) : Inv addr (w.step c e) where
  vnics := fun v => (h.vnics v).exec _
  address := fun v => by rw [← h.address v]; exact (Vnic.Grows.exec _ (h.vnics v)).address
  inj := by
    intro u v l hu hv
    simp only [World.step] at hu hv
    cases e with
    | attach x m =>
      simp only [linkEv] at hu hv
      split at hu <;> split at hv
      · next h1 h2 => rw [h1.1, h2.1]
      · next h1 h2 => cases hu; exact absurd (h.used v l hv) h1.2.2
      · next h1 h2 => cases hv; exact absurd (h.used u l hu) h2.2.2
      · exact h.inj u v l hu hv
    | detach x =>
      simp only [linkEv] at hu hv
      split at hu <;> split at hv
      · cases hu
      · cases hu
      · cases hv
      · exact h.inj u v l hu hv
    | _ => exact h.inj u v l hu hv
  used := by
    intro v l hv
    simp only [World.step] at hv ⊢
    cases e with
    | attach x m =>
      simp only [linkEv, usedEv] at hv ⊢
      split at hv
      · next h1 => cases hv; rw [if_pos h1.2]; simp
      · have := h.used v l hv
        split
        · simp [this]
        · exact this
    | detach x =>
      simp only [linkEv, usedEv] at hv ⊢
      split at hv
      · cases hv
      · exact h.used v l hv
    | _ => exact h.used v l hv
  up := by
    intro v
    have hv := h.up v
    simp only [World.step]
    cases e with
    | attach x m =>
      simp only [vnicEv, linkEv]
      split
      · rfl
      · exact hv
    | detach x =>
      simp only [vnicEv, linkEv]
      by_cases hx : v = x
      · subst hx
        rw [if_pos rfl]
        split
        · rfl
        · next hn =>
          have : w.link v = none := by
            cases hl : w.link v with
            | none => rfl
            | some l => exact absurd ⟨rfl, by rw [hl]; exact nofun⟩ hn
          rw [this] at hv
          exact hv
      · rw [if_neg (fun y => hx y.1), if_neg hx]; exact hv
    | own x e id =>
      simp only [vnicEv, linkEv]
      split
      · next hx =>
        rw [← hv]
        exact (Vnic.Out.step (w.vnic v) e hx.2).linkUp
      · exact hv
    | toHost x k =>
      simp only [vnicEv, linkEv]
      split
      · split
        · exact hv
        · rw [demuxed_up]; exact hv
      · exact hv
    | _ => exact hv

theorem Inv.exec {addr : Nat → Str} {c : Link.Classes} : ∀ (h : List Ev) {w : World}, Inv addr w → Inv addr (w.exec c h)
  | [], _, hi => hi
  | e :: h, _, hi => Inv.exec h (hi.step e)

theorem Inv.reachable (addr : Nat → Str) (c : Link.Classes) (h : List Ev) : Inv addr ((World.init addr).exec c h) := (Inv.init addr).exec h

theorem used_mono (c : Link.Classes) (w : World) (e : Ev) {l : Nat} (h : l ∈ w.used) : l ∈ (w.step c e).used := by
  simp only [World.step]
  cases e with
  | attach v m =>
    simp only [usedEv]
    split
    · simp [h]
    · exact h
  | _ => exact h

/-- A VNIC that is attached and not detached stays attached. -/
theorem link_stays (c : Link.Classes) (w : World) (e : Ev) {v l : Nat} (h : w.link v = some l) (he : e ≠ .detach v) : (w.step c e).link v = some l := by
  simp only [World.step]
  cases e with
  | attach x m =>
    simp only [linkEv]
    split
    · next hx => rw [hx.1] at h; rw [hx.2.1] at h; cases h
    · exact h
  | detach x =>
    simp only [linkEv]
    split
    · next hx => subst hx; exact absurd rfl he
    · exact h
  | _ => exact h

theorem link_stays_exec (c : Link.Classes) : ∀ (h : List Ev) (w : World) {v l : Nat}, w.link v = some l → .detach v ∉ h → (w.exec c h).link v = some l
  | [], _, _, _, hl, _ => hl
  | e :: h, w, _, _, hl, hn => link_stays_exec c h (w.step c e) (link_stays c w e hl (fun he => hn (by simp [he]))) (fun hm => hn (by simp [hm]))

/-! ## What a VNIC announces -/

theorem losses_netEv {w : World} {e : Ev} {l : Nat} (h : l ∈ lossesIn (netEv w e)) : e = .lostSwitch l := by
  cases e with
  | lostSwitch m => simp only [netEv, lossesIn, List.mem_singleton] at h; rw [h]
  | own v e id =>
    rw [netEv_own] at h
    split at h
    · cases h
    · split at h
      · rw [writes_losses] at h; cases h
      · cases h
  | attach v m => simp only [netEv] at h; split at h <;> cases h
  | detach v => simp only [netEv] at h; split at h <;> cases h
  | announce v m => simp only [netEv] at h; split at h <;> cases h
  | toHost v m => simp only [netEv] at h; split at h <;> cases h
  | accept m => cases h
  | toSwitch m k => cases h
  | timeout m k => cases h

theorem losses_netHist (c : Link.Classes) : ∀ (h : List Ev) (w : World) {l : Nat}, l ∈ lossesIn (netHist c w h) → .lostSwitch l ∈ h
  | [], _, _, hm => by cases hm
  | e :: h, w, l, hm => by
    rw [netHist, Link.lossesIn_append] at hm
    rcases List.mem_append.mp hm with hm | hm
    · rw [losses_netEv hm]; simp
    · exact List.mem_cons_of_mem _ (losses_netHist c h _ hm)

/-- The packets an unopened connection, and the connection of a VNIC, have carried. -/
theorem sent_reachable (c : Link.Classes) (addr : Nat → Str) (h : List Ev) :
    (∀ l, l ∉ ((World.init addr).exec c h).used → sent false l (netHist c (.init addr) h) = [] ∧ upAfter false l (netHist c (.init addr) h) = false) ∧
    (∀ v l, ((World.init addr).exec c h).link v = some l → upAfter false l (netHist c (.init addr) h) = true ∧
      ((∀ a, .announce v a ∉ h) → ∃ ws : List Frag.Wire, sent false l (netHist c (.init addr) h) = .announce (addr v) :: ws.map .wire)) := by
  induction h using snoc_induct with
  | h0 => exact ⟨fun l _ => ⟨rfl, rfl⟩, fun v l h => by cases h⟩
  | hs h e ih =>
    obtain ⟨ih1, ih2⟩ := ih
    have hi := Inv.reachable addr c h
    have hN : netHist c (.init addr) (h ++ [e]) = netHist c (.init addr) h ++ netEv ((World.init addr).exec c h) e := by
      rw [netHist_append]; show _ ++ (_ ++ []) = _; rw [List.append_nil]
    have hW : (World.init addr).exec c (h ++ [e]) = ((World.init addr).exec c h).step c e := by rw [exec_append]; rfl
    rw [hN, hW]
    generalize (World.init addr).exec c h = w at *
    generalize netHist c (World.init addr) h = N at *
    constructor
    · intro l hl
      have hl0 : l ∉ w.used := fun hm => hl (used_mono c w e hm)
      obtain ⟨g1, g2⟩ := ih1 l hl0
      rw [Link.sent_append, Link.upAfter_append, g1, g2]
      have other : ∀ v m, w.link v = some m → m ≠ l := fun v m hm he => hl0 (he ▸ hi.used v m hm)
      cases e with
      | own v e id =>
        rw [netEv_own]
        split
        · exact ⟨rfl, rfl⟩
        · split
          · rw [writes_sent, writes_up]; simp
          · exact ⟨rfl, rfl⟩
      | attach v m =>
        simp only [netEv]
        split
        · next hx =>
          have hne : m ≠ l := by
            intro he
            refine hl ?_
            simp only [World.step, usedEv]
            rw [if_pos hx, he]; simp
          simp [sent, upAfter, hne]
        · exact ⟨rfl, rfl⟩
      | detach v => simp only [netEv]; split <;> simp [sent, upAfter]
      | announce v a => simp only [netEv]; split <;> simp [sent, upAfter]
      | toHost v k => simp only [netEv]; split <;> simp [sent, upAfter]
      | accept m => exact ⟨rfl, rfl⟩
      | toSwitch m k => exact ⟨rfl, rfl⟩
      | timeout m k => exact ⟨rfl, rfl⟩
      | lostSwitch m => exact ⟨rfl, rfl⟩
    · intro v l hl
      by_cases hold : w.link v = some l
      · obtain ⟨g1, g2⟩ := ih2 v l hold
        rw [Link.sent_append, Link.upAfter_append, g1]
        have key : upAfter true l (netEv w e) = true ∧ ((∀ a, e ≠ .announce v a) → ∃ ws : List Frag.Wire, sent true l (netEv w e) = ws.map .wire) := by
          cases e with
          | own x e id =>
            rw [netEv_own]
            split
            · exact ⟨rfl, fun _ => ⟨[], rfl⟩⟩
            · split
              · rw [writes_sent, writes_up]
                refine ⟨rfl, fun _ => ?_⟩
                split
                · exact ⟨_, rfl⟩
                · exact ⟨[], rfl⟩
              · exact ⟨rfl, fun _ => ⟨[], rfl⟩⟩
          | attach x m =>
            simp only [netEv]
            split
            · next hx =>
              have hne : m ≠ l := fun he => hx.2 (he ▸ hi.used v l hold)
              simp only [upAfter, sent, if_neg hne]
              exact ⟨trivial, fun _ => ⟨[], rfl⟩⟩
            · exact ⟨rfl, fun _ => ⟨[], rfl⟩⟩
          | detach x =>
            simp only [netEv]
            split
            · exact ⟨rfl, fun _ => ⟨[], rfl⟩⟩
            · next m hm =>
              have hne : m ≠ l := by
                intro he
                subst he
                have := hi.inj x v m hm hold
                subst this
                simp [World.step, linkEv] at hl
              simp only [upAfter, sent, if_neg hne]
              exact ⟨trivial, fun _ => ⟨[], rfl⟩⟩
          | announce x a =>
            simp only [netEv]
            split
            · exact ⟨rfl, fun _ => ⟨[], rfl⟩⟩
            · next m hm =>
              refine ⟨rfl, fun hn => ?_⟩
              have hne : m ≠ l := by
                intro he
                subst he
                have := hi.inj x v m hm hold
                subst this
                exact hn a rfl
              simp only [sent]
              rw [if_neg (fun y => hne y.1)]
              exact ⟨[], rfl⟩
          | toHost x k => simp only [netEv]; split <;> exact ⟨rfl, fun _ => ⟨[], rfl⟩⟩
          | accept m => exact ⟨rfl, fun _ => ⟨[], rfl⟩⟩
          | toSwitch m k => exact ⟨rfl, fun _ => ⟨[], rfl⟩⟩
          | timeout m k => exact ⟨rfl, fun _ => ⟨[], rfl⟩⟩
          | lostSwitch m => exact ⟨rfl, fun _ => ⟨[], rfl⟩⟩
        refine ⟨key.1, fun hn => ?_⟩
        obtain ⟨ws, hw⟩ := g2 (fun a hm => hn a (by simp [hm]))
        obtain ⟨ws', hw'⟩ := key.2 (fun a he => hn a (by simp [he]))
        exact ⟨ws ++ ws', by rw [hw, hw']; simp⟩
      · -- attached now
        cases e with
        | attach x m =>
          simp only [World.step, linkEv] at hl
          split at hl
          · next hx =>
            have hml : m = l := Option.some.inj hl
            subst hml
            obtain ⟨g1, g2⟩ := ih1 m hx.2.2
            rw [Link.sent_append, Link.upAfter_append, g1, g2]
            simp only [netEv, if_pos hx.2, upAfter, sent, if_true]
            rw [← hx.1]
            exact ⟨trivial, fun _ => ⟨[], by rw [hi.address]; rfl⟩⟩
          · exact absurd hl hold
        | detach x =>
          simp only [World.step, linkEv] at hl
          split at hl
          · cases hl
          · exact absurd hl hold
        | _ => exact absurd hl hold

/-- Nothing is announced on the connection of an attached VNIC but by it. -/
theorem quiet_netHist (c : Link.Classes) {addr : Nat → Str} {v l : Nat} : ∀ (h : List Ev) (w : World), Inv addr w → w.link v = some l → .detach v ∉ h →
    (∀ a, .announce v a ∉ h) → ∀ x, .connect l x ∉ netHist c w h ∧ .announce l x ∉ netHist c w h
  | [], _, _, _, _, _ => fun x => ⟨nofun, nofun⟩
  | e :: h, w, hi, hl, hd, ha => fun x => by
    have ih := quiet_netHist c h (w.step c e) (hi.step e) (link_stays c w e hl (fun he => hd (by simp [he]))) (fun hm => hd (by simp [hm])) (fun a hm => ha a (by simp [hm])) x
    simp only [netHist, List.mem_append]
    have h1 : .connect l x ∉ netEv w e ∧ .announce l x ∉ netEv w e := by
      cases e with
      | own y e id =>
        rw [netEv_own]
        split
        · exact ⟨nofun, nofun⟩
        · split
          · constructor <;> (intro hm; obtain ⟨_, _, he⟩ := List.mem_map.mp hm; cases he)
          · exact ⟨nofun, nofun⟩
      | attach y m =>
        simp only [netEv]
        split
        · next hx =>
          refine ⟨fun hm => ?_, fun hm => by cases List.mem_singleton.mp hm⟩
          cases List.mem_singleton.mp hm
          exact hx.2 (hi.used v l hl)
        · exact ⟨nofun, nofun⟩
      | detach y =>
        simp only [netEv]
        split
        · exact ⟨nofun, nofun⟩
        · exact ⟨(fun hm => nomatch List.mem_singleton.mp hm), (fun hm => nomatch List.mem_singleton.mp hm)⟩
      | announce y a =>
        simp only [netEv]
        split
        · exact ⟨nofun, nofun⟩
        · next m hm =>
          refine ⟨(fun hx => nomatch List.mem_singleton.mp hx), fun hx => ?_⟩
          cases List.mem_singleton.mp hx
          have := hi.inj y v l hm hl
          subst this
          exact ha x (by simp)
      | toHost y k =>
        simp only [netEv]
        split
        · exact ⟨nofun, nofun⟩
        · exact ⟨(fun hm => nomatch List.mem_singleton.mp hm), (fun hm => nomatch List.mem_singleton.mp hm)⟩
      | accept m => exact ⟨(fun hm => nomatch List.mem_singleton.mp hm), (fun hm => nomatch List.mem_singleton.mp hm)⟩
      | toSwitch m k => exact ⟨(fun hm => nomatch List.mem_singleton.mp hm), (fun hm => nomatch List.mem_singleton.mp hm)⟩
      | timeout m k => exact ⟨(fun hm => nomatch List.mem_singleton.mp hm), (fun hm => nomatch List.mem_singleton.mp hm)⟩
      | lostSwitch m => exact ⟨(fun hm => nomatch List.mem_singleton.mp hm), (fun hm => nomatch List.mem_singleton.mp hm)⟩
    exact ⟨fun hm => hm.elim h1.1 ih.1, fun hm => hm.elim h1.2 ih.2⟩

/-- The registration of a VNIC's connection. -/
theorem OnSwitch.registered {c : Link.Classes} {addr : Nat → Str} {h1 h2 : List Ev} {v l : Nat} (h : OnSwitch c addr h1 h2 v l) :
    Link.Stays (netHist c (.init addr) h1) (netHist c ((World.init addr).exec c h1) h2) l (addr v) := by
  have hs := ((sent_reachable c addr h1).2 v l h.attached).2 (fun a hm => h.plain a (by simp [hm]))
  obtain ⟨ws, hs⟩ := hs
  refine ⟨⟨h.address, [], ws.map .wire, by rw [hs]; rfl, fun a' _ hm => ?_⟩, fun hm => h.kept (by simp [losses_netHist c _ _ hm]),
    fun hm => h.kept (by simp [losses_netHist c _ _ hm]),
    quiet_netHist c h2 _ (Inv.reachable addr c h1) h.attached h.stays (fun a hm => h.plain a (by simp [hm]))⟩
  obtain ⟨_, _, he⟩ := List.mem_map.mp hm
  cases he

/-! ## What is sent -/

theorem header_inj {k k' : Vnic.Key} (h : header k = header k') : k = k' := by
  obtain ⟨a, b, c, d⟩ := k
  obtain ⟨a', b', c', d'⟩ := k'
  cases h; rfl

theorem header_key (h : Frag.Header) : header (key h) = h := rfl

theorem key_inverse (h : Frag.Header) (k : Vnic.Key) : (key h).inverse = k.inverse ↔ h = header k := by
  obtain ⟨a, b, c, d⟩ := h
  obtain ⟨a', b', c', d'⟩ := k
  simp only [key, header, Vnic.Key.inverse, Vnic.Key.mk.injEq, Frag.Header.mk.injEq]
  constructor
  · rintro ⟨h1, h2, h3, h4⟩; exact ⟨h3, h4, h1, h2⟩
  · rintro ⟨h1, h2, h3, h4⟩; exact ⟨h3, h4, h1, h2⟩

/-- What an own event of an attached VNIC sends. -/
theorem sentNow_own {addr : Nat → Str} {w : World} (hi : Inv addr w) {v l : Nat} (hl : w.link v = some l) (e : Vnic.Ev) (id : Nat) :
    sentNow w v (.own v e id) = Vnic.linkNow (w.vnic v) e := by
  have hu : (w.vnic v).linkUp = true := by rw [hi.up, hl]; rfl
  cases e with
  | reverse n d => simp [sentNow, Vnic.linkNow, hl, hu]
  | rawWire p k d => simp [sentNow, Vnic.linkNow, hl, hu]
  | _ => rfl

theorem linkNow_own {s : Vnic.St} {e : Vnic.Ev} (h : own e = false) : Vnic.linkNow s e = [] := by cases e <;> first | rfl | cases h

theorem netEv_sent {addr : Nat → Str} {w : World} (hi : Inv addr w) {v l : Nat} (hl : w.link v = some l) (e : Vnic.Ev) (id : Nat) :
    netEv w (.own v e id) = (sentNow w v (.own v e id)).map fun x => .write l (header x.1) id x.2 := by
  rw [netEv_own, hl, sentNow_own hi hl]
  dsimp only
  split
  · rfl
  · next h => rw [linkNow_own (by simpa using h)]; rfl

theorem sentNow_nil {w : World} {v : Nat} {e : Ev} (h : ∀ e' id, e ≠ .own v e' id) : sentNow w v e = [] := by
  cases e with
  | own u e id =>
    have hu : u ≠ v := fun hu => h e id (by rw [hu])
    cases e <;> simp [sentNow, hu]
  | _ => rfl

/-- Every packet written on a connection is sent by the VNIC attached there. -/
theorem write_netEv {addr : Nat → Str} {w : World} (hi : Inv addr w) {e : Ev} {l : Nat} {hd : Frag.Header} {id : Nat} {d : Bytes} (h : .write l hd id d ∈ netEv w e) :
    ∃ u k, w.link u = some l ∧ hd = header k ∧ (k, d) ∈ sentNow w u e := by
  cases e with
  | own v e id' =>
    cases hl : w.link v with
    | none => rw [netEv_own, hl] at h; cases h
    | some m =>
      rw [netEv_sent hi hl] at h
      obtain ⟨x, hx, he⟩ := List.mem_map.mp h
      cases he
      exact ⟨v, x.1, hl, rfl, hx⟩
  | attach v m => simp only [netEv] at h; split at h; exact nomatch List.mem_singleton.mp h; cases h
  | detach v => simp only [netEv] at h; split at h; cases h; exact nomatch List.mem_singleton.mp h
  | announce v a => simp only [netEv] at h; split at h; cases h; exact nomatch List.mem_singleton.mp h
  | toHost v k => simp only [netEv] at h; split at h; cases h; exact nomatch List.mem_singleton.mp h
  | accept m => exact nomatch List.mem_singleton.mp h
  | toSwitch m k => exact nomatch List.mem_singleton.mp h
  | timeout m k => exact nomatch List.mem_singleton.mp h
  | lostSwitch m => exact nomatch List.mem_singleton.mp h

theorem write_netHist (c : Link.Classes) {addr : Nat → Str} {l : Nat} {hd : Frag.Header} {id : Nat} {d : Bytes} : ∀ (h : List Ev) {w : World}, Inv addr w →
    .write l hd id d ∈ netHist c w h → ∃ u k, hd = header k ∧ (k, d) ∈ sentBy c u w h ∧ ∀ m, w.link u = some m → .detach u ∉ h → l = m
  | [], _, _, hm => by cases hm
  | e :: h, w, hi, hm => by
    simp only [netHist, List.mem_append] at hm
    rcases hm with hm | hm
    · obtain ⟨u, k, g1, g2, g3⟩ := write_netEv hi hm
      exact ⟨u, k, g2, by simp [sentBy, g3], fun m hm _ => by rw [g1] at hm; exact Option.some.inj hm⟩
    · obtain ⟨u, k, g1, g2, g3⟩ := write_netHist c h (hi.step e) hm
      exact ⟨u, k, g1, by simp [sentBy, g2], fun m hl hd => g3 m (link_stays c w e hl (fun he => hd (by simp [he]))) (fun hx => hd (by simp [hx]))⟩

/-- The bytes of the packets with the header of `k`. -/
def bytesWith (k : Vnic.Key) (ws : List Frag.Wire) : Bytes := (ws.filter fun w => w.header = header k).flatMap (·.data)

theorem bytesWith_append (k : Vnic.Key) (a b : List Frag.Wire) : bytesWith k (a ++ b) = bytesWith k a ++ bytesWith k b := by simp [bytesWith]

theorem bytesOn_append (k : Vnic.Key) (a b : List (Vnic.Key × Bytes)) : bytesOn k (a ++ b) = bytesOn k a ++ bytesOn k b := by simp [bytesOn]

theorem write_header {hd : Frag.Header} {id : Nat} {d : Bytes} {w : Frag.Wire} (h : w ∈ Frag.write hd id d) : w.header = hd := by
  by_cases hle : d.length ≤ 2 ^ 16
  · rw [Frag.C29_sender_small _ _ _ hle] at h
    rw [List.mem_singleton.mp h]
  · exact ((Frag.C29_sender hd id d (by unfold Frag.MAX_MSG_SIZE; omega)).2.1 w h).1

theorem write_bytes (hd : Frag.Header) (id : Nat) (d : Bytes) : (Frag.write hd id d).flatMap (·.data) = d := by
  by_cases hle : d.length ≤ 2 ^ 16
  · rw [Frag.C29_sender_small _ _ _ hle]; simp
  · exact (Frag.C29_sender hd id d (by unfold Frag.MAX_MSG_SIZE; omega)).1

theorem bytesWith_write (k k' : Vnic.Key) (id : Nat) (d : Bytes) : bytesWith k (Frag.write (header k') id d) = if k' = k then d else [] := by
  unfold bytesWith
  split
  · next h =>
    subst h
    rw [List.filter_eq_self.mpr (fun w hw => by simp [write_header hw]), write_bytes]
  · next h =>
    rw [List.filter_eq_nil_iff.mpr (fun w hw => by
      rw [write_header hw]
      simp only [decide_eq_true_eq]
      exact fun he => h (header_inj he))]
    rfl

theorem bytesWith_writes (k : Vnic.Key) (id : Nat) (ws : List (Vnic.Key × Bytes)) : bytesWith k (ws.flatMap fun x => Frag.write (header x.1) id x.2) = bytesOn k ws := by
  induction ws with
  | nil => rfl
  | cons x ws ih =>
    rw [List.flatMap_cons, bytesWith_append, ih, bytesWith_write]
    simp only [bytesOn, List.filter_cons]
    split <;> simp_all

/-- The bytes an attached VNIC sends with a key are those written on its connection. -/
theorem bytes_netEv {addr : Nat → Str} {w : World} (hi : Inv addr w) {v l : Nat} (hl : w.link v = some l) (e : Ev) (he : e ≠ .detach v) (k : Vnic.Key) :
    upAfter true l (netEv w e) = true ∧ bytesWith k (wires (sent true l (netEv w e))) = bytesOn k (sentNow w v e) := by
  cases e with
  | own u e id =>
    by_cases hu : u = v
    · subst hu
      rw [netEv_sent hi hl, writes_sent, writes_up, if_pos ⟨rfl, rfl⟩, Link.wires_map, bytesWith_writes]
      exact ⟨rfl, rfl⟩
    · rw [sentNow_nil (fun e' id' hx => by cases hx; exact hu rfl)]
      cases hm : w.link u with
      | none => rw [netEv_own, hm]; exact ⟨rfl, rfl⟩
      | some m =>
        have hne : m ≠ l := fun hx => hu (hi.inj u v l (hx ▸ hm) hl)
        rw [netEv_sent hi hm, writes_sent, writes_up, if_neg (fun x => hne x.1)]
        exact ⟨rfl, rfl⟩
  | attach u m =>
    simp only [netEv]
    split
    · next hx =>
      have hne : m ≠ l := fun hy => hx.2 (hy ▸ hi.used v l hl)
      simp only [upAfter, sent, if_neg hne]
      exact ⟨trivial, rfl⟩
    · exact ⟨rfl, rfl⟩
  | detach u =>
    simp only [netEv]
    split
    · exact ⟨rfl, rfl⟩
    · next m hm =>
      have hne : m ≠ l := by
        intro hx
        subst hx
        have := hi.inj u v m hm hl
        subst this
        exact he rfl
      simp only [upAfter, sent, if_neg hne]
      exact ⟨trivial, rfl⟩
  | announce u a =>
    simp only [netEv]
    split
    · exact ⟨rfl, rfl⟩
    · refine ⟨rfl, ?_⟩
      simp only [sent]
      split <;> rfl
  | toHost u k => simp only [netEv]; split <;> exact ⟨rfl, rfl⟩
  | accept m => exact ⟨rfl, rfl⟩
  | toSwitch m k => exact ⟨rfl, rfl⟩
  | timeout m k => exact ⟨rfl, rfl⟩
  | lostSwitch m => exact ⟨rfl, rfl⟩

theorem bytes_netHist (c : Link.Classes) {addr : Nat → Str} {v l : Nat} (k : Vnic.Key) : ∀ (h : List Ev) {w : World}, Inv addr w → w.link v = some l → .detach v ∉ h →
    bytesWith k (wires (sent true l (netHist c w h))) = bytesOn k (sentBy c v w h)
  | [], _, _, _, _ => rfl
  | e :: h, w, hi, hl, hd => by
    have he : e ≠ .detach v := fun hx => hd (by simp [hx])
    obtain ⟨g1, g2⟩ := bytes_netEv hi hl e he k
    rw [netHist, Link.sent_append, g1, Link.wires_append, bytesWith_append, g2,
      bytes_netHist c k h (hi.step e) (link_stays c w e hl he) (fun hm => hd (by simp [hm])), ← bytesOn_append]
    rfl

/-! ## What arrives -/

theorem loop_got (c : Link.Classes) : ∀ (n : Nat) (t : Link.Tx) (v : Option Bytes), ∃ D, (Link.Tx.loop c n t v).got = t.got ++ D
  | 0, t, _ => ⟨[], by simp [Link.Tx.loop]⟩
  | n + 1, t, v => by
    unfold Link.Tx.loop
    split
    · exact ⟨[], by simp⟩
    · next d _ => exact loop_got c n { t with des := d } v
    · split
      · next d _ _ w _ =>
        obtain ⟨D, h⟩ := loop_got c n ⟨d, (Frag.absorb t.store w).1, t.got ++ Frag.deliver w (Frag.keep v (Frag.absorb t.store w).2)⟩ (Frag.keep v (Frag.absorb t.store w).2)
        exact ⟨Frag.deliver w (Frag.keep v (Frag.absorb t.store w).2) ++ D, by rw [h]; simp⟩
      · exact ⟨[], by simp⟩

theorem send_tx (c : Link.Classes) (l : Nat) : ∀ (ps : List Link.Pkt) (n : Link.Net), (n.send c l ps).tx = n.tx
  | [], _ => rfl
  | p :: ps, n => by
    unfold Link.Net.send
    split
    · rfl
    · next b _ => exact send_tx c l ps { n with toSwitch := Link.upd n.toSwitch l (n.toSwitch l ++ b) }

theorem forward_tx (c : Link.Classes) (p : Val) : ∀ (ds : List Nat) (n : Link.Net), (n.forward c p ds).1.tx = n.tx
  | [], _ => rfl
  | d :: ds, n => by
    unfold Link.Net.forward
    split
    · rfl
    · split
      · next b _ _ => exact forward_tx c p ds { n with toHost := Link.upd n.toHost d (n.toHost d ++ b) }
      · rfl

theorem handle_tx (c : Link.Classes) (n : Link.Net) (l : Nat) (p : Val) : (n.handle c l p).1.tx = n.tx := by
  unfold Link.Net.handle
  split
  · split <;> rfl
  · split
    · rfl
    · exact forward_tx c p _ n
  · rfl

theorem netloop_tx (c : Link.Classes) (l : Nat) : ∀ (k : Nat) (n : Link.Net), (Link.Net.loop c l k n).tx = n.tx
  | 0, _ => rfl
  | k + 1, n => by
    unfold Link.Net.loop
    split
    · rfl
    · next d _ => exact netloop_tx c l k { n with rx := Link.upd n.rx l d }
    · next p d _ =>
      have := handle_tx c { n with rx := Link.upd n.rx l d } l p
      split
      · next n' he => rw [he] at this; exact this
      · next n' he => rw [he] at this; exact (netloop_tx c l k n').trans this

/-- Only bytes that arrive at the link side of `l` make its demuxer be called. -/
theorem got_step (c : Link.Classes) (n : Link.Net) (e : Link.Ev) (l : Nat) : ∃ D, ((n.step c e).tx l).got = (n.tx l).got ++ D ∧ ((∀ k, e ≠ .toHost l k) → D = []) := by
  have same : ∀ {n' : Link.Net}, n'.tx = n.tx → ∃ D, (n'.tx l).got = (n.tx l).got ++ D ∧ ((∀ k, e ≠ .toHost l k) → D = []) := by
    intro n' h
    exact ⟨[], by rw [h]; simp, fun _ => rfl⟩
  cases e with
  | accept m => exact same rfl
  | connect m a => exact same (send_tx c m _ _)
  | announce m a => simp only [Link.Net.step]; split; exact same (send_tx c m _ _); exact same rfl
  | write m hd id d => simp only [Link.Net.step]; split; exact same (send_tx c m _ _); exact same rfl
  | toSwitch m k => simp only [Link.Net.step]; split; exact same (netloop_tx c m _ _); exact same rfl
  | toHost m k =>
    simp only [Link.Net.step]
    split
    · by_cases hm : l = m
      · subst hm
        obtain ⟨D, h⟩ := loop_got c (((n.tx l).des.update ((n.toHost l).take k)).frm.s.buf.length + 1) { n.tx l with des := (n.tx l).des.update ((n.toHost l).take k) } none
        refine ⟨D, ?_, fun hx => absurd rfl (hx k)⟩
        simp only [Link.upd, if_true]
        exact h
      · refine ⟨[], by simp [Link.upd, hm], fun _ => rfl⟩
    · exact same rfl
  | timeout m i =>
    simp only [Link.Net.step]
    refine ⟨[], ?_, fun _ => rfl⟩
    simp only [Link.upd]
    split
    · next h => subst h; simp
    · simp
  | lostSwitch m => simp only [Link.Net.step]; split <;> exact same rfl
  | lostHost m => exact same rfl

theorem got_exec (c : Link.Classes) (l : Nat) : ∀ (h : List Link.Ev) (n : Link.Net), (∀ k, .toHost l k ∉ h) → ((n.exec c h).tx l).got = (n.tx l).got
  | [], _, _ => rfl
  | e :: h, n, hn => by
    obtain ⟨D, g1, g2⟩ := got_step c n e l
    show (((n.step c e).exec c h).tx l).got = _
    rw [got_exec c l h _ (fun k hm => hn k (by simp [hm])), g1, g2 (fun k he => hn k (by simp [he])), List.append_nil]

/-- The bytes of the calls of `demux` with a header whose inverse is `k`. -/
def bytesTo (k : Vnic.Key) (D : List Frag.Delivery) : Bytes := (D.filter fun d => (key d.1.header).inverse = k).flatMap (·.2)

theorem bytesTo_append (k : Vnic.Key) (a b : List Frag.Delivery) : bytesTo k (a ++ b) = bytesTo k a ++ bytesTo k b := by simp [bytesTo]

theorem dataFor_map (k : Vnic.Key) (D : List Frag.Delivery) : Vnic.dataFor k (D.map fun d => .data (key d.1.header) d.2) = bytesTo k D := by
  induction D with
  | nil => rfl
  | cons d D ih =>
    simp only [List.map_cons, Vnic.dataFor, ih, bytesTo, List.filter_cons]
    split <;> simp_all

/-- What the VNIC gets is what the demuxer of its connection is called with. -/
theorem got_netEv (c : Link.Classes) {addr : Nat → Str} {w : World} (hi : Inv addr w) {v l : Nat} (hl : w.link v = some l) (e : Ev) (k : Vnic.Key) :
    ∃ D, (((w.step c e).net.tx l).got) = (w.net.tx l).got ++ D ∧ Vnic.dataFor k (vnicEv c w v e) = bytesTo k D := by
  have none' : (∀ j, .toHost l j ∉ netEv w e) → Vnic.dataFor k (vnicEv c w v e) = [] → ∃ D, (((w.step c e).net.tx l).got) = (w.net.tx l).got ++ D ∧
      Vnic.dataFor k (vnicEv c w v e) = bytesTo k D := by
    intro h1 h2
    refine ⟨[], ?_, by rw [h2]; rfl⟩
    show ((w.net.exec c (netEv w e)).tx l).got = _
    rw [got_exec c l _ _ h1, List.append_nil]
  cases e with
  | own u e id =>
    refine none' (fun j hm => ?_) ?_
    · rw [netEv_own] at hm
      split at hm
      · cases hm
      · split at hm
        · obtain ⟨_, _, hx⟩ := List.mem_map.mp hm; cases hx
        · cases hm
    · simp only [vnicEv]
      split
      · next h =>
        rw [Vnic.dataFor_cons]
        cases e <;> first | rfl | exact nomatch h.2
      · rfl
  | attach u m =>
    refine none' (fun j hm => ?_) ?_
    · simp only [netEv] at hm; split at hm; exact nomatch List.mem_singleton.mp hm; cases hm
    · simp only [vnicEv]; split <;> rfl
  | detach u =>
    refine none' (fun j hm => ?_) ?_
    · simp only [netEv] at hm; split at hm; cases hm; exact nomatch List.mem_singleton.mp hm
    · simp only [vnicEv]; split <;> rfl
  | announce u a =>
    refine none' (fun j hm => ?_) rfl
    simp only [netEv] at hm; split at hm; cases hm; exact nomatch List.mem_singleton.mp hm
  | toHost u j =>
    by_cases hu : u = v
    · subst hu
      simp only [World.step, netEv, vnicEv, hl, if_true, demuxed]
      obtain ⟨D, g1, _⟩ := got_step c w.net (.toHost l j) l
      have g1 : ((w.net.exec c [.toHost l j]).tx l).got = (w.net.tx l).got ++ D := g1
      refine ⟨D, g1, ?_⟩
      rw [g1, List.drop_left, dataFor_map]
    · refine none' (fun i hm => ?_) ?_
      · simp only [netEv] at hm
        split at hm
        · cases hm
        · next m hm' =>
          cases List.mem_singleton.mp hm
          exact hu (hi.inj u v l hm' hl)
      · simp only [vnicEv]; rw [if_neg (Ne.symm hu)]; rfl
  | accept m => exact none' (fun j hm => nomatch List.mem_singleton.mp hm) rfl
  | toSwitch m k => exact none' (fun j hm => nomatch List.mem_singleton.mp hm) rfl
  | timeout m k => exact none' (fun j hm => nomatch List.mem_singleton.mp hm) rfl
  | lostSwitch m => exact none' (fun j hm => nomatch List.mem_singleton.mp hm) rfl

theorem got_netHist (c : Link.Classes) {addr : Nat → Str} {v l : Nat} (k : Vnic.Key) : ∀ (h : List Ev) {w : World}, Inv addr w → w.link v = some l → .detach v ∉ h →
    ∃ D, (((w.exec c h).net.tx l).got) = (w.net.tx l).got ++ D ∧ Vnic.dataFor k (vnicHist c v w h) = bytesTo k D
  | [], _, _, _, _ => ⟨[], by simp [World.exec], rfl⟩
  | e :: h, w, hi, hl, hd => by
    obtain ⟨D, g1, g2⟩ := got_netEv c hi hl e k
    obtain ⟨D', g1', g2'⟩ := got_netHist c k h (hi.step e) (link_stays c w e hl (fun hx => hd (by simp [hx]))) (fun hm => hd (by simp [hm]))
    refine ⟨D ++ D', ?_, ?_⟩
    · show (((w.step c e).exec c h).net.tx l).got = _
      rw [g1', g1, List.append_assoc]
    · rw [vnicHist, Vnic.dataFor_append, g2, g2', bytesTo_append]

end Verif.E2E
