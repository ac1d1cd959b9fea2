import Verif.Lemmas.Vnic
/-! # The invariant of the VNIC -/
namespace Verif.Vnic

/-- A callback connection for key `k` of control object `c` is being opened. -/
def Pending (s : St) (c : Nat) (k : Key) : Prop :=
  ∃ n, n < s.nSpawn ∧ (s.spawn n).control = c ∧ (s.spawn n).key = k ∧ (s.spawn n).stage ≠ .finished

/-- The invariant; `X`: the control objects being closed at the moment. -/
structure Inv (X : List Nat) (s : St) : Prop where
  wfp : Dict.WF s.ports
  wfc : Dict.WF s.conns
  wfi : ∀ p, Dict.WF (s.ids p)
  fresh : Fresh s
  port1 : ∀ p c, s.ports.get p = some c → c < s.nCtl ∧ (s.ctl c).port = some p ∧ ((s.ctl c).closed = true → c ∈ X)
  port2 : ∀ p c, (s.ctl c).closed = false → (s.ctl c).port = some p → s.ports.get p = some c
  conn1 : ∀ k i, s.conns.get k = some i → i < s.nConn ∧ (s.conn i).key = k
  connc : ∀ i, i < s.nConn → (s.conn i).control < s.nCtl
  spc : ∀ n, n < s.nSpawn → (s.spawn n).control < s.nCtl
  pend : ∀ k i, s.conns.get k = some i → (s.ctl (s.conn i).control).closed = false →
    k ∈ (s.ctl (s.conn i).control).spawned ∨ Pending s (s.conn i).control k
  ids : ∀ p i c, (s.ids p).get i = some c → c < s.nCtl ∧ (s.ctl c).proto = p ∧ (s.ctl c).connectionId = i
  cur : 2000 ≤ s.cursor

theorem Inv.init (a : Str) : Inv [] (.init a) where
  wfp := Dict.WF.nil
  wfc := Dict.WF.nil
  wfi := fun _ => Dict.WF.nil
  fresh := fun _ _ => rfl
  port1 := fun p c h => by simp [St.init] at h
  port2 := fun p c h _ => by simp [St.init] at h
  conn1 := fun k i h => by simp [St.init] at h
  connc := fun i h => by simp [St.init] at h
  spc := fun i h => by simp [St.init] at h
  pend := fun k i h => by simp [St.init] at h
  ids := fun p i c h => by simp [St.init] at h
  cur := by simp [St.init]

/-- What closing preserves anyway. -/
theorem Inv.closes {X Y : List Nat} {s s' : St} (h : Inv X s) (hc : Closes s s')
    (p1 : ∀ p c, s'.ports.get p = some c → (s'.ctl c).closed = true → c ∈ Y)
    (p2 : ∀ p c, (s'.ctl c).closed = false → (s'.ctl c).port = some p → s'.ports.get p = some c)
    (pe : ∀ k i, s'.conns.get k = some i → (s'.ctl (s'.conn i).control).closed = false →
      k ∈ (s.ctl (s.conn i).control).spawned → k ∈ (s'.ctl (s'.conn i).control).spawned) : Inv Y s' where
  wfp := h.wfp.sublist hc.ports
  wfc := h.wfc.sublist hc.conns
  wfi := fun p => by rw [hc.ids]; exact h.wfi p
  fresh := hc.fresh h.fresh
  port1 := fun p c hg => by
    have h1 := h.port1 p c (Dict.get_sublist h.wfp hc.ports hg)
    exact ⟨by rw [hc.nCtl]; exact h1.1, by rw [(hc.ctl c).2.2.2.1]; exact h1.2.1, p1 p c hg⟩
  port2 := p2
  conn1 := fun k i hg => by
    have := h.conn1 k i (Dict.get_sublist h.wfc hc.conns hg)
    rw [hc.nConn, hc.conn]; exact this
  connc := fun i hi => by
    rw [hc.nConn] at hi
    rw [hc.conn, hc.nCtl]; exact h.connc i hi
  spc := fun n hn => by
    rw [hc.nSpawn] at hn
    rw [hc.spawn, hc.nCtl]; exact h.spc n hn
  pend := fun k i hg ho => by
    have hop : (s.ctl (s.conn i).control).closed = false := by
      cases hcl : (s.ctl (s.conn i).control).closed with
      | false => rfl
      | true =>
        have := (hc.ctl (s.conn i).control).2.2.2.2.1 hcl
        rw [hc.conn] at ho; rw [this] at ho; cases ho
    rcases h.pend k i (Dict.get_sublist h.wfc hc.conns hg) hop with h1 | h1
    · exact .inl (pe k i hg ho h1)
    · right
      obtain ⟨n, a1, a2, a3, a4⟩ := h1
      exact ⟨n, by rw [hc.nSpawn]; exact a1, by rw [hc.spawn, hc.conn]; exact a2, by rw [hc.spawn]; exact a3,
        by rw [hc.spawn]; exact a4⟩
  ids := fun p i c hg => by
    rw [hc.ids] at hg
    have := h.ids p i c hg
    rw [hc.nCtl, (hc.ctl c).2.2.1, (hc.ctl c).1]; exact this
  cur := by rw [hc.cursor]; exact h.cur

/-- Erasing a key from the set of a control object when the connection is gone. -/
theorem Inv.erase {X : List Nat} {s : St} (h : Inv X s) (c : Nat) (k : Key) (hk : s.conns.get k = none) :
    Inv X (s.setCtl c { s.ctl c with spawned := (s.ctl c).spawned.erase k }) := by
  have hc : Closes s (s.setCtl c { s.ctl c with spawned := (s.ctl c).spawned.erase k }) :=
    Closes.setCtl s c _ rfl rfl rfl rfl id (fun _ hk => List.mem_of_mem_erase hk)
  have e1 : ∀ x, ((s.setCtl c { s.ctl c with spawned := (s.ctl c).spawned.erase k }).ctl x).closed = (s.ctl x).closed := by
    intro x; simp only [St.setCtl, upd]; split
    · next h => subst h; rfl
    · rfl
  refine h.closes hc ?_ ?_ ?_
  · intro p x hg hcl
    rw [e1] at hcl
    exact (h.port1 p x hg).2.2 hcl
  · intro p x hcl hp
    rw [e1] at hcl
    rw [(hc.ctl x).2.2.2.1] at hp
    exact h.port2 p x hcl hp
  · intro k' i hg _ hm
    have hne : k' ≠ k := by rintro rfl; rw [show (s.setCtl c _).conns = s.conns from rfl, hk] at hg; cases hg
    simp only [St.setCtl, upd]
    split
    · next he => rw [he] at hm; exact (List.mem_erase_of_ne hne).mpr hm
    · exact hm

def GoodInv (cl : St → Nat → St) : Prop := GoodClose cl ∧ ∀ X s c, Inv X s → Inv X (cl s c)

theorem Inv.drop {X : List Nat} {s : St} (h : Inv X s) (k : Key) (i : Nat) (hi : s.conns.get k = some i) :
    Inv X (closeWriter { s with conns := s.conns.del k } (s.conn i).writer) ∧
    (closeWriter { s with conns := s.conns.del k } (s.conn i).writer).conns.get k = none := by
  have hc := Closes.closeWriter s k i hi
  have e : ∀ w, (closeWriter { s with conns := s.conns.del k } w).ctl = s.ctl ∧
      (closeWriter { s with conns := s.conns.del k } w).ports = s.ports ∧
      (closeWriter { s with conns := s.conns.del k } w).conn = s.conn ∧
      (closeWriter { s with conns := s.conns.del k } w).conns = s.conns.del k := by
    intro w; cases w <;> exact ⟨rfl, rfl, rfl, rfl⟩
  refine ⟨h.closes hc ?_ ?_ ?_, ?_⟩
  · intro p c hg hcl
    rw [(e _).2.1] at hg; rw [(e _).1] at hcl
    exact (h.port1 p c hg).2.2 hcl
  · intro p c hcl hp
    rw [(e _).1] at hcl hp
    rw [(e _).2.1]
    exact h.port2 p c hcl hp
  · intro k' j _ _ hm
    rw [(e _).1, (e _).2.2.1]; exact hm
  · rw [(e _).2.2.2, Dict.get_del h.wfc, if_pos rfl]

theorem GoodInv.spawned {cl} (h : GoodInv cl) {X : List Nat} {s : St} (hs : Inv X s) (c : Nat) (k : Key)
    (hk : s.conns.get k = none) : Inv X (spawnedClosed cl s c k) := by
  unfold spawnedClosed
  dsimp only
  split
  · exact h.2 _ _ _ (hs.erase c k hk)
  · exact hs.erase c k hk

theorem GoodInv.conn {cl} (h : GoodInv cl) {X : List Nat} {s : St} (hs : Inv X s) (k : Key) :
    Inv X (closeConnWith cl s k) ∧ (closeConnWith cl s k).conns.get k = none := by
  unfold closeConnWith
  split
  · next hk => exact ⟨hs, hk⟩
  · next i hi =>
    have h1 := hs.drop k i hi
    have hkey := (hs.conn1 k i hi).2
    rw [hkey]
    refine ⟨h.spawned h1.1 _ _ h1.2, ?_⟩
    have hc := h.1.spawned (closeWriter { s with conns := s.conns.del k } (s.conn i).writer) (s.conn i).control k
    cases hg : (spawnedClosed cl (closeWriter { s with conns := s.conns.del k } (s.conn i).writer) (s.conn i).control k).conns.get k with
    | none => rfl
    | some j =>
      have := Dict.get_sublist h1.1.wfc hc.conns hg
      rw [h1.2] at this; cases this

theorem get_none_sublist {α β : Type} [DecidableEq α] {d d' : Dict α β} (h : Dict.WF d) (hs : List.Sublist d' d) {k : α}
    (hg : d.get k = none) : d'.get k = none := by
  cases h' : d'.get k with
  | none => rfl
  | some v => have := Dict.get_sublist h hs h'; rw [hg] at this; cases this

theorem GoodInv.conns {cl} (h : GoodInv cl) {X : List Nat} : ∀ (ks : List Key) {s : St}, Inv X s →
    Inv X (closeConnsWith cl s ks) ∧ ∀ k ∈ ks, (closeConnsWith cl s ks).conns.get k = none
  | [], s, hs => ⟨hs, by simp⟩
  | k :: ks, s, hs => by
    have h1 := h.conn hs k
    have h2 := h.conns ks h1.1
    refine ⟨h2.1, ?_⟩
    intro k' hk'
    rcases List.mem_cons.mp hk' with rfl | hm
    · exact get_none_sublist h1.1.wfc (h.1.conns ks _).conns h1.2
    · exact h2.2 k' hm

theorem Inv.mark {X : List Nat} {s : St} (h : Inv X s) (c : Nat) :
    Inv (c :: X) (s.setCtl c { s.ctl c with closed := true, spawned := [] }) := by
  have hc := Closes.mark s c
  refine h.closes hc ?_ ?_ ?_
  · intro p x hg hcl
    by_cases hx : x = c
    · subst hx; simp
    · simp only [St.setCtl, upd, if_neg hx] at hcl
      exact List.mem_cons_of_mem _ ((h.port1 p x hg).2.2 hcl)
  · intro p x hcl hp
    by_cases hx : x = c
    · subst hx; simp [St.setCtl] at hcl
    · simp only [St.setCtl, upd, if_neg hx] at hcl hp
      exact h.port2 p x hcl hp
  · intro k i hg hcl hm
    have hne : (s.conn i).control ≠ c := by
      intro he
      simp [St.setCtl, upd, he] at hcl
    simp only [St.setCtl, upd]
    rw [if_neg hne]; exact hm

theorem closeFuel_closed (f : Nat) (s : St) (c : Nat) (h : (s.ctl c).closed = true) : closeFuel f s c = s := by
  cases f with
  | zero => rfl
  | succ f => rw [closeFuel, if_pos h]

/-- Closing an open control object: the invariant, and the effect on its own port. -/
theorem closeFuel_inv : ∀ f, GoodInv (closeFuel f)
  | 0 => ⟨closeFuel_good 0, fun _ _ _ h => h⟩
  | f + 1 => by
    refine ⟨closeFuel_good (f + 1), ?_⟩
    intro X s c hs
    rw [closeFuel]
    by_cases hcl : (s.ctl c).closed = true
    · rw [if_pos hcl]; exact hs
    · rw [if_neg hcl]
      dsimp only
      have ih := closeFuel_inv f
      have h1 := hs.mark c
      have hc1 := Closes.mark s c
      have h2 := (ih.conns (s.ctl c).spawned h1).1
      have hc2 := ih.1.conns (s.ctl c).spawned (s.setCtl c { s.ctl c with closed := true, spawned := [] })
      have hm1 : ((s.setCtl c { s.ctl c with closed := true, spawned := [] }).ctl c).closed = true := by simp [St.setCtl]
      have hm2 := (hc2.ctl c).2.2.2.2.1 hm1
      have hpo : ((closeConnsWith (closeFuel f) (s.setCtl c { s.ctl c with closed := true, spawned := [] })
          (s.ctl c).spawned).ctl c).port = (s.ctl c).port := by
        rw [((hc1.trans hc2).ctl c).2.2.2.1]
      have hsub := (hc1.trans hc2).ports
      generalize closeConnsWith (closeFuel f) (s.setCtl c { s.ctl c with closed := true, spawned := [] })
          (s.ctl c).spawned = s2 at *
      unfold closeOwnPort
      split
      · next hpn =>
        rw [hpn] at hpo
        refine h2.closes (.refl _) ?_ h2.port2 (fun k i _ _ h => h)
        intro p x hg hx
        have := h2.port1 p x hg
        rcases List.mem_cons.mp (this.2.2 hx) with rfl | h
        · rw [hpo] at this; cases this.2.1
        · exact h
      · next p hp =>
        rw [hp] at hpo
        have hown : s.ports.get p = some c := hs.port2 p c (by simpa using hcl) hp
        unfold closePortWith
        split
        · next hpn =>
          refine h2.closes (.refl _) ?_ h2.port2 (fun k i _ _ h => h)
          intro q x hg hx
          have := h2.port1 q x hg
          rcases List.mem_cons.mp (this.2.2 hx) with rfl | h
          · rw [hpo] at this; cases this.2.1; rw [hpn] at hg; cases hg
          · exact h
        · next c' hg =>
          have : c' = c := by
            have := Dict.get_sublist hs.wfp hsub hg
            rw [hown] at this; exact (Option.some.inj this).symm
          subst this
          rw [closeFuel_closed f { s2 with ports := s2.ports.del p } c' hm2]
          have hcl3 : Closes s2 { s2 with ports := s2.ports.del p } :=
            { Closes.refl s2 with
              ports := Dict.del_sublist _ _
              gone := fun _ k i t h _ h3 => by
                rw [show St.conns { s2 with ports := s2.ports.del p } = s2.conns from rfl, h] at h3
                exact absurd h3 (by simp), .. }
          refine h2.closes hcl3 ?_ ?_ (fun k i _ _ h => h)
          · intro q x hgx hx
            rw [Dict.get_del h2.wfp] at hgx
            split at hgx
            · cases hgx
            · next hpq =>
              have := h2.port1 q x hgx
              rcases List.mem_cons.mp (this.2.2 hx) with rfl | h
              · rw [hpo] at this; cases this.2.1; exact absurd rfl hpq
              · exact h
          · intro q x hx hpx
            have := h2.port2 q x hx hpx
            show (s2.ports.del p).get q = some x
            rw [Dict.get_del h2.wfp]
            split
            · next hpq =>
              subst hpq
              rw [hg] at this; cases this
              rw [hm2] at hx; cases hx
            · exact this

theorem close_good : GoodClose close := fun s c => closeFuel_good _ s c

theorem close_inv : GoodInv close := ⟨close_good, fun X s c h => (closeFuel_inv _).2 X s c h⟩

/-- The effect of closing an open control object. -/
theorem close_effect {s : St} (h : Inv [] s) (c : Nat) (ho : (s.ctl c).closed = false) :
    ((close s c).ctl c).closed = true ∧ (∀ p, (s.ctl c).port = some p → (close s c).ports.get p = none) ∧
    (∀ k ∈ (s.ctl c).spawned, (close s c).conns.get k = none) := by
  have hc := close_good s c
  have hi := close_inv.2 [] s c h
  have hcl : ((close s c).ctl c).closed = true := by
    unfold close
    rw [closeFuel, if_neg (by rw [ho]; simp)]
    dsimp only
    have h1 := (closeFuel_good s.nCtl).conns (s.ctl c).spawned (s.setCtl c { s.ctl c with closed := true, spawned := [] })
    have h2 := (closeFuel_good s.nCtl).own (closeConnsWith (closeFuel s.nCtl) (s.setCtl c { s.ctl c with closed := true, spawned := [] })
      (s.ctl c).spawned) (s.ctl c).port
    exact ((h1.trans h2).ctl c).2.2.2.2.1 (by simp [St.setCtl])
  refine ⟨hcl, ?_, ?_⟩
  · intro p hp
    have hown := h.port2 p c ho hp
    cases hg : (close s c).ports.get p with
    | none => rfl
    | some x =>
      have := Dict.get_sublist h.wfp hc.ports hg
      rw [hown] at this; cases this
      have := (hi.port1 p c hg).2.2 hcl
      cases this
  · intro k hk
    unfold close
    rw [closeFuel, if_neg (by rw [ho]; simp)]
    dsimp only
    have h1 := (closeFuel_inv s.nCtl).conns (s.ctl c).spawned (h.mark c)
    have h2 := (closeFuel_good s.nCtl).own (closeConnsWith (closeFuel s.nCtl) (s.setCtl c { s.ctl c with closed := true, spawned := [] })
      (s.ctl c).spawned) (s.ctl c).port
    exact get_none_sublist h1.1.wfc h2.conns (h1.2 k hk)

end Verif.Vnic
