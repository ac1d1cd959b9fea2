import Verif.Model.Vnic
import Verif.Lemmas.Dict
/-! # Lemmas about the VNIC: what closing can change, fuel, the invariant -/
namespace Verif
namespace Dict
set_option linter.unusedSectionVars false
variable {α β : Type} [DecidableEq α]

theorem del_sublist (d : Dict α β) (k : α) : (d.del k).Sublist d := by
  induction d with
  | nil => exact List.Sublist.refl _
  | cons x t ih =>
    obtain ⟨a, b⟩ := x
    rw [del]; split
    · exact List.sublist_cons_self _ _
    · exact ih.cons_cons _

theorem WF.sublist {d d' : Dict α β} (h : WF d) (hs : List.Sublist d' d) : WF d' :=
  List.Nodup.sublist (List.Sublist.map Prod.fst hs) h

theorem get_sublist {d d' : Dict α β} (h : WF d) (hs : List.Sublist d' d) {k : α} {v : β} (hg : d'.get k = some v) :
    d.get k = some v := get_of_mem h (hs.subset (mem_of_get hg))

end Dict

namespace Vnic

@[simp] theorem upd_self {α} (f : Nat → α) (i : Nat) (x : α) : upd f i x i = x := by simp [upd]
theorem upd_ne {α} (f : Nat → α) {i j : Nat} (x : α) (h : j ≠ i) : upd f i x j = f j := by simp [upd, h]

/-- What closing leaves unchanged, and how it changes the rest. -/
structure Closes (s s' : St) : Prop where
  address : s'.address = s.address
  cursor : s'.cursor = s.cursor
  nCtl : s'.nCtl = s.nCtl
  conn : s'.conn = s.conn
  nConn : s'.nConn = s.nConn
  spawn : s'.spawn = s.spawn
  nSpawn : s'.nSpawn = s.nSpawn
  up : s'.up = s.up
  ids : s'.ids = s.ids
  dumps : s'.dumps = s.dumps
  linkUp : s'.linkUp = s.linkUp
  ports : List.Sublist s'.ports s.ports
  conns : List.Sublist s'.conns s.conns
  out : ∃ l, s'.out = s.out ++ l ∧ ∀ e ∈ l, ∃ t, e = Eff.close t
  gone : Dict.WF s.conns → ∀ k i t, s.conns.get k = some i → (s.conn i).writer = .tr t → s'.conns.get k = none →
    Eff.close t ∈ s'.out
  ctl : ∀ c, (s'.ctl c).connectionId = (s.ctl c).connectionId ∧ (s'.ctl c).listener = (s.ctl c).listener ∧
    (s'.ctl c).proto = (s.ctl c).proto ∧ (s'.ctl c).port = (s.ctl c).port ∧
    ((s.ctl c).closed = true → (s'.ctl c).closed = true) ∧ (∀ k ∈ (s'.ctl c).spawned, k ∈ (s.ctl c).spawned)

theorem Closes.refl (s : St) : Closes s s where
  address := rfl
  cursor := rfl
  nCtl := rfl
  conn := rfl
  nConn := rfl
  spawn := rfl
  nSpawn := rfl
  up := rfl
  ids := rfl
  dumps := rfl
  linkUp := rfl
  ports := List.Sublist.refl _
  conns := List.Sublist.refl _
  out := ⟨[], by simp, by simp⟩
  gone := fun _ k i t h _ h2 => by rw [h] at h2; cases h2
  ctl := fun _ => ⟨rfl, rfl, rfl, rfl, id, fun _ h => h⟩

theorem Closes.trans {a b c : St} (h1 : Closes a b) (h2 : Closes b c) : Closes a c where
  address := h2.address.trans h1.address
  cursor := h2.cursor.trans h1.cursor
  nCtl := h2.nCtl.trans h1.nCtl
  conn := h2.conn.trans h1.conn
  nConn := h2.nConn.trans h1.nConn
  spawn := h2.spawn.trans h1.spawn
  nSpawn := h2.nSpawn.trans h1.nSpawn
  up := h2.up.trans h1.up
  ids := h2.ids.trans h1.ids
  dumps := h2.dumps.trans h1.dumps
  linkUp := h2.linkUp.trans h1.linkUp
  ports := h2.ports.trans h1.ports
  conns := h2.conns.trans h1.conns
  out := by
    obtain ⟨l, e, hl⟩ := h1.out
    obtain ⟨m, e', hm⟩ := h2.out
    refine ⟨l ++ m, by rw [e', e]; simp, ?_⟩
    intro x hx
    rcases List.mem_append.mp hx with h | h
    · exact hl x h
    · exact hm x h
  gone := fun hw k i t h ht hn => by
    cases hb : b.conns.get k with
    | none =>
      obtain ⟨m, e', _⟩ := h2.out
      rw [e']; exact List.mem_append_left _ (h1.gone hw k i t h ht hb)
    | some j =>
      have := Dict.get_sublist hw h1.conns hb
      rw [h] at this; cases this
      exact h2.gone (hw.sublist h1.conns) k i t hb (by rw [h1.conn]; exact ht) hn
  ctl := fun x => by
    obtain ⟨a1, a2, a3, a4, a5, a6⟩ := h1.ctl x
    obtain ⟨b1, b2, b3, b4, b5, b6⟩ := h2.ctl x
    exact ⟨b1.trans a1, b2.trans a2, b3.trans a3, b4.trans a4, fun h => b5 (a5 h), fun k h => a6 k (b6 k h)⟩

theorem Closes.setCtl (s : St) (c : Nat) (x : Ctl) (h1 : x.connectionId = (s.ctl c).connectionId)
    (h2 : x.listener = (s.ctl c).listener) (h3 : x.proto = (s.ctl c).proto) (h4 : x.port = (s.ctl c).port)
    (h5 : (s.ctl c).closed = true → x.closed = true) (h6 : ∀ k ∈ x.spawned, k ∈ (s.ctl c).spawned) :
    Closes s (s.setCtl c x) := by
  refine { Closes.refl s with
    ctl := ?_, out := ⟨[], by simp [St.setCtl], by simp⟩
    gone := fun _ k i t h _ h2 => by rw [show (s.setCtl c x).conns = s.conns from rfl, h] at h2; exact absurd h2 (by simp), .. } <;> try rfl
  intro y
  simp only [St.setCtl, upd]
  split
  · next h => subst h; exact ⟨h1, h2, h3, h4, h5, h6⟩
  · exact ⟨rfl, rfl, rfl, rfl, id, fun _ h => h⟩

theorem Closes.mark (s : St) (c : Nat) : Closes s (s.setCtl c { s.ctl c with closed := true, spawned := [] }) :=
  Closes.setCtl s c { s.ctl c with closed := true, spawned := [] } rfl rfl rfl rfl (fun _ => rfl) (by simp)

theorem Closes.closeWriter (s : St) (k : Key) (i : Nat) (hi : s.conns.get k = some i) :
    Closes s (Vnic.closeWriter { s with conns := s.conns.del k } (s.conn i).writer) := by
  have hg : Dict.WF s.conns → ∀ k' j t, s.conns.get k' = some j → (s.conn j).writer = .tr t →
      (s.conns.del k).get k' = none → (s.conn i).writer = .tr t := by
    intro hw k' j t h ht hn
    rw [Dict.get_del hw] at hn
    by_cases hk : k = k'
    · subst hk; rw [hi] at h; cases h; exact ht
    · rw [if_neg hk, h] at hn; cases hn
  cases hwr : (s.conn i).writer with
  | buf b =>
    exact { Closes.refl s with
      conns := Dict.del_sublist _ _
      gone := fun hw k' j t h ht hn => by have := hg hw k' j t h ht hn; rw [hwr] at this; exact absurd this (by simp), .. }
  | tr t =>
    exact { Closes.refl s with
      conns := Dict.del_sublist _ _, out := ⟨[.close t], rfl, by simp⟩
      gone := fun hw k' j t' h ht hn => by
        have := hg hw k' j t' h ht hn
        rw [hwr] at this; cases this
        simp [Vnic.closeWriter, St.emit], .. }

/-- `close` is a function of this kind. -/
def GoodClose (cl : St → Nat → St) : Prop := ∀ s c, Closes s (cl s c)

theorem GoodClose.spawned {cl} (h : GoodClose cl) (s : St) (c : Nat) (k : Key) : Closes s (spawnedClosed cl s c k) := by
  have h1 : Closes s (s.setCtl c { s.ctl c with spawned := (s.ctl c).spawned.erase k }) :=
    Closes.setCtl s c _ rfl rfl rfl rfl id (fun _ hk => List.mem_of_mem_erase hk)
  unfold spawnedClosed
  dsimp only
  split
  · exact h1.trans (h _ _)
  · exact h1

theorem GoodClose.conn {cl} (h : GoodClose cl) (s : St) (k : Key) : Closes s (closeConnWith cl s k) := by
  unfold closeConnWith
  split
  · exact .refl s
  · next i hi => exact (Closes.closeWriter s k i hi).trans (h.spawned _ _ _)

theorem GoodClose.conns {cl} (h : GoodClose cl) : ∀ (ks : List Key) (s : St), Closes s (closeConnsWith cl s ks)
  | [], s => .refl s
  | k :: ks, s => (h.conn s k).trans (h.conns ks _)

theorem GoodClose.port {cl} (h : GoodClose cl) (s : St) (p : Nat) : Closes s (closePortWith cl s p) := by
  unfold closePortWith
  split
  · exact .refl s
  · refine Closes.trans (b := { s with ports := s.ports.del p }) ?_ (h _ _)
    exact { Closes.refl s with
      ports := Dict.del_sublist _ _
      gone := fun _ k i t h _ h2 => by rw [show St.conns { s with ports := s.ports.del p } = s.conns from rfl, h] at h2; exact absurd h2 (by simp), .. }

theorem GoodClose.own {cl} (h : GoodClose cl) (s : St) (p : Option Nat) : Closes s (closeOwnPort cl s p) := by
  cases p with
  | none => exact .refl s
  | some p => exact h.port s p

theorem closeFuel_good : ∀ f, GoodClose (closeFuel f)
  | 0, s, _ => .refl s
  | f + 1, s, c => by
    rw [closeFuel]
    split
    · exact .refl s
    · have ih := closeFuel_good f
      dsimp only
      exact ((Closes.mark s c).trans (ih.conns _ _)).trans (ih.own _ _)

/-! ## Fuel -/

/-- How many control objects are open. -/
def openCount (s : St) : Nat := ((List.range s.nCtl).filter fun c => !(s.ctl c).closed).length

theorem filter_length_le {α} (p q : α → Bool) (l : List α) (h : ∀ x ∈ l, p x = true → q x = true) :
    (l.filter p).length ≤ (l.filter q).length := by
  induction l with
  | nil => simp
  | cons a l ih =>
    have ih := ih (fun x hx => h x (by simp [hx]))
    have ha := h a (by simp)
    simp only [List.filter_cons]
    split
    · next hp => rw [if_pos (ha hp)]; simpa using ih
    · split
      · simp only [List.length_cons]; omega
      · exact ih

theorem filter_length_lt {α} [DecidableEq α] (p q : α → Bool) (l : List α) (h : ∀ x ∈ l, p x = true → q x = true) (a : α) (ha : a ∈ l)
    (h1 : p a = false) (h2 : q a = true) : (l.filter p).length < (l.filter q).length := by
  induction l with
  | nil => cases ha
  | cons b l ih =>
    have hle := filter_length_le p q l (fun x hx => h x (by simp [hx]))
    have hb := h b (by simp)
    simp only [List.filter_cons]
    by_cases hab : a = b
    · subst hab
      rw [if_neg (by simp [h1]), if_pos h2]
      simp only [List.length_cons]; omega
    · have hal : a ∈ l := by
        rcases List.mem_cons.mp ha with h' | h'
        · exact absurd h' hab
        · exact h'
      have ih := ih (fun x hx => h x (by simp [hx])) hal
      split
      · next hp => rw [if_pos (hb hp)]; simpa using ih
      · split
        · simp only [List.length_cons]; omega
        · exact ih

theorem Closes.openCount {s s' : St} (h : Closes s s') : openCount s' ≤ openCount s := by
  unfold Vnic.openCount
  rw [h.nCtl]
  refine filter_length_le _ _ _ ?_
  intro c _ hc
  cases hcl : (s.ctl c).closed with
  | false => rfl
  | true => have := (h.ctl c).2.2.2.2.1 hcl; rw [this] at hc; exact hc

/-- Objects that were not created count as closed. -/
def Fresh (s : St) : Prop := ∀ c, s.nCtl ≤ c → (s.ctl c).closed = true

theorem Closes.fresh {s s' : St} (h : Closes s s') (hf : Fresh s) : Fresh s' := by
  intro c hc
  rw [h.nCtl] at hc
  exact (h.ctl c).2.2.2.2.1 (hf c hc)

/-- Two versions of `close` that agree on states with at most `n` open control objects. -/
def Agree (n : Nat) (f g : St → Nat → St) : Prop := ∀ s c, Fresh s → openCount s ≤ n → f s c = g s c

theorem Agree.conn {n f g} (h : Agree n f g) (s : St) (k : Key) (hf : Fresh s) (ho : openCount s ≤ n) :
    closeConnWith f s k = closeConnWith g s k := by
  unfold closeConnWith
  split
  · rfl
  · next i hi =>
    have h1 := Closes.closeWriter s k i hi
    unfold spawnedClosed
    dsimp only
    split
    · have h2 := h1.trans (Closes.setCtl (Vnic.closeWriter { s with conns := s.conns.del k } (s.conn i).writer)
        (s.conn i).control { (Vnic.closeWriter { s with conns := s.conns.del k } (s.conn i).writer).ctl (s.conn i).control with
          spawned := ((Vnic.closeWriter { s with conns := s.conns.del k } (s.conn i).writer).ctl (s.conn i).control).spawned.erase (s.conn i).key }
        rfl rfl rfl rfl id (fun _ hk => List.mem_of_mem_erase hk))
      exact h _ _ (h2.fresh hf) (Nat.le_trans h2.openCount ho)
    · rfl

theorem Agree.conns {n f g} (h : Agree n f g) (hg : GoodClose f) : ∀ (ks : List Key) (s : St), Fresh s → openCount s ≤ n →
    closeConnsWith f s ks = closeConnsWith g s ks
  | [], _, _, _ => rfl
  | k :: ks, s, hf, ho => by
    rw [closeConnsWith, closeConnsWith, ← h.conn s k hf ho]
    have := hg.conn s k
    exact h.conns hg ks _ (this.fresh hf) (Nat.le_trans this.openCount ho)

theorem Agree.own {n f g} (h : Agree n f g) (s : St) (p : Option Nat) (hf : Fresh s) (ho : openCount s ≤ n) :
    closeOwnPort f s p = closeOwnPort g s p := by
  cases p with
  | none => rfl
  | some p =>
    unfold closeOwnPort closePortWith
    dsimp only
    split
    · rfl
    · exact h _ _ hf ho

theorem fuel_succ : ∀ n, Agree n (closeFuel (n + 1)) (closeFuel (n + 2))
  | n, s, c, hf, ho => by
    rw [closeFuel, closeFuel]
    by_cases hc : (s.ctl c).closed = true
    · rw [if_pos hc, if_pos hc]
    · rw [if_neg hc, if_neg hc]
      dsimp only
      have hcn : c < s.nCtl := by
        rcases Nat.lt_or_ge c s.nCtl with h | h
        · exact h
        · exact absurd (hf c h) hc
      have h1 := Closes.mark s c
      have hlt : openCount (s.setCtl c { s.ctl c with closed := true, spawned := [] }) < openCount s := by
        unfold openCount
        refine filter_length_lt _ _ _ ?_ c (List.mem_range.mpr hcn) ?_ (by simpa using hc)
        · intro x _ hx
          by_cases hxc : x = c
          · subst hxc; simp [St.setCtl] at hx
          · simpa [St.setCtl, upd, hxc] using hx
        · simp [St.setCtl]
      generalize s.setCtl c { s.ctl c with closed := true, spawned := [] } = s1 at h1 hlt
      cases n with
      | zero => omega
      | succ n =>
        have ih : Agree n (closeFuel (n + 1)) (closeFuel (n + 2)) := fuel_succ n
        have hg := closeFuel_good (n + 1)
        rw [← ih.conns hg (s.ctl c).spawned s1 (h1.fresh hf) (by omega)]
        have h3 := hg.conns (s.ctl c).spawned s1
        exact ih.own _ _ ((h1.trans h3).fresh hf) (Nat.le_trans h3.openCount (by omega))

theorem openCount_le (s : St) : openCount s ≤ s.nCtl := by
  unfold openCount
  exact Nat.le_trans (List.length_filter_le _ _) (by simp)

/-- More fuel than `nCtl + 1` changes nothing: `close` is the unbounded recursion of the Python code. -/
theorem close_fuel (s : St) (c : Nat) (hf : Fresh s) : ∀ m, closeFuel (s.nCtl + 1 + m) s c = close s c
  | 0 => rfl
  | m + 1 => by
    rw [← close_fuel s c hf m]
    have := fuel_succ (s.nCtl + m) s c hf (Nat.le_trans (openCount_le s) (by omega))
    rw [show s.nCtl + 1 + (m + 1) = s.nCtl + m + 2 by omega, show s.nCtl + 1 + m = s.nCtl + m + 1 by omega, this]

end Vnic
end Verif
