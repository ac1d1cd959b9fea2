import Verif.Spec.Extra
import Verif.Lemmas.Dict
/-! # Lemmas: what transports say about a connection -/
namespace Verif.Extra
variable {V : Type}

/-- Transports have dictionaries that exist. -/
def St.WF (s : St V) : Prop := ∀ t, t < s.nTr → (s.tr t).extra < s.nDict

theorem inherit_same (s : St V) (t low : Nat) (n : Str) :
    (s.inherit t low n).tr = s.tr ∧ (s.inherit t low n).nTr = s.nTr ∧ (s.inherit t low n).nDict = s.nDict := by
  unfold St.inherit St.put
  split <;> exact ⟨rfl, rfl, rfl⟩

theorem ask_inherit (s : St V) (t low x : Nat) (n name : Str) (d : Option V) : (s.inherit t low n).ask x name d =
    if (s.tr x).extra = (s.tr t).extra ∧ name = n ∧ s.ask t n none = none then s.ask low n none else s.ask x name d := by
  unfold St.inherit
  cases h : s.ask t n none with
  | some v => simp
  | none =>
    simp only [and_true]
    split
    · next hx =>
      obtain ⟨h1, h2⟩ := hx
      rw [h2]
      show ((if (s.tr x).extra = (s.tr t).extra then (s.dict (s.tr x).extra).set n (s.ask low n none) else s.dict (s.tr x).extra).get n).getD d = _
      rw [if_pos h1, Dict.get_set_self]
      rfl
    · next hx =>
      show ((if (s.tr x).extra = (s.tr t).extra then (s.dict (s.tr x).extra).set n (s.ask low n none) else s.dict (s.tr x).extra).get name).getD d = _
      split
      · next h1 => rw [Dict.get_set_ne _ _ (fun e => hx ⟨h1, e.symm⟩)]; rfl
      · rfl

theorem inherits_same (s : St V) (t low : Nat) :
    (s.inherits t low).tr = s.tr ∧ (s.inherits t low).nTr = s.nTr ∧ (s.inherits t low).nDict = s.nDict := by
  unfold St.inherits
  obtain ⟨a1, a2, a3⟩ := inherit_same s t low "sockname".toList
  obtain ⟨b1, b2, b3⟩ := inherit_same (s.inherit t low "sockname".toList) t low "peername".toList
  obtain ⟨c1, c2, c3⟩ := inherit_same ((s.inherit t low "sockname".toList).inherit t low "peername".toList) t low "spawnport".toList
  exact ⟨by rw [c1, b1, a1], by rw [c2, b2, a2], by rw [c3, b3, a3]⟩

theorem ask_other (s : St V) (t low x : Nat) {n name : Str} (d : Option V) (h : name ≠ n) : (s.inherit t low n).ask x name d = s.ask x name d := by
  rw [ask_inherit, if_neg (fun hx => h hx.2.1)]

theorem ask_three (s : St V) (t low x : Nat) (a b c name : Str) (d : Option V) (hab : a ≠ b) (hac : a ≠ c) (hbc : b ≠ c) :
    (((s.inherit t low a).inherit t low b).inherit t low c).ask x name d =
    if (s.tr x).extra = (s.tr t).extra ∧ name ∈ [a, b, c] ∧ s.ask t name none = none then s.ask low name none else s.ask x name d := by
  have t1 := (inherit_same s t low a).1
  have t2 := (inherit_same (s.inherit t low a) t low b).1
  by_cases h3 : name = c
  · subst h3
    rw [ask_inherit, t2, t1]
    rw [ask_other _ _ _ _ _ hbc.symm, ask_other _ _ _ _ _ hbc.symm, ask_other _ _ _ _ _ hbc.symm, ask_other _ _ _ _ _ hac.symm, ask_other _ _ _ _ _ hac.symm, ask_other _ _ _ _ _ hac.symm]
    simp
  · rw [ask_other _ _ _ _ _ h3]
    by_cases h2 : name = b
    · subst h2
      rw [ask_inherit, t1]
      rw [ask_other _ _ _ _ _ hab.symm, ask_other _ _ _ _ _ hab.symm, ask_other _ _ _ _ _ hab.symm]
      simp
    · rw [ask_other _ _ _ _ _ h2, ask_inherit]
      by_cases h1 : name = a
      · subst h1; simp
      · simp [h1, h2, h3]

theorem ask_inherits (s : St V) (t low x : Nat) (name : Str) (d : Option V) : (s.inherits t low).ask x name d =
    if (s.tr x).extra = (s.tr t).extra ∧ name ∈ names ∧ s.ask t name none = none then s.ask low name none else s.ask x name d :=
  ask_three s t low x _ _ _ name d (by decide) (by decide) (by decide)

theorem stack_some (s : St V) (low d : Nat) : (s.stack low (some d)).nTr = s.nTr + 1 ∧ (s.stack low (some d)).nDict = s.nDict ∧
    (s.stack low (some d)).tr = (fun i => if i = s.nTr then ⟨some low, d⟩ else s.tr i) := by
  obtain ⟨h1, h2, h3⟩ := inherits_same (s.newTr (some low) d) s.nTr low
  exact ⟨h2, h3, h1⟩

theorem stack_none (s : St V) (low : Nat) : (s.stack low none).nTr = s.nTr + 1 ∧ (s.stack low none).nDict = s.nDict + 1 ∧
    (s.stack low none).tr = (fun i => if i = s.nTr then ⟨some low, s.nDict⟩ else s.tr i) := by
  obtain ⟨h1, h2, h3⟩ := inherits_same ((s.newDict []).newTr (some low) s.nDict) s.nTr low
  exact ⟨h2, h3, h1⟩

theorem ask_newTr (s : St V) (l : Option Nat) (d x : Nat) (hx : x < s.nTr) (name : Str) (dflt : Option V) : (s.newTr l d).ask x name dflt = s.ask x name dflt := by
  unfold St.newTr St.ask
  dsimp only
  rw [if_neg (by omega)]

theorem ask_newDict {s : St V} (hw : s.WF) (d : Info V) {x : Nat} (hx : x < s.nTr) (name : Str) (dflt : Option V) : (s.newDict d).ask x name dflt = s.ask x name dflt := by
  unfold St.newDict St.ask
  dsimp only
  have := hw x hx
  rw [if_neg (by omega)]

/-- What the transports say after a `StackingTransport` was made with a dictionary. -/
theorem ask_stack {s : St V} {low d x : Nat} (hl : low < s.nTr) (name : Str) (dflt : Option V) : (s.stack low (some d)).ask x name dflt =
    if ((s.newTr (some low) d).tr x).extra = d ∧ name ∈ names ∧ ((s.dict d).get name).getD none = none then s.ask low name none else (s.newTr (some low) d).ask x name dflt := by
  show ((s.newTr (some low) d).inherits s.nTr low).ask x name dflt = _
  rw [ask_inherits, ask_newTr _ _ _ _ hl]
  have e : ((s.newTr (some low) d).tr s.nTr).extra = d := by simp [St.newTr]
  have e' : (s.newTr (some low) d).ask s.nTr name none = ((s.dict d).get name).getD none := by unfold St.ask; rw [e]; rfl
  rw [e, e']

/-- And without one. -/
theorem ask_stack_none {s : St V} (hw : s.WF) {low : Nat} (hl : low < s.nTr) (name : Str) (dflt : Option V) :
    (s.stack low none).ask s.nTr name dflt = (if name ∈ names then s.ask low name none else dflt) ∧
    ∀ x, x < s.nTr → (s.stack low none).ask x name dflt = s.ask x name dflt := by
  have e0 : s.stack low none = (s.newDict []).stack low (some s.nDict) := rfl
  rw [e0]
  have hl' : low < (s.newDict ([] : Info V)).nTr := hl
  refine ⟨?_, fun x hx => ?_⟩
  · rw [ask_stack hl', ask_newDict hw [] hl]
    have e1 : (((s.newDict []).newTr (some low) s.nDict).tr s.nTr).extra = s.nDict := by simp [St.newTr, St.newDict]
    have e2 : (s.newDict ([] : Info V)).dict s.nDict = [] := by simp [St.newDict]
    have e3 : ((s.newDict []).newTr (some low) s.nDict).ask s.nTr name dflt = dflt := by
      unfold St.ask
      rw [e1]
      show (((s.newDict ([] : Info V)).dict s.nDict).get name).getD dflt = dflt
      rw [e2]
      rfl
    rw [e1, e2, e3]
    simp
  · rw [ask_stack hl', ask_newTr _ _ _ _ (show x < (s.newDict ([] : Info V)).nTr from hx), ask_newDict hw [] hx, if_neg]
    rintro ⟨h, -⟩
    have e1 : (((s.newDict ([] : Info V)).newTr (some low) s.nDict).tr x).extra = (s.tr x).extra := by
      show (if x = s.nTr then (⟨some low, s.nDict⟩ : Tr) else s.tr x).extra = _
      rw [if_neg (by omega)]
    rw [e1] at h
    have := hw x hx
    omega

theorem St.WF.init : (St.init : St V).WF := fun t ht => by cases ht

theorem St.WF.newDict {s : St V} (h : s.WF) (d : Info V) : (s.newDict d).WF := fun t ht => Nat.lt_succ_of_lt (h t ht)

theorem St.WF.stack {s : St V} (h : s.WF) (low d : Nat) (hd : d < s.nDict) : (s.stack low (some d)).WF := by
  obtain ⟨h1, h2, h3⟩ := stack_some s low d
  intro t ht
  rw [h1] at ht
  rw [h2, h3]
  dsimp only
  split
  · exact hd
  · exact h t (by omega)

theorem St.WF.step {s : St V} (h : s.WF) (e : Ev V) : (s.step e).WF := by
  cases e with
  | dict d => exact h.newDict d
  | put d name v =>
    simp only [St.step]
    split <;> exact h
  | base d =>
    intro t ht
    have ht' : t < s.nTr + 1 := ht
    show (if t = s.nTr then (⟨none, s.nDict⟩ : Tr) else s.tr t).extra < s.nDict + 1
    split
    · exact Nat.lt_succ_self _
    · exact Nat.lt_succ_of_lt (h t (by omega))
  | stack low extra =>
    cases extra with
    | none =>
      simp only [St.step]
      split
      · exact (h.newDict []).stack low s.nDict (Nat.lt_succ_self _)
      · exact h
    | some d =>
      simp only [St.step]
      split
      · next hx => exact h.stack low d hx.2
      · exact h

theorem St.WF.exec : (h : List (Ev V)) → ∀ {s : St V}, s.WF → (s.exec h).WF
  | [], _, hw => hw
  | e :: h, _, hw => St.WF.exec h (St.WF.step hw e)

theorem Reached.wf {s : St V} (h : Reached s) : s.WF := by
  obtain ⟨h, rfl⟩ := h
  exact St.WF.exec h .init

theorem exec_append : (h1 h2 : List (Ev V)) → ∀ (s : St V), s.exec (h1 ++ h2) = (s.exec h1).exec h2
  | [], _, _ => rfl
  | _ :: h1, h2, _ => exec_append h1 h2 _

/-- Other transports leave a dictionary as it is. -/
theorem step_keeps {s : St V} (hw : s.WF) {t : Nat} (ht : t < s.nTr) (e : Ev V) (he : ¬ Touches (s.tr t).extra e) :
    t < (s.step e).nTr ∧ (s.step e).tr t = s.tr t ∧ ∀ name dflt, (s.step e).ask t name dflt = s.ask t name dflt := by
  cases e with
  | dict d => exact ⟨ht, rfl, fun name dflt => ask_newDict hw d ht name dflt⟩
  | put d name v =>
    simp only [St.step]
    split
    · refine ⟨ht, rfl, fun name' dflt => ?_⟩
      unfold St.put St.ask
      dsimp only
      rw [if_neg (fun e => he e.symm)]
    · exact ⟨ht, rfl, fun _ _ => rfl⟩
  | base d =>
    refine ⟨Nat.lt_succ_of_lt ht, ?_, fun name dflt => ?_⟩
    · show (if t = s.nTr then (⟨none, s.nDict⟩ : Tr) else s.tr t) = _
      rw [if_neg (by omega)]
    · show ((s.newDict d).newTr none s.nDict).ask t name dflt = _
      rw [ask_newTr _ _ _ _ (show t < (s.newDict d).nTr from ht), ask_newDict hw d ht]
  | stack low extra =>
    cases extra with
    | none =>
      simp only [St.step]
      split
      · next hl =>
        obtain ⟨h1, h2, h3⟩ := stack_none s low
        refine ⟨by omega, ?_, fun name dflt => (ask_stack_none hw hl name dflt).2 t ht⟩
        rw [h3]
        dsimp only
        rw [if_neg (by omega)]
      · exact ⟨ht, rfl, fun _ _ => rfl⟩
    | some d =>
      simp only [St.step]
      split
      · next hl =>
        obtain ⟨h1, h2, h3⟩ := stack_some s low d
        refine ⟨by omega, ?_, fun name dflt => ?_⟩
        · rw [h3]
          dsimp only
          rw [if_neg (by omega)]
        · rw [ask_stack hl.1, ask_newTr _ _ _ _ ht, if_neg]
          rintro ⟨h, -⟩
          simp only [St.newTr] at h
          rw [if_neg (by omega)] at h
          exact he (congrArg some h.symm)
      · exact ⟨ht, rfl, fun _ _ => rfl⟩

theorem stack_wf {s : St V} (hw : s.WF) (low : Nat) : (s.stack low none).WF :=
  (St.WF.newDict hw []).stack low s.nDict (Nat.lt_succ_self _)

theorem layers_ask : (n : Nat) → ∀ {s : St V}, s.WF → ∀ {t : Nat}, t < s.nTr → ∀ {name : Str}, name ∈ names → (dflt : Option V) → (s.ask t name dflt = s.ask t name none) →
    ((s.layers t n).1).ask ((s.layers t n).2) name dflt = s.ask t name none
  | 0, s, _, t, _, _, _, dflt, hd => hd
  | n + 1, s, hw, t, ht, name, hn, dflt, hd => by
    have h := (ask_stack_none hw ht name dflt).1
    have h' := (ask_stack_none hw ht name none).1
    rw [if_pos hn] at h h'
    have := layers_ask n (stack_wf hw t) (t := s.nTr) (by rw [(stack_none s t).1]; exact Nat.lt_succ_self _) hn dflt (h.trans h'.symm)
    exact this.trans h'

end Verif.Extra
