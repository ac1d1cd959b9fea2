import Verif.Model.Delegate
import Verif.Lemmas.Dict
/-! # C104: adapters -/
namespace Verif.Delegate
variable {V : Type}

/-- How many steps down the object is that answers for the name `n`: the first adapter that has it in its ADAPTED_ATTRIBUTES, or the object under all adapters. -/
def owner : Obj V → Str → Nat
  | .plain _, _ => 0
  | .adapter ad _ _ d, n => if n ∈ ad then 0 else owner d n + 1

/-- The last of the assignments to `n` by those who have the object `i` steps down. -/
def last (i : Nat) (n : Str) : List (Nat × Str × V) → Option V
  | [] => none
  | (j, m, v) :: h => match last i n h with
    | some w => some w
    | none => if j = i ∧ m = n then some v else none

theorem owner_writeAt (n m : Str) (v : V) : ∀ (i : Nat) (o : Obj V), owner (writeAt i o m v) n = owner o n
  | 0, .plain _ => rfl
  | 0, .adapter .. => rfl
  | i + 1, .plain _ => rfl
  | i + 1, .adapter ad c o d => by simp only [writeAt, owner]; rw [owner_writeAt n m v i d]

/-- C104. An assignment is seen through the adapters exactly when it is made on the object that answers for the name. -/
theorem C104_write_partial (n m : Str) (v : V) : ∀ (i : Nat) (o : Obj V),
    read (writeAt i o m v) n = if i = owner o n ∧ m = n then some v else read o n
  | 0, .plain a => by
    simp only [writeAt, write, read, owner, Dict.get_set, true_and]
  | 0, .adapter ad c o d => by
    simp only [writeAt, write, read, owner, Dict.get_set]
    by_cases hn : n ∈ ad
    · by_cases hm : m = n
      · subst hm; simp [hn]
      · simp [hn, hm]
    · simp [hn]
  | i + 1, .plain a => by simp [writeAt, owner]
  | i + 1, .adapter ad c o d => by
    simp only [writeAt, read, owner]
    by_cases hn : n ∈ ad
    · simp [hn]
    · simp only [hn, if_false, Nat.add_right_cancel_iff]
      exact C104_write_partial n m v i d

/-- C104. After any assignments by anybody, reading gives the last one made on the object that answers for the name; without one, what was there. -/
theorem C104_history (n : Str) : ∀ (h : List (Nat × Str × V)) (o : Obj V), read (exec o h) n = (last (owner o n) n h).or (read o n)
  | [], o => rfl
  | (j, m, v) :: h, o => by
    rw [exec, C104_history n h, owner_writeAt, C104_write_partial, last]
    cases last (owner o n) n h with
    | some w => rfl
    | none =>
      simp only [Option.none_or]
      split <;> simp

/-- C104. A name that the adapter does not list is read from its delegate. -/
theorem C104_transparent (ad : List Str) (c o : Dict Str V) (d : Obj V) (n : Str) (hn : n ∉ ad) : read (.adapter ad c o d) n = read d n := by
  simp [read, hn]

/-- C104 is false for assignments: to a name that the adapter does not list it has no effect, neither on the delegate nor on what is read. -/
theorem C104_false_assign (ad : List Str) (c o : Dict Str V) (d : Obj V) (n : Str) (v : V) (hn : n ∉ ad) :
    read (write (.adapter ad c o d) n v) n = read d n ∧ level 1 (write (.adapter ad c o d) n v) = some d := by
  simp [write, read, hn, level]

/-- A section with an adapter around it, and another one around that. -/
def ex : Obj Nat := .adapter ["save".toList] [("save".toList, 1)] [] (.adapter ["x".toList] [] [("x".toList, 2)] (.plain [("name".toList, 3)]))

example : read ex "save".toList = some 1 ∧ read ex "x".toList = some 2 ∧ read ex "name".toList = some 3 ∧ read ex "y".toList = none := by decide +kernel
example : read (exec ex [(2, "name".toList, 7), (0, "name".toList, 8), (1, "x".toList, 9), (0, "save".toList, 10)]) "name".toList = some 7 := by decide +kernel
example : read (write ex "name".toList 8) "name".toList = some 3 ∧ read (write (.plain [("name".toList, 3)]) "name".toList 8) "name".toList = some 8 := by decide +kernel

end Verif.Delegate
