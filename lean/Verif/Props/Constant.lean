import Verif.Model.Constant
import Verif.Lemmas.PyStr
/-! # C105: keys of connections; C106: constants -/
namespace Verif.Constant

/-- C105. Two keys are equal exactly when they have the same four parts, and then they have the same hash: they are interchangeable in dictionaries. -/
theorem C105_eq_partial (tuple : List Part → Int) (k m : PKey) : (k.eq (.key m) = some true ↔ k = m) ∧ (k.eq (.key m) = some false ↔ k ≠ m) ∧
    (k.eq (.key m) = some true → k.hash tuple = m.hash tuple) := by
  have h : k.same m.source m.sourcePort m.destination m.destinationPort = true ↔ k = m := by
    cases k; cases m
    simp [PKey.same, and_assoc]
  refine ⟨?_, ?_, fun he => ?_⟩
  · simp only [PKey.eq, Option.some.injEq]; exact h
  · simp only [PKey.eq, Option.some.injEq]
    rw [← Bool.not_eq_true, h]
  · simp only [PKey.eq, Option.some.injEq] at he
    rw [h.1 he]

/-- C105. The tuple of the four parts is equal to the key, with the same hash. -/
theorem C105_tuple (tuple : List Part → Int) (k : PKey) (l : List Part) : (k.eq (.items l) = some true ↔ l = [k.source, k.sourcePort, k.destination, k.destinationPort]) ∧
    (k.eq (.items l) = some true → k.hash tuple = tuple l) := by
  have h : k.eq (.items l) = some true ↔ l = [k.source, k.sourcePort, k.destination, k.destinationPort] := by
    unfold PKey.eq
    split
    · next m heq => cases heq
    · next a b c d heq =>
      cases heq
      simp only [PKey.same, Option.some.injEq, Bool.and_eq_true, beq_iff_eq, List.cons.injEq, and_true]
      constructor
      · rintro ⟨⟨⟨h1, h2⟩, h3⟩, h4⟩; exact ⟨h1.symm, h2.symm, h3.symm, h4.symm⟩
      · rintro ⟨h1, h2, h3, h4⟩; exact ⟨⟨⟨h1.symm, h2.symm⟩, h3.symm⟩, h4.symm⟩
    · next x hx heq =>
      cases heq
      constructor
      · intro h; cases h
      · intro h; exact absurd h (hx _ _ _ _)
    · next heq => cases heq
  exact ⟨h, fun he => by rw [h.1 he]; rfl⟩

/-- C105. Turning a key round twice gives the key back, and the source of one is the destination of the other. -/
theorem C105_inverse (k : PKey) : k.inverse.inverse = k ∧ (k.inverse).sourceOnly = ⟨k.destination, k.destinationPort, .none, .none⟩ ∧
    k.inverse.destinationOnly = ⟨.none, .none, k.source, k.sourcePort⟩ ∧ (∀ m : PKey, k.inverse = m.inverse → k = m) := by
  refine ⟨rfl, rfl, rfl, fun m h => ?_⟩
  exact congrArg PKey.inverse h

/-- C105 is false for other values: comparing a key with None or with something of another length is no answer but a ValueError. -/
theorem C105_false_raises (k : PKey) : k.eq .single = none ∧ ∀ l : List Part, l.length ≠ 4 → k.eq (.items l) = none := by
  refine ⟨rfl, fun l hl => ?_⟩
  unfold PKey.eq
  split
  · next heq => cases heq
  · next heq => cases heq; exact absurd rfl hl
  · rfl
  · next heq => cases heq

example : PKey.eq ⟨.str "1.1.1.1".toList, .int 80, .str "2.2.2.2".toList, .int 2000⟩ (.key ⟨.str "2.2.2.2".toList, .int 2000, .str "1.1.1.1".toList, .int 80⟩) = some false := by decide +kernel
example : (PKey.mk (.str "1.1.1.1".toList) (.int 80) .none .none).eq (.items [.str "1.1.1.1".toList, .int 80, .none, .none]) = some true := by decide +kernel

/-! ## Constants -/
variable {fl : Floats}

/-- C106. A constant converts to each value that it was given; an integer and a float stand in for each other, and both for a truth value; and without any it raises. -/
theorem C106_convert (c : Const fl) : (∀ i, c.int = some i → toInt c = some i) ∧ (∀ x, c.float = some x → toFloat c = some x) ∧ (∀ b, c.bool = some b → toBool c = some b) ∧
    (∀ s, c.str = some s → toStr c = s) ∧
    (∀ i, c.bool = none → c.int = some i → toBool c = some (decide (i ≠ 0))) ∧ (∀ x, c.bool = none → c.int = none → c.float = some x → toBool c = some (fl.truth x)) ∧
    (∀ x, c.int = none → c.float = some x → toInt c = fl.toInt x) ∧ (∀ i, c.float = none → c.int = some i → toFloat c = fl.ofInt i) := by
  refine ⟨?_, ?_, ?_, ?_, ?_, ?_, ?_, ?_⟩ <;> intros <;> simp_all [toInt, toFloat, toBool, toStr]

/-- C106. It converts to a truth value exactly when it was given a truth value or a number. -/
theorem C106_truth (c : Const fl) : toBool c = none ↔ c.bool = none ∧ c.int = none ∧ c.float = none := by
  unfold toBool
  cases c.bool <;> cases c.int <;> cases c.float <;> simp

/-- C106 is false for constants with only a text: asking whether they are true raises. -/
theorem C106_false_truth (s : Str) : toBool (⟨some s, none, none, none⟩ : Const fl) = none ∧ toInt (⟨some s, none, none, none⟩ : Const fl) = none := ⟨rfl, rfl⟩

/-- C106. Without a text, a constant with one number that is not zero shows this number. -/
theorem C106_text_partial (i : Int) (hi : i ≠ 0) : toStr (⟨none, some i, none, none⟩ : Const fl) = intStr i ∧ (pyInt (toStr (⟨none, some i, none, none⟩ : Const fl)) = some i) := by
  have : toStr (⟨none, some i, none, none⟩ : Const fl) = intStr i := by simp [toStr, parts, hi, joinWith]
  exact ⟨this, by rw [this]; exact pyInt_intStr i⟩

/-- C106 is false for zero and False: all such constants have the same, empty, text, as the event of a new connection (Protocol.py:106). -/
theorem C106_false_text : toStr (⟨none, some 0, none, none⟩ : Const fl) = [] ∧ toStr (⟨none, none, none, some false⟩ : Const fl) = [] := ⟨rfl, rfl⟩

/-- C106. Without a text, the text is empty exactly when no value is given that is true. -/
theorem C106_text_empty (hf : ∀ x, fl.text x ≠ []) (i : Option Int) (x : Option fl.F) (b : Option Bool) : toStr (⟨none, i, x, b⟩ : Const fl) = [] ↔
    (∀ v, i = some v → v = 0) ∧ (∀ v, x = some v → fl.truth v = false) ∧ b ≠ some true := by
  have hi : ∀ v, intStr v ≠ [] := by
    intro v h
    unfold intStr at h
    split at h
    · cases h
    · exact natStr_ne_nil _ h
  have hj : ∀ l : List Str, (∀ t ∈ l, t ≠ []) → (joinWith '/' l = [] ↔ l = []) := by
    intro l hl
    cases l with
    | nil => simp [joinWith]
    | cons a t =>
      have ha := hl a (List.mem_cons_self ..)
      cases t with
      | nil => simpa [joinWith] using ha
      | cons b t => simp [joinWith]
  show joinWith '/' (parts _) = [] ↔ _
  rw [hj]
  · unfold parts
    cases i with
    | none => cases x with
      | none => cases b with
        | none => simp
        | some b => cases b <;> simp
      | some v => cases ht : fl.truth v <;> (cases b with
        | none => simp [ht]
        | some b => cases b <;> simp [ht])
    | some n => by_cases hn : n = 0 <;> (cases x with
      | none => (cases b with
        | none => simp [hn]
        | some b => cases b <;> simp [hn])
      | some v => cases ht : fl.truth v <;> (cases b with
        | none => simp [ht, hn]
        | some b => cases b <;> simp [ht, hn]))
  · intro t ht
    unfold parts at ht
    simp only [List.mem_append] at ht
    rcases ht with (ht | ht) | ht
    · cases i with
      | none => cases ht
      | some n =>
        dsimp only at ht
        split at ht
        · cases ht
        · simp only [List.mem_singleton] at ht; rw [ht]; exact hi n
    · cases x with
      | none => cases ht
      | some v =>
        dsimp only at ht
        split at ht
        · simp only [List.mem_singleton] at ht; rw [ht]; exact hf v
        · cases ht
    · cases b with
      | none => cases ht
      | some b =>
        cases b with
        | false => cases ht
        | true =>
          simp only [List.mem_singleton] at ht
          rw [ht]; decide

/-- The states of a device (PNMSDevice.py:49-52): text and truth value. -/
def disabled : Const fl := ⟨some "Disabled".toList, none, none, some false⟩
def waiting : Const fl := ⟨some "Waiting".toList, none, none, some false⟩
def abnormal : Const fl := ⟨some "Abnormal Shutdown".toList, none, none, some false⟩
def enabled : Const fl := ⟨some "Enabled".toList, none, none, some true⟩

/-- C106. Of the states of a device just Enabled is true, and their texts differ. -/
theorem C106_states : toBool (disabled : Const fl) = some false ∧ toBool (waiting : Const fl) = some false ∧ toBool (abnormal : Const fl) = some false ∧
    toBool (enabled : Const fl) = some true ∧ ([toStr (disabled : Const fl), toStr (waiting : Const fl), toStr (abnormal : Const fl), toStr (enabled : Const fl)]).Nodup := by
  refine ⟨rfl, rfl, rfl, rfl, ?_⟩
  show (["Disabled".toList, "Waiting".toList, "Abnormal Shutdown".toList, "Enabled".toList] : List Str).Nodup
  decide +kernel

/-- Numbers as floats, with one that is not a number. -/
def exFl : Floats := ⟨Option Int, fun x => x, fun i => some (some i), fun x => x ≠ some 0, fun x => match x with
  | some i => intStr i ++ ".0".toList
  | none => "nan".toList⟩

example : toStr (⟨none, some 3, some (some 4), some true⟩ : Const exFl) = "3/4.0/True".toList := by decide +kernel
example : toInt (⟨none, none, some none, none⟩ : Const exFl) = none ∧ toBool (⟨none, none, some none, none⟩ : Const exFl) = some true := by decide +kernel

end Verif.Constant
