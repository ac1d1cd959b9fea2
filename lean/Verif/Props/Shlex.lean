import Verif.Lemmas.Shlex
/-! # C66 (the words of a line)

`Spec/Shlex.lean` says what a line means; the loop of `shlex` computes exactly that, and every list of words can be typed. -/
namespace Verif.Shlex

/-- **C66.** Splitting a line gives exactly the words it is made of, and fails exactly for lines that are no sequence of words. -/
theorem C66_words (s : Str) (ws : List Str) : split s = .ok ws ↔ Line s ws := (lex_iff s).1 ws

/-- **C66.** A line has one reading. -/
theorem C66_one_reading {s : Str} {ws ws' : List Str} (h : Line s ws) (h' : Line s ws') : ws = ws' := by
  have h1 := (C66_words s ws).mpr h
  rw [(C66_words s ws').mpr h'] at h1
  exact (Except.ok.inj h1).symm

/-- **C66.** A line that cannot be split is no sequence of words. -/
theorem C66_bad_line {s : Str} {e : LexErr} (h : split s = .error e) (ws : List Str) : ¬ Line s ws := by
  intro h'
  rw [(C66_words s ws).mpr h'] at h
  cases h

theorem safe_ok {c : Char} (h : Safe c) : (Piece.plain c).Ok := by
  refine ⟨?_, ?_, ?_, ?_⟩
  · rintro (rfl | rfl | rfl | rfl) <;> revert h <;> decide
  all_goals (rintro rfl; revert h; decide)

theorem quoted_pieces (w : Str) : ∃ ps : List Piece, ps ≠ [] ∧ (∀ p ∈ ps, p.Ok) ∧ quoted w = ps.flatMap Piece.text ∧ ps.flatMap Piece.value = w := by
  suffices h : ∀ w : Str, ∃ (s : Str) (ps : List Piece), '\'' ∉ s ∧ (∀ p ∈ ps, p.Ok) ∧
      w.flatMap (fun c => if c = '\'' then ['\'', '"', '\'', '"', '\''] else [c]) ++ ['\''] = s ++ '\'' :: ps.flatMap Piece.text ∧ s ++ ps.flatMap Piece.value = w by
    obtain ⟨s, ps, h1, h2, h3, h4⟩ := h w
    refine ⟨.single s :: ps, by simp, ?_, ?_, by simp [Piece.value, h4]⟩
    · intro p hp
      rcases List.mem_cons.mp hp with rfl | hp
      · exact h1
      · exact h2 p hp
    · rw [quoted, List.cons_append, h3]; simp [Piece.text]
  intro w
  induction w with
  | nil => exact ⟨[], [], by simp, by simp, by simp, by simp⟩
  | cons c w ih =>
    obtain ⟨s, ps, h1, h2, h3, h4⟩ := ih
    by_cases hc : c = '\''
    · subst hc
      refine ⟨[], .double [.plain '\''] :: .single s :: ps, by simp, ?_, ?_, ?_⟩
      · intro p hp
        simp only [List.mem_cons] at hp
        rcases hp with rfl | rfl | hp
        · intro i hi; simp only [List.mem_singleton] at hi; subst hi; exact ⟨by decide, by decide⟩
        · exact h1
        · exact h2 p hp
      · simp only [List.flatMap_cons, if_true, List.append_assoc, h3]; simp [Piece.text, Item.text]
      · simp [Piece.value, Item.value, h4]
    · refine ⟨c :: s, ps, by simp [h1, Ne.symm hc], h2, ?_, by simp [h4]⟩
      simp only [List.flatMap_cons, if_neg hc, List.append_assoc, h3]
      simp

theorem quote_pieces (w : Str) : ∃ ps : List Piece, ps ≠ [] ∧ (∀ p ∈ ps, p.Ok) ∧ quote w = ps.flatMap Piece.text ∧ ps.flatMap Piece.value = w := by
  unfold quote
  by_cases h : w = []
  · subst h; exact ⟨[.single []], by simp, by simp [Piece.Ok], by simp [Piece.text], by simp [Piece.value]⟩
  · rw [if_neg h]
    by_cases h1 : ∀ c ∈ w, Safe c
    · rw [if_pos h1]
      refine ⟨w.map .plain, by simpa using h, ?_, ?_, ?_⟩
      · intro p hp
        obtain ⟨c, hc, rfl⟩ := List.mem_map.mp hp
        exact safe_ok (h1 c hc)
      · rw [List.flatMap_map]; simp [Piece.text]
      · rw [List.flatMap_map]; simp [Piece.value]
    · rw [if_neg h1]; exact quoted_pieces w

/-- **C66.** Every list of words can be typed: quoted and with blanks between, they are read back. -/
theorem C66_typed (ws : List Str) : split (typed ws) = .ok ws := by
  rw [C66_words]
  induction ws with
  | nil => exact .nil [] (by simp)
  | cons w ws ih =>
    obtain ⟨ps, h1, h2, h3, h4⟩ := quote_pieces w
    cases ws with
    | nil =>
      rw [typed, h3]
      have := Line.cons [] ps [] [] (by simp) h1 h2 (by simp) (.nil [] (by simp))
      simpa [h4] using this
    | cons w' ws =>
      rw [typed, h3]
      have := Line.cons [] ps (' ' :: typed (w' :: ws)) (w' :: ws) (by simp) h1 h2 (by simp [Space]) ((line_space (by simp [Space])).mpr ih)
      simpa [h4] using this
      simp

theorem safe_space {c : Char} (h : Safe c) : pySpace c = false := by
  have key : ∀ c : Char, (48 ≤ c.toNat ∧ c.toNat ≤ 57 ∨ 65 ≤ c.toNat ∧ c.toNat ≤ 90 ∨ 97 ≤ c.toNat ∧ c.toNat ≤ 122) → pySpace c = false := by
    intro c hc
    simp only [pySpace, Bool.or_eq_false_iff, Bool.and_eq_false_iff, decide_eq_false_iff_not, beq_eq_false_iff_ne]
    omega
  rcases h with h | h
  · refine key c ?_
    simp only [Char.isAlphanum, Char.isAlpha, Char.isUpper, Char.isLower, Char.isDigit, Bool.or_eq_true, Bool.and_eq_true, decide_eq_true_eq, UInt32.le_iff_toNat_le] at h
    simp only [Char.toNat]
    have e0 : 'A'.val.toNat = 65 := rfl
    have e1 : 'Z'.val.toNat = 90 := rfl
    have e2 : 'a'.val.toNat = 97 := rfl
    have e3 : 'z'.val.toNat = 122 := rfl
    have e4 : '0'.val.toNat = 48 := rfl
    have e5 : '9'.val.toNat = 57 := rfl
    omega
  · revert c; decide

/-! ## Cases of the theorems -/

example : split "send 'a b' \"c\\\"d\" e\\ f ''".toList = .ok ["send".toList, "a b".toList, "c\"d".toList, "e f".toList, []] := by decide +kernel
example : split "send 'a".toList = .error .noClosingQuotation ∧ split "send a\\".toList = .error .noEscapedCharacter := by decide +kernel
example : typed ["it's".toList, [], "a-b".toList] = "'it'\"'\"'s' '' a-b".toList := by decide +kernel

end Verif.Shlex
