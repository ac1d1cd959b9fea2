import Verif.Lemmas.PyStr
import Verif.Spec.IntLit
/-! # `pyInt` accepts exactly the integer literals -/
namespace Verif

theorem digitVal_iff {c : Char} {n : Nat} : digitVal c = some n ↔ IsDigit c n := by
  unfold digitVal IsDigit
  have h0 : '0'.toNat = 48 := rfl
  have h9 : '9'.toNat = 57 := rfl
  rw [h0, h9]
  split
  · simp only [Option.some.injEq]; omega
  · simp only [false_iff, reduceCtorEq]; omega

theorem digit_not_ws {c : Char} {n : Nat} (h : IsDigit c n) : isWs c = false ∧ c ≠ '+' ∧ c ≠ '-' ∧ c ≠ '_' := by
  have hn : c = digitChar n := by
    unfold digitChar
    rw [h.1, Char.ofNat_toNat]
  rw [hn]
  have := digitChar_props n h.2
  exact ⟨this.1, this.2.1, this.2.2.1, this.2.2.2.2.2⟩

/-- What `digitsVal` computes on a string read from the left, given how it started. -/
inductive Tail : Nat → Bool → Str → Nat → Prop
  | nil {acc} : Tail acc true [] acc
  | digit {acc prev c d s n} : IsDigit c d → Tail (acc * 10 + d) true s n → Tail acc prev (c :: s) n
  | under {acc s n} : Tail acc false s n → Tail acc true ('_' :: s) n

theorem tail_iff (s : Str) : ∀ acc prev n, digitsVal acc prev s = some n ↔ Tail acc prev s n := by
  induction s with
  | nil =>
    intro acc prev n
    simp only [digitsVal]
    cases prev
    · simp only [Bool.false_eq_true, if_false, reduceCtorEq, false_iff]
      intro h; cases h
    · simp only [if_true, Option.some.injEq]
      exact ⟨fun h => h ▸ .nil, fun h => by cases h; rfl⟩
  | cons c s ih =>
    intro acc prev n
    simp only [digitsVal]
    cases hd : digitVal c with
    | some d =>
      dsimp only
      rw [ih]
      constructor
      · intro h; exact .digit (digitVal_iff.mp hd) h
      · intro h
        cases h with
        | digit h1 h2 =>
          rw [digitVal_iff.mpr h1] at hd
          cases hd; exact h2
        | under h => exact absurd rfl (digit_not_ws (digitVal_iff.mp hd)).2.2.2
    | none =>
      dsimp only
      split
      · next h =>
        obtain ⟨rfl, rfl⟩ := h
        rw [ih]
        constructor
        · intro h; exact .under h
        · intro h
          cases h with
          | digit h1 h2 => rw [digitVal_iff.mpr h1] at hd; cases hd
          | under h => exact h
      · next h =>
        simp only [reduceCtorEq, false_iff]
        intro h'
        cases h' with
        | digit h1 h2 => rw [digitVal_iff.mpr h1] at hd; cases hd
        | under _ => exact h ⟨rfl, rfl⟩

theorem Tail.snoc_digit {acc prev s n c d} (h : Tail acc prev s n) (hc : IsDigit c d) :
    Tail acc prev (s ++ [c]) (n * 10 + d) := by
  induction h with
  | nil => exact .digit hc .nil
  | digit h1 _ ih => exact .digit h1 ih
  | under _ ih => exact .under ih

theorem Tail.snoc_under {acc prev s n c d} (h : Tail acc prev s n) (hc : IsDigit c d) :
    Tail acc prev (s ++ ['_', c]) (n * 10 + d) := by
  induction h with
  | nil => exact .under (.digit hc .nil)
  | digit h1 _ ih => exact .digit h1 ih
  | under _ ih => exact .under ih

theorem Grouped.extend {ds acc} (h : Grouped ds acc) : ∀ {prev s n}, Tail acc prev s n →
    prev = true → Grouped (ds ++ s) n := by
  intro prev s n ht
  have : ∀ {acc prev s n}, Tail acc prev s n → ∀ ds, Grouped ds acc →
      Grouped (ds ++ (if prev then [] else ['_']) ++ s) n := by
    intro acc prev s n ht
    induction ht with
    | nil => intro ds h; simpa using h
    | @digit acc prev c d s n h1 _ ih =>
      intro ds h
      cases prev with
      | true =>
        have := ih (ds ++ [c]) (.digit h h1)
        simpa using this
      | false =>
        have := ih (ds ++ ['_', c]) (.under h h1)
        simpa using this
    | under _ ih =>
      intro ds h
      have := ih ds h
      simpa using this
  intro hp
  have h2 := this ht ds h
  rw [hp] at h2
  simpa using h2

theorem grouped_iff {s : Str} {n : Nat} : digitsVal 0 false s = some n ↔ Grouped s n := by
  rw [tail_iff]
  constructor
  · intro h
    cases h with
    | @digit _ _ c d s n h1 h2 =>
      have := Grouped.extend (.one h1) (acc := d) (by simpa using h2) rfl
      simpa using this
  · intro h
    induction h with
    | @one c n h =>
      have := Tail.digit (acc := 0) (prev := false) h .nil
      simpa using this
    | digit _ h ih => exact ih.snoc_digit h
    | under _ h ih => exact ih.snoc_under h

theorem blank_iff {s : Str} : Blank s ↔ ∀ c ∈ s, isWs c = true := by
  unfold Blank isWs; simp [or_assoc]

theorem dropWhile_blank {l s : Str} (h : ∀ c ∈ l, isWs c = true) : (l ++ s).dropWhile isWs = s.dropWhile isWs := by
  induction l with
  | nil => rfl
  | cons c l ih =>
    rw [List.cons_append, List.dropWhile_cons_of_pos (h c (by simp))]
    exact ih (fun x hx => h x (by simp [hx]))

theorem dropWhile_head {c : Char} {s : Str} (h : isWs c = false) : (c :: s).dropWhile isWs = c :: s := by
  simp [h]

/-- Stripping removes exactly the white space around. -/
theorem strip_spec {l m r : Str} (hl : Blank l) (hr : Blank r) (hm : m ≠ [] ) {c d : Char}
    (h1 : m.head? = some c) (h2 : m.getLast? = some d) (hc : isWs c = false) (hd : isWs d = false) :
    strip (l ++ m ++ r) = m := by
  unfold strip
  rw [List.append_assoc, dropWhile_blank (blank_iff.mp hl)]
  obtain ⟨m', rfl⟩ : ∃ m', m = c :: m' := by
    cases m with
    | nil => simp at h1
    | cons x m' => simp at h1; subst h1; exact ⟨m', rfl⟩
  rw [List.cons_append, dropWhile_head hc, ← List.cons_append, List.reverse_append,
    dropWhile_blank (by intro x hx; exact blank_iff.mp hr x (List.mem_reverse.mp hx))]
  have : (c :: m').reverse.dropWhile isWs = (c :: m').reverse := by
    have h3 : (c :: m').reverse.head? = some d := by rw [List.head?_reverse]; exact h2
    cases hrev : (c :: m').reverse with
    | nil => rfl
    | cons x xs => rw [hrev] at h3; simp at h3; subst h3; exact dropWhile_head hd
  rw [this, List.reverse_reverse]

theorem strip_decomp (s : Str) : ∃ l r, Blank l ∧ Blank r ∧ s = l ++ strip s ++ r := by
  refine ⟨s.takeWhile isWs, ((s.dropWhile isWs).reverse.takeWhile isWs).reverse, ?_, ?_, ?_⟩
  · rw [blank_iff]; intro c hc
    exact List.all_eq_true.mp (List.all_takeWhile) c hc
  · rw [blank_iff]; intro c hc
    exact List.all_eq_true.mp (List.all_takeWhile) c (List.mem_reverse.mp hc)
  · unfold strip
    rw [List.append_assoc, ← List.reverse_append, List.takeWhile_append_dropWhile, List.reverse_reverse,
      List.takeWhile_append_dropWhile]

theorem Grouped.ends {ds n} (h : Grouped ds n) : ds ≠ [] ∧ (∃ c m, ds.head? = some c ∧ IsDigit c m) ∧
    ∃ c m, ds.getLast? = some c ∧ IsDigit c m := by
  induction h with
  | one h => exact ⟨by simp, ⟨_, _, rfl, h⟩, ⟨_, _, rfl, h⟩⟩
  | @digit ds n c d _ h ih =>
    obtain ⟨h1, ⟨x, m, h2, h3⟩, _⟩ := ih
    refine ⟨by simp, ⟨x, m, ?_, h3⟩, ⟨c, d, by simp, h⟩⟩
    cases ds with
    | nil => simp at h2
    | cons y ys => simpa using h2
  | @under ds n c d _ h ih =>
    obtain ⟨h1, ⟨x, m, h2, h3⟩, _⟩ := ih
    refine ⟨by simp, ⟨x, m, ?_, h3⟩, ⟨c, d, by simp, h⟩⟩
    cases ds with
    | nil => simp at h2
    | cons y ys => simpa using h2

/-- `int(s)` succeeds with the value `i` exactly when `s` is an integer literal of value `i`. -/
theorem pyInt_iff (s : Str) (i : Int) : pyInt s = some i ↔ IntLit s i := by
  constructor
  · intro h
    obtain ⟨l, r, hl, hr, hs⟩ := strip_decomp s
    rw [hs]
    unfold pyInt at h
    split at h
    · next ds he =>
      rw [he]
      cases hv : digitsVal 0 false ds with
      | none => rw [hv] at h; simp at h
      | some n => rw [hv] at h; simp at h; subst h; exact .plus hl (grouped_iff.mp hv) hr
    · next ds he =>
      rw [he]
      cases hv : digitsVal 0 false ds with
      | none => rw [hv] at h; simp at h
      | some n => rw [hv] at h; simp at h; subst h; exact .minus hl (grouped_iff.mp hv) hr
    · cases hv : digitsVal 0 false (strip s) with
      | none => rw [hv] at h; simp at h
      | some n => rw [hv] at h; simp at h; subst h; exact .plain hl (grouped_iff.mp hv) hr
  · intro h
    cases h with
    | @plain l ds r n hl hg hr =>
      obtain ⟨h1, ⟨c, m, h2, h3⟩, ⟨d, k, h4, h5⟩⟩ := hg.ends
      unfold pyInt
      rw [strip_spec hl hr h1 h2 h4 (digit_not_ws h3).1 (digit_not_ws h5).1]
      split
      · next h => simp at h2; exact absurd h2.symm (digit_not_ws h3).2.1
      · next h => simp at h2; exact absurd h2.symm (digit_not_ws h3).2.2.1
      · rw [grouped_iff.mpr hg]; rfl
    | @plus l ds r n hl hg hr =>
      obtain ⟨h1, ⟨c, m, h2, h3⟩, ⟨d, k, h4, h5⟩⟩ := hg.ends
      unfold pyInt
      rw [strip_spec (c := '+') (d := d) hl hr (by simp) (by simp) (by rw [List.getLast?_cons, h4]; rfl)
        (by decide) (digit_not_ws h5).1]
      show (digitsVal 0 false ds).map Int.ofNat = _
      rw [grouped_iff.mpr hg]; rfl
    | @minus l ds r n hl hg hr =>
      obtain ⟨h1, ⟨c, m, h2, h3⟩, ⟨d, k, h4, h5⟩⟩ := hg.ends
      unfold pyInt
      rw [strip_spec (c := '-') (d := d) hl hr (by simp) (by simp) (by rw [List.getLast?_cons, h4]; rfl)
        (by decide) (digit_not_ws h5).1]
      show (digitsVal 0 false ds).map (fun n : Nat => -(n : Int)) = _
      rw [grouped_iff.mpr hg]; rfl

end Verif
