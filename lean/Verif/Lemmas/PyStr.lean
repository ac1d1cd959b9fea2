import Verif.Model.PyStr
/-! # Lemmas about splitting, joining and decimal strings -/
namespace Verif

theorem splitOn_ne_nil (c : Char) (s : Str) : splitOn c s ≠ [] := by
  cases s with
  | nil => simp [splitOn]
  | cons x xs =>
    simp only [splitOn]
    split
    · simp
    · split <;> simp

theorem joinWith_cons (c : Char) (p : Str) {ps : List Str} (h : ps ≠ []) :
    joinWith c (p :: ps) = p ++ c :: joinWith c ps := by
  cases ps with
  | nil => exact absurd rfl h
  | cons q qs => rfl

theorem join_split (c : Char) (s : Str) : joinWith c (splitOn c s) = s := by
  induction s with
  | nil => rfl
  | cons x xs ih =>
    simp only [splitOn]
    split
    · next h =>
      subst h
      rw [joinWith_cons _ _ (splitOn_ne_nil _ _), ih]; rfl
    · split
      · next h => exact absurd h (splitOn_ne_nil _ _)
      · next p ps h =>
        rw [h] at ih
        cases ps with
        | nil => simp only [joinWith] at ih ⊢; rw [ih]
        | cons q qs =>
          rw [joinWith_cons _ _ (by simp)] at ih ⊢
          rw [← ih]; rfl

theorem splitOn_inj {c : Char} {s t : Str} (h : splitOn c s = splitOn c t) : s = t := by
  rw [← join_split c s, h, join_split]

theorem splitOn_no_sep {c : Char} {s : Str} : ∀ p ∈ splitOn c s, c ∉ p := by
  induction s with
  | nil => simp [splitOn]
  | cons x xs ih =>
    simp only [splitOn]
    split
    · simpa using ih
    · next hx =>
      split
      · next h => exact absurd h (splitOn_ne_nil _ _)
      · next p ps h =>
        rw [h] at ih
        intro q hq
        rcases List.mem_cons.mp hq with rfl | hq
        · simp only [List.mem_cons, not_or]
          exact ⟨fun e => hx e.symm, ih p (by simp)⟩
        · exact ih q (by simp [hq])

theorem splitOn_single {c : Char} {p : Str} (h : c ∉ p) : splitOn c p = [p] := by
  induction p with
  | nil => rfl
  | cons x xs ih =>
    simp only [List.mem_cons, not_or] at h
    simp only [splitOn]
    rw [if_neg (Ne.symm h.1), ih h.2]

theorem splitOn_append {c : Char} {p : Str} (h : c ∉ p) (r : Str) : splitOn c (p ++ c :: r) = p :: splitOn c r := by
  induction p with
  | nil => simp [splitOn]
  | cons x xs ih =>
    simp only [List.mem_cons, not_or] at h
    simp only [List.cons_append, splitOn]
    rw [if_neg (Ne.symm h.1), ih h.2]

theorem split_join {c : Char} {ps : List Str} (h : ∀ p ∈ ps, c ∉ p) (hne : ps ≠ []) :
    splitOn c (joinWith c ps) = ps := by
  induction ps with
  | nil => exact absurd rfl hne
  | cons p ps ih =>
    cases ps with
    | nil => exact splitOn_single (h p (by simp))
    | cons q qs =>
      rw [joinWith_cons _ _ (by simp), splitOn_append (h p (by simp)), ih (fun x hx => h x (by simp [hx])) (by simp)]

theorem joinWith_inj {c : Char} {ps qs : List Str} (hp : ∀ p ∈ ps, c ∉ p) (hq : ∀ p ∈ qs, c ∉ p)
    (h1 : ps ≠ []) (h2 : qs ≠ []) (h : joinWith c ps = joinWith c qs) : ps = qs := by
  rw [← split_join hp h1, h, split_join hq h2]

/-! ## Decimal strings -/

theorem digitVal_digitChar : ∀ d < 10, digitVal (digitChar d) = some d := by decide

theorem digitChar_props : ∀ d < 10, isWs (digitChar d) = false ∧ digitChar d ≠ '+' ∧ digitChar d ≠ '-' ∧
    digitChar d ≠ '.' ∧ digitChar d ≠ '*' ∧ digitChar d ≠ '_' := by decide

/-- All characters are decimal digits. -/
def AllDigits (s : Str) : Prop := ∀ c ∈ s, ∃ d < 10, c = digitChar d

theorem natStr_digits (n : Nat) : AllDigits (natStr n) := by
  induction n using Nat.strongRecOn with
  | ind n ih =>
    rw [natStr]
    split
    · next h => intro c hc; simp at hc; exact ⟨n, h, hc⟩
    · next h =>
      intro c hc
      rcases List.mem_append.mp hc with hc | hc
      · exact ih (n / 10) (by omega) c hc
      · simp at hc; exact ⟨n % 10, Nat.mod_lt _ (by decide), hc⟩

theorem natStr_ne_nil (n : Nat) : natStr n ≠ [] := by
  rw [natStr]; split <;> simp

theorem digitsVal_append (s : Str) (hs : AllDigits s) (t : Str) : ∀ acc prev, s ≠ [] →
    digitsVal acc prev (s ++ t) = digitsVal (s.foldl (fun a c => a * 10 + (digitVal c).getD 0) acc) true t := by
  induction s with
  | nil => intro _ _ h; exact absurd rfl h
  | cons c cs ih =>
    intro acc prev _
    obtain ⟨d, hd, rfl⟩ := hs c (by simp)
    simp only [List.cons_append, digitsVal, digitVal_digitChar d hd, List.foldl_cons, Option.getD_some]
    cases cs with
    | nil => rfl
    | cons c2 cs => exact ih (fun x hx => hs x (by simp [hx])) _ _ (by simp)

theorem natStr_fold (n : Nat) : (natStr n).foldl (fun a c => a * 10 + (digitVal c).getD 0) 0 = n := by
  induction n using Nat.strongRecOn with
  | ind n ih =>
    rw [natStr]
    split
    · next h => simp [digitVal_digitChar n h]
    · next h =>
      rw [List.foldl_append, ih (n / 10) (by omega)]
      simp only [List.foldl_cons, List.foldl_nil, digitVal_digitChar (n % 10) (Nat.mod_lt _ (by decide)),
        Option.getD_some]
      omega

theorem digitsVal_natStr (n : Nat) : digitsVal 0 false (natStr n) = some n := by
  have := digitsVal_append (natStr n) (natStr_digits n) [] 0 false (natStr_ne_nil n)
  rw [List.append_nil] at this
  rw [this, natStr_fold]; rfl

theorem dropWhile_ws_of {s : Str} (h : ∀ c ∈ s, isWs c = false) : s.dropWhile isWs = s := by
  cases s with
  | nil => rfl
  | cons c cs => simp [h c (by simp)]

theorem strip_of_no_ws {s : Str} (h : ∀ c ∈ s, isWs c = false) : strip s = s := by
  unfold strip
  rw [dropWhile_ws_of h, dropWhile_ws_of (by intro c hc; exact h c (List.mem_reverse.mp hc)), List.reverse_reverse]

theorem AllDigits.no_ws {s : Str} (h : AllDigits s) : ∀ c ∈ s, isWs c = false := by
  intro c hc; obtain ⟨d, hd, rfl⟩ := h c hc; exact (digitChar_props d hd).1

theorem pyInt_natStr (n : Nat) : pyInt (natStr n) = some (n : Int) := by
  unfold pyInt
  rw [strip_of_no_ws (natStr_digits n).no_ws]
  have hd := natStr_digits n
  split
  · next ds h =>
    obtain ⟨d, hd, e⟩ := hd '+' (by rw [h]; simp)
    exact absurd e.symm (digitChar_props d hd).2.1
  · next ds h =>
    obtain ⟨d, hd, e⟩ := hd '-' (by rw [h]; simp)
    exact absurd e.symm (digitChar_props d hd).2.2.1
  · rw [digitsVal_natStr]; rfl

theorem pyInt_intStr (i : Int) : pyInt (intStr i) = some i := by
  unfold intStr
  split
  · next h =>
    unfold pyInt
    have hw : ∀ c ∈ ('-' :: natStr i.natAbs), isWs c = false := by
      intro c hc
      rcases List.mem_cons.mp hc with rfl | hc
      · decide
      · exact (natStr_digits _).no_ws c hc
    rw [strip_of_no_ws hw]
    show (digitsVal 0 false (natStr i.natAbs)).map (fun n : Nat => -(n : Int)) = some i
    rw [digitsVal_natStr, Option.map_some]
    congr 1; omega
  · rw [pyInt_natStr]; congr 1; omega

theorem natStr_inj {m n : Nat} (h : natStr m = natStr n) : m = n := by
  have h1 := pyInt_natStr m; rw [h, pyInt_natStr] at h1; injection h1 with h1; omega

theorem intStr_no (i : Int) (c : Char) (hc : c = '.' ∨ c = '*') : c ∉ intStr i := by
  have h1 : ∀ n, c ∉ natStr n := by
    intro n hm
    obtain ⟨d, hd, e⟩ := natStr_digits n c hm
    have := digitChar_props d hd
    rcases hc with rfl | rfl
    · exact this.2.2.2.1 e.symm
    · exact this.2.2.2.2.1 e.symm
  unfold intStr
  split
  · simp only [List.mem_cons, not_or]
    exact ⟨by rcases hc with rfl | rfl <;> decide, h1 _⟩
  · exact h1 _

theorem natStr_no (n : Nat) (c : Char) (hc : c = '.' ∨ c = '*') : c ∉ natStr n := by
  have := intStr_no (n : Int) c hc
  unfold intStr at this
  rwa [if_neg (by omega), Int.natAbs_natCast] at this

end Verif
