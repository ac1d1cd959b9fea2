import Verif.Model.Bytes
namespace Verif

theorem char_valid (c : Char) : c.toNat < 0xD800 ∨ (0xDFFF < c.toNat ∧ c.toNat < 0x110000) := by
  have := c.valid
  simpa [UInt32.isValidChar, Nat.isValidChar] using this

theorem toNat_ofNat_lt {n : Nat} (h : n < 256) : (UInt8.ofNat n).toNat = n := by
  simp; omega

theorem utf8Dec_char (c : Char) (t : Bytes) :
    utf8Dec (utf8Char c ++ t) = (utf8Dec t).map (c :: ·) := by
  have hv := char_valid c
  have hc : Char.ofNat c.toNat = c := Char.ofNat_toNat c
  generalize hn : c.toNat = n at *
  unfold utf8Char
  simp only [hn]
  by_cases h1 : n < 0x80
  · rw [if_pos h1]
    simp only [List.cons_append, List.nil_append]
    rw [utf8Dec.eq_def]; dsimp only; rw [toNat_ofNat_lt (by omega), if_pos h1, hc]
  rw [if_neg h1]
  by_cases h2 : n < 0x800
  · rw [if_pos h2]
    simp only [List.cons_append, List.nil_append]
    rw [utf8Dec.eq_def]; dsimp only; rw [toNat_ofNat_lt (by omega), if_neg (by omega)]
    simp only [isCont, toNat_ofNat_lt (show 0x80 + n % 64 < 256 by omega)]
    rw [if_pos (by simp; omega), if_pos (by simp; omega)]
    rw [show (0xC0 + n / 64 - 0xC0) * 64 + (0x80 + n % 64 - 0x80) = n by omega, hc]
  rw [if_neg h2]
  by_cases h3 : n < 0x10000
  · rw [if_pos h3]
    simp only [List.cons_append, List.nil_append]
    rw [utf8Dec.eq_def]; dsimp only; rw [toNat_ofNat_lt (by omega), if_neg (by omega)]
    simp only [isCont, toNat_ofNat_lt (show 0x80 + n % 64 < 256 by omega),
      toNat_ofNat_lt (show 0x80 + n / 64 % 64 < 256 by omega)]
    rw [if_neg (by simp), if_pos (by simp; omega)]
    rw [show (0xE0 + n / 4096 - 0xE0) * 4096 + (0x80 + n / 64 % 64 - 0x80) * 64
          + (0x80 + n % 64 - 0x80) = n by omega]
    rw [if_pos (by simp; omega), hc]
  · rw [if_neg h3]
    simp only [List.cons_append, List.nil_append]
    rw [utf8Dec.eq_def]; dsimp only; rw [toNat_ofNat_lt (by omega), if_neg (by omega)]
    simp only [isCont, toNat_ofNat_lt (show 0x80 + n % 64 < 256 by omega),
      toNat_ofNat_lt (show 0x80 + n / 64 % 64 < 256 by omega),
      toNat_ofNat_lt (show 0x80 + n / 4096 % 64 < 256 by omega)]
    rw [if_neg (by simp; omega), if_neg (by simp)]
    rw [show (0xF0 + n / 262144 - 0xF0) * 262144 + (0x80 + n / 4096 % 64 - 0x80) * 4096
          + (0x80 + n / 64 % 64 - 0x80) * 64 + (0x80 + n % 64 - 0x80) = n by omega]
    rw [if_pos (by simp; omega), hc]

theorem utf8Dec_utf8 (s : List Char) : utf8Dec (utf8 s) = some s := by
  induction s with
  | nil => rfl
  | cons c s ih =>
    rw [show utf8 (c :: s) = utf8Char c ++ utf8 s from rfl, utf8Dec_char, ih]; rfl

theorem ofNat_toNat_valid {n : Nat} (h : n < 0xD800 ∨ (0xDFFF < n ∧ n < 0x110000)) :
    (Char.ofNat n).toNat = n := by
  have hv : n.isValidChar := by simpa [Nat.isValidChar] using h
  simp [Char.ofNat, hv, Char.toNat, Char.ofNatAux]

theorem u8_ofNat_eq {n : Nat} {x : UInt8} (h : x.toNat = n) : UInt8.ofNat n = x := by
  rw [← h]; simp

theorem utf8_of_dec (b : Bytes) : ∀ s, utf8Dec b = some s → utf8 s = b := by
  induction b using utf8Dec.induct with
  | case1 => intro s h; simp [utf8Dec] at h; subst h; rfl
  | case2 a t ha ih =>
    intro s h
    rw [utf8Dec.eq_def] at h; dsimp only at h; rw [if_pos ha] at h
    simp only [Option.map_eq_some_iff] at h
    obtain ⟨s', h', rfl⟩ := h
    rw [show utf8 (Char.ofNat a.toNat :: s') = utf8Char (Char.ofNat a.toNat) ++ utf8 s' from rfl,
      ih s' h']
    unfold utf8Char
    rw [ofNat_toNat_valid (by omega)]
    simp only [if_pos ha]
    simp
  | case3 a ha => intro s h; rw [utf8Dec.eq_def] at h; dsimp only at h; rw [if_neg ha] at h; simp at h
  | case4 a ha b t hab hb ih =>
    intro s h
    rw [utf8Dec.eq_def] at h; dsimp only at h; rw [if_neg ha] at h
    simp only [if_pos hab, if_pos hb, Option.map_eq_some_iff] at h
    obtain ⟨s', h', rfl⟩ := h
    simp only [isCont, Bool.and_eq_true, decide_eq_true_eq] at hab hb
    have hbl := b.toNat_lt
    rw [show ∀ c, utf8 (c :: s') = utf8Char c ++ utf8 s' from fun _ => rfl, ih s' h']
    unfold utf8Char
    rw [ofNat_toNat_valid (by omega)]
    simp only
    rw [if_neg (by omega), if_pos (by omega), u8_ofNat_eq (x := a) (by omega),
      u8_ofNat_eq (x := b) (by omega)]
    rfl
  | case5 a ha b t hab hb =>
    intro s h
    rw [utf8Dec.eq_def] at h; dsimp only at h; rw [if_neg ha] at h
    simp only [if_pos hab, if_neg hb] at h; cases h
  | case6 a ha b hab =>
    intro s h
    rw [utf8Dec.eq_def] at h; dsimp only at h; rw [if_neg ha] at h
    simp only [if_neg hab] at h; cases h
  | case7 a ha b hab c t hc n hn ih =>
    intro s h
    rw [utf8Dec.eq_def] at h; dsimp only at h; rw [if_neg ha] at h
    simp only [if_neg hab, if_pos hc] at h
    rw [if_pos hn] at h
    simp only [Option.map_eq_some_iff] at h
    obtain ⟨s', h', rfl⟩ := h
    simp only [n, isCont, Bool.and_eq_true, decide_eq_true_eq, Bool.not_eq_true', Bool.and_eq_false_iff, decide_eq_false_iff_not] at hab hn hc
    have hbl := b.toNat_lt
    have hcl := c.toNat_lt
    rw [show ∀ c, utf8 (c :: s') = utf8Char c ++ utf8 s' from fun _ => rfl, ih s' h']
    unfold utf8Char
    rw [ofNat_toNat_valid (by omega)]
    simp only
    rw [if_neg (by omega), if_neg (by omega), if_pos (by omega), u8_ofNat_eq (x := a) (by omega),
      u8_ofNat_eq (x := b) (by omega), u8_ofNat_eq (x := c) (by omega)]
    rfl
  | case8 a ha b hab c t hc n hn =>
    intro s h
    rw [utf8Dec.eq_def] at h; dsimp only at h; rw [if_neg ha] at h
    simp only [if_neg hab, if_pos hc] at h
    rw [if_neg hn] at h; cases h
  | case9 a ha b hab c hc =>
    intro s h
    rw [utf8Dec.eq_def] at h; dsimp only at h; rw [if_neg ha] at h
    simp only [if_neg hab, if_neg hc] at h; cases h
  | case10 a ha b hab c hc d t n hn ih =>
    intro s h
    rw [utf8Dec.eq_def] at h; dsimp only at h; rw [if_neg ha] at h
    simp only [if_neg hab, if_neg hc] at h
    rw [if_pos hn] at h
    simp only [Option.map_eq_some_iff] at h
    obtain ⟨s', h', rfl⟩ := h
    simp only [n, isCont, Bool.and_eq_true, decide_eq_true_eq] at hab hn hc
    have hbl := b.toNat_lt
    have hcl := c.toNat_lt
    have hdl := d.toNat_lt
    rw [show ∀ c, utf8 (c :: s') = utf8Char c ++ utf8 s' from fun _ => rfl, ih s' h']
    unfold utf8Char
    rw [ofNat_toNat_valid (by omega)]
    simp only
    rw [if_neg (by omega), if_neg (by omega), if_neg (by omega), u8_ofNat_eq (x := a) (by omega),
      u8_ofNat_eq (x := b) (by omega), u8_ofNat_eq (x := c) (by omega), u8_ofNat_eq (x := d) (by omega)]
    rfl
  | case11 a ha b hab c hc d t n hn =>
    intro s h
    rw [utf8Dec.eq_def] at h; dsimp only at h; rw [if_neg ha] at h
    simp only [if_neg hab, if_neg hc] at h
    rw [if_neg hn] at h; cases h

theorem utf8Char_length_pos (c : Char) : 1 ≤ (utf8Char c).length := by
  unfold utf8Char; simp only; repeat' split
  all_goals simp

theorem length_le_utf8 (s : List Char) : s.length ≤ (utf8 s).length := by
  induction s with
  | nil => simp
  | cons c s ih =>
    have := utf8Char_length_pos c
    rw [show utf8 (c :: s) = utf8Char c ++ utf8 s from rfl]
    simp only [List.length_append, List.length_cons]; omega

/-- A string all of whose characters are ASCII. -/
def isAscii (s : List Char) : Bool := s.all fun c => decide (c.toNat < 128)

theorem utf8_length_ascii {s : List Char} (h : isAscii s = true) : (utf8 s).length = s.length := by
  induction s with
  | nil => rfl
  | cons c s ih =>
    simp only [isAscii, List.all_cons, Bool.and_eq_true, decide_eq_true_eq] at h
    rw [show utf8 (c :: s) = utf8Char c ++ utf8 s from rfl, List.length_append, ih h.2]
    have : (utf8Char c).length = 1 := by unfold utf8Char; simp [h.1]
    simp only [List.length_cons]; omega

theorem utf8_length_not_ascii {s : List Char} (h : isAscii s = false) :
    s.length < (utf8 s).length := by
  induction s with
  | nil => simp [isAscii] at h
  | cons c s ih =>
    rw [show utf8 (c :: s) = utf8Char c ++ utf8 s from rfl, List.length_append]
    simp only [List.length_cons]
    have h1 := utf8Char_length_pos c
    have h2 := length_le_utf8 s
    by_cases hc : c.toNat < 128
    · have : isAscii s = false := by simpa [isAscii, hc] using h
      have := ih this
      omega
    · have : 2 ≤ (utf8Char c).length := by
        unfold utf8Char
        simp only
        rw [if_neg (by omega)]
        repeat' split
        all_goals simp
      omega

end Verif
