import Verif.Spec.Control
import Verif.Props.Framed
import Verif.Props.Spmp
/-! Lemmas: no packet length begins in the bytes of a frame around a packet. -/
namespace Verif

theorem bePair : ∀ (w n : Nat), n < 256 ^ w → ∀ k < w, ∃ x y : UInt8, (beEnc w n)[k]? = some x ∧ (beEnc w (256 ^ w - 1 - n))[k]? = some y ∧ x.toNat + y.toNat = 255
  | 0, _, _, k, hk => absurd hk (Nat.not_lt_zero k)
  | w + 1, n, hn, k, hk => by
    have h256 : 256 ^ (w + 1) = 256 ^ w * 256 := Nat.pow_succ ..
    have hq : n / 256 < 256 ^ w := Nat.div_lt_of_lt_mul (by rw [Nat.mul_comm, ← h256]; exact hn)
    have hdiv : (256 ^ (w + 1) - 1 - n) / 256 = 256 ^ w - 1 - n / 256 := by rw [h256] at hn ⊢; omega
    have hmod : (256 ^ (w + 1) - 1 - n) % 256 = 255 - n % 256 := by rw [h256] at hn ⊢; omega
    simp only [beEnc, hdiv, hmod]
    by_cases hkw : k < w
    · obtain ⟨x, y, e1, e2, e3⟩ := bePair w (n / 256) hq k hkw
      refine ⟨x, y, ?_, ?_, e3⟩
      · rw [List.getElem?_append_left (by simpa using hkw), e1]
      · rw [List.getElem?_append_left (by simpa using hkw), e2]
    · have : k = w := by omega
      subst this
      refine ⟨UInt8.ofNat (n % 256), UInt8.ofNat (255 - n % 256), ?_, ?_, ?_⟩
      · rw [List.getElem?_append_right (by simp)]; simp
      · rw [List.getElem?_append_right (by simp)]; simp
      · simp [UInt8.toNat_ofNat']; omega

/-- If in the first half of each window there is a byte that is not the complement of the byte eight places behind. -/
theorem clean_of {g b : Bytes} (h : ∀ i < g.length, ∃ j x y, i ≤ j ∧ j < i + 8 ∧ (g ++ b)[j]? = some x ∧ (g ++ b)[j + 8]? = some y ∧ x.toNat + y.toNat ≠ 255) : CleanGarbage g b := by
  intro i hi n hn he
  obtain ⟨j, x, y, h1, h2, h3, h4, h5⟩ := h i hi
  obtain ⟨x', y', e1, e2, e3⟩ := bePair 8 n (by omega) (j - i) (by omega)
  rw [show 256 ^ 8 - 1 - n = compl64 n by rw [compl64_eq hn]] at e2
  have a1 : (((g ++ b).drop i).take 16)[j - i]? = some x := by
    rw [List.getElem?_take_of_lt (by omega), List.getElem?_drop, show i + (j - i) = j by omega, h3]
  have a2 : (((g ++ b).drop i).take 16)[j - i + 8]? = some y := by
    rw [List.getElem?_take_of_lt (by omega), List.getElem?_drop, show i + (j - i + 8) = j + 8 by omega, h4]
  rw [he, List.getElem?_append_left (by simp; omega), e1] at a1
  rw [he, List.getElem?_append_right (by simp), beEnc_length, show j - i + 8 - 8 = j - i by omega, e2] at a2
  cases a1; cases a2
  exact h5 e3

/-! ## The bytes -/

theorem beEnc4 (n : Nat) : beEnc 4 n = [UInt8.ofNat (n / 256 / 256 / 256 % 256), UInt8.ofNat (n / 256 / 256 % 256), UInt8.ofNat (n / 256 % 256), UInt8.ofNat (n % 256)] := rfl

theorem adler8 (a b c d e f g h : UInt8) : ∃ B, adler32 [a, b, c, d, e, f, g, h] = B * 65536 +
      (1 + a.toNat + b.toNat + c.toNat + d.toNat + e.toNat + f.toNat + g.toNat + h.toNat) ∧
    B ≤ 8 + 8 * a.toNat + 7 * b.toNat + 6 * c.toNat + 5 * d.toNat + 4 * e.toNat + 3 * f.toNat + 2 * g.toNat + h.toNat := by
  have ha := a.toNat_lt; have hb := b.toNat_lt; have hc := c.toNat_lt; have hd := d.toNat_lt
  have he := e.toNat_lt; have hf := f.toNat_lt; have hg := g.toNat_lt; have hh := h.toNat_lt
  simp only [adler32, List.foldl_cons, List.foldl_nil, adlerStep]
  generalize a.toNat = a at *; generalize b.toNat = b at *; generalize c.toNat = c at *; generalize d.toNat = d at *
  generalize e.toNat = e at *; generalize f.toNat = f at *; generalize g.toNat = g at *; generalize h.toNat = h at *
  rw [Nat.mod_eq_of_lt (a := 1 + a) (by omega), Nat.mod_eq_of_lt (a := 1 + a + b) (by omega), Nat.mod_eq_of_lt (a := 1 + a + b + c) (by omega),
    Nat.mod_eq_of_lt (a := 1 + a + b + c + d) (by omega), Nat.mod_eq_of_lt (a := 1 + a + b + c + d + e) (by omega),
    Nat.mod_eq_of_lt (a := 1 + a + b + c + d + e + f) (by omega), Nat.mod_eq_of_lt (a := 1 + a + b + c + d + e + f + g) (by omega),
    Nat.mod_eq_of_lt (a := 1 + a + b + c + d + e + f + g + h) (by omega)]
  refine ⟨_, rfl, ?_⟩
  omega

/-- The checksum in the prefix. -/
def preSum (n : Nat) : Nat := adler32 (MAGIC ++ beEnc 4 n)
/-- The checksum in the suffix. -/
def sufSum (n : Nat) : Nat := adler32 (beEnc 4 n ++ REV_MAGIC)

theorem prefix_bytes (n : Nat) : framePrefix n = [5, 8, 13, 21, UInt8.ofNat (n / 256 / 256 / 256 % 256), UInt8.ofNat (n / 256 / 256 % 256), UInt8.ofNat (n / 256 % 256), UInt8.ofNat (n % 256),
    UInt8.ofNat (preSum n / 256 / 256 / 256 % 256), UInt8.ofNat (preSum n / 256 / 256 % 256), UInt8.ofNat (preSum n / 256 % 256), UInt8.ofNat (preSum n % 256)] := rfl

theorem suffix_bytes (n : Nat) : frameSuffix n = [UInt8.ofNat (sufSum n / 256 / 256 / 256 % 256), UInt8.ofNat (sufSum n / 256 / 256 % 256), UInt8.ofNat (sufSum n / 256 % 256),
    UInt8.ofNat (sufSum n % 256), UInt8.ofNat (n / 256 / 256 / 256 % 256), UInt8.ofNat (n / 256 / 256 % 256), UInt8.ofNat (n / 256 % 256), UInt8.ofNat (n % 256), 0x51, 0xD0, 0x80, 0x50] := rfl

theorem hdr_bytes {n : Nat} (h : n < 2 ^ 32) : ∃ r, hdr16 n = [0, 0, 0, 0, UInt8.ofNat (n / 256 / 256 / 256 % 256), UInt8.ofNat (n / 256 / 256 % 256), UInt8.ofNat (n / 256 % 256), UInt8.ofNat (n % 256)] ++ r := by
  refine ⟨beEnc 8 (compl64 n), ?_⟩
  rw [hdr16]
  congr 1
  have e : n / 256 / 256 / 256 / 256 = 0 := by omega
  simp only [beEnc, e]
  rfl

theorem byte_toNat (n : Nat) : (UInt8.ofNat (n % 256)).toNat = n % 256 := by simp

theorem preSum_low (n : Nat) : preSum n / 256 / 256 / 256 % 256 ≤ 33 ∧ preSum n / 256 % 256 ≤ 4 := by
  have e : preSum n = adler32 [5, 8, 13, 21, UInt8.ofNat (n / 256 / 256 / 256 % 256), UInt8.ofNat (n / 256 / 256 % 256), UInt8.ofNat (n / 256 % 256), UInt8.ofNat (n % 256)] := rfl
  obtain ⟨B, h1, h2⟩ := adler8 5 8 13 21 (UInt8.ofNat (n / 256 / 256 / 256 % 256)) (UInt8.ofNat (n / 256 / 256 % 256)) (UInt8.ofNat (n / 256 % 256)) (UInt8.ofNat (n % 256))
  rw [e, h1]
  simp only [byte_toNat] at h2 ⊢
  rw [show (5 : UInt8).toNat = 5 from rfl, show (8 : UInt8).toNat = 8 from rfl, show (13 : UInt8).toNat = 13 from rfl, show (21 : UInt8).toNat = 21 from rfl] at h2 ⊢
  omega

theorem sufSum_low (n : Nat) : sufSum n / 256 % 256 ≤ 5 := by
  have e : sufSum n = adler32 [UInt8.ofNat (n / 256 / 256 / 256 % 256), UInt8.ofNat (n / 256 / 256 % 256), UInt8.ofNat (n / 256 % 256), UInt8.ofNat (n % 256), 0x51, 0xD0, 0x80, 0x50] := rfl
  obtain ⟨B, h1, h2⟩ := adler8 (UInt8.ofNat (n / 256 / 256 / 256 % 256)) (UInt8.ofNat (n / 256 / 256 % 256)) (UInt8.ofNat (n / 256 % 256)) (UInt8.ofNat (n % 256)) 0x51 0xD0 0x80 0x50
  rw [e, h1]
  simp only [byte_toNat] at h2 ⊢
  rw [show (0x51 : UInt8).toNat = 81 from rfl, show (0xD0 : UInt8).toNat = 208 from rfl, show (0x80 : UInt8).toNat = 128 from rfl, show (0x50 : UInt8).toNat = 80 from rfl] at h2 ⊢
  omega

/-- In front of the packet. -/
theorem clean_prefix {n : Nat} (hn : n < 2 ^ 31) (hs : ¬ Slips n) (r : Bytes) : CleanGarbage (framePrefix n) (hdr16 n ++ r) := by
  obtain ⟨q, hq⟩ := hdr_bytes (n := n) (by omega)
  have hp := preSum_low n
  apply clean_of
  intro i hi
  rw [framePrefix_length] at hi
  rw [hq, prefix_bytes]
  by_cases h1 : i ≤ 2
  · exact ⟨2, _, _, h1, by omega, rfl, rfl, by rw [byte_toNat, show (13 : UInt8).toNat = 13 from rfl]; omega⟩
  · by_cases h2 : i ≤ 3
    · exact ⟨4, _, _, by omega, by omega, rfl, rfl, by rw [byte_toNat, show (0 : UInt8).toNat = 0 from rfl]; omega⟩
    · exact ⟨11, _, _, by omega, by omega, rfl, rfl, by rw [byte_toNat, byte_toNat]; exact hs⟩

/-- Between a packet in a frame and one without. -/
theorem clean_suffix {m n : Nat} (hm : m < 2 ^ 31) (hn : n < 2 ^ 31) (h175 : n % 256 ≠ 175) (r : Bytes) : CleanGarbage (frameSuffix m) (hdr16 n ++ r) := by
  obtain ⟨q, hq⟩ := hdr_bytes (n := n) (by omega)
  have hp := sufSum_low m
  apply clean_of
  intro i hi
  rw [frameSuffix_length] at hi
  rw [hq, suffix_bytes]
  by_cases h1 : i ≤ 2
  · exact ⟨2, _, _, h1, by omega, rfl, rfl, by rw [byte_toNat, show (0x80 : UInt8).toNat = 128 from rfl]; omega⟩
  · by_cases h2 : i ≤ 3
    · exact ⟨4, _, _, by omega, by omega, rfl, rfl, by rw [byte_toNat, show (0 : UInt8).toNat = 0 from rfl]; omega⟩
    · exact ⟨11, _, _, by omega, by omega, rfl, rfl, by rw [byte_toNat, show (0x50 : UInt8).toNat = 80 from rfl]; omega⟩

/-- Between two packets in frames. -/
theorem clean_between {m n : Nat} (hm : m < 2 ^ 31) (hn : n < 2 ^ 31) (hs : ¬ Slips n) (r : Bytes) : CleanGarbage (frameSuffix m ++ framePrefix n) (hdr16 n ++ r) := by
  obtain ⟨q, hq⟩ := hdr_bytes (n := n) (by omega)
  have hp := sufSum_low m
  have hp' := preSum_low n
  apply clean_of
  intro i hi
  rw [List.length_append, frameSuffix_length, framePrefix_length] at hi
  rw [hq, suffix_bytes, prefix_bytes]
  by_cases h1 : i ≤ 2
  · exact ⟨2, _, _, h1, by omega, rfl, rfl, by rw [byte_toNat, show (0x80 : UInt8).toNat = 128 from rfl]; omega⟩
  · by_cases h2 : i ≤ 4
    · exact ⟨4, _, _, by omega, by omega, rfl, rfl, by rw [byte_toNat, show (5 : UInt8).toNat = 5 from rfl]; omega⟩
    · by_cases h3 : i ≤ 12
      · exact ⟨12, _, _, by omega, by omega, rfl, rfl, by rw [byte_toNat, show (5 : UInt8).toNat = 5 from rfl]; omega⟩
      · by_cases h4 : i ≤ 14
        · exact ⟨14, _, _, h4, by omega, rfl, rfl, by rw [byte_toNat, show (13 : UInt8).toNat = 13 from rfl]; omega⟩
        · by_cases h5 : i ≤ 15
          · exact ⟨16, _, _, by omega, by omega, rfl, rfl, by rw [byte_toNat, show (0 : UInt8).toNat = 0 from rfl]; omega⟩
          · exact ⟨23, _, _, by omega, by omega, rfl, rfl, by rw [byte_toNat, byte_toNat]; exact hs⟩

end Verif
