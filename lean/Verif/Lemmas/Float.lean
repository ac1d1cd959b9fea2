import Verif.Spec.Float
/-! # Rounding to singles is to the nearest, and widening is exact -/
namespace Verif

/-! ## Magnitudes -/

/-- The value of a magnitude (exponent and mantissa) of a single in units of 2^-149; strictly increasing in the bits. -/
def mag (b : Nat) : Nat := if b < 2 ^ 23 then b else (b % 2 ^ 23 + 2 ^ 23) * 2 ^ (b / 2 ^ 23 - 1)

theorem mag_split {a q : Nat} (hq : q ≤ 2 ^ 24) (ha : a = 0 ∨ 2 ^ 23 ≤ q) : mag (a * 2 ^ 23 + q) = q * 2 ^ a := by
  unfold mag
  by_cases h1 : q < 2 ^ 23
  · have ha0 : a = 0 := by omega
    subst ha0
    rw [if_pos (by omega)]; simp
  · rw [if_neg (by omega)]
    by_cases h2 : q < 2 ^ 24
    · have e1 : (a * 2 ^ 23 + q) % 2 ^ 23 = q - 2 ^ 23 := by omega
      have e2 : (a * 2 ^ 23 + q) / 2 ^ 23 - 1 = a := by omega
      rw [e1, e2, Nat.sub_add_cancel (by omega)]
    · have hq : q = 2 ^ 24 := by omega
      have e1 : (a * 2 ^ 23 + q) % 2 ^ 23 = 0 := by omega
      have e2 : (a * 2 ^ 23 + q) / 2 ^ 23 - 1 = a + 1 := by omega
      rw [e1, e2, hq, Nat.pow_succ]
      omega

theorem mag_step (b : Nat) : mag b < mag (b + 1) := by
  by_cases h : b < 2 ^ 23
  · have h1 := mag_split (a := 0) (q := b) (by omega) (.inl rfl)
    have h2 := mag_split (a := 0) (q := b + 1) (by omega) (.inl rfl)
    simp at h1 h2
    omega
  · have hb : b = (b / 2 ^ 23 - 1) * 2 ^ 23 + (b % 2 ^ 23 + 2 ^ 23) := by omega
    have h1 := mag_split (a := b / 2 ^ 23 - 1) (q := b % 2 ^ 23 + 2 ^ 23) (by omega) (.inr (by omega))
    have h2 := mag_split (a := b / 2 ^ 23 - 1) (q := b % 2 ^ 23 + 2 ^ 23 + 1) (by omega) (.inr (by omega))
    rw [← Nat.add_assoc, ← hb] at h2
    rw [← hb] at h1
    rw [h1, h2]
    exact Nat.mul_lt_mul_of_pos_right (by omega) (Nat.two_pow_pos _)

theorem mag_lt {b c : Nat} (h : b < c) : mag b < mag c := by
  induction h with
  | refl => exact mag_step b
  | step _ ih => exact Nat.lt_trans ih (mag_step _)

theorem mag_le {b c : Nat} (h : b ≤ c) : mag b ≤ mag c := by
  rcases Nat.lt_or_eq_of_le h with h | h
  · exact Nat.le_of_lt (mag_lt h)
  · rw [h]; exact Nat.le_refl _

theorem mag_inj {b c : Nat} (h : mag b = mag c) : b = c := by
  rcases Nat.lt_trichotomy b c with g | g | g
  · have := mag_lt g; omega
  · exact g
  · have := mag_lt g; omega

/-- The magnitude bits of a single. -/
theorem mag_sig (n : Nat) : sig32 n * 2 ^ (max (exp32 n) 1 - 1) = mag (n % 2 ^ 31) := by
  have hn : n % 2 ^ 31 = exp32 n * 2 ^ 23 + man32 n := by unfold exp32 man32; omega
  have hm : man32 n < 2 ^ 23 := Nat.mod_lt _ (by omega)
  by_cases h : exp32 n = 0
  · rw [sig32, if_pos h, hn, h, mag, if_pos (by omega)]; simp
  · rw [sig32, if_neg h, hn]
    have e : exp32 n * 2 ^ 23 + man32 n = (exp32 n - 1) * 2 ^ 23 + (man32 n + 2 ^ 23) := by omega
    rw [e, mag_split (by omega) (.inr (by omega)), Nat.max_eq_left (by omega)]

/-! ## Rounding -/

theorem roundEven_cases (m k : Nat) :
    (roundEven m k = m / 2 ^ k ∧ 2 * (m % 2 ^ k) ≤ 2 ^ k ∧ (2 * (m % 2 ^ k) = 2 ^ k → m / 2 ^ k % 2 = 0)) ∨
    (roundEven m k = m / 2 ^ k + 1 ∧ 2 ^ k ≤ 2 * (m % 2 ^ k) ∧ (2 * (m % 2 ^ k) = 2 ^ k → (m / 2 ^ k + 1) % 2 = 0)) := by
  unfold roundEven
  split
  · refine .inr ⟨rfl, ?_, ?_⟩ <;> omega
  · refine .inl ⟨rfl, ?_, ?_⟩ <;> omega

/-- The pieces of a rounding: the exponent, the number of bits cut, the lower neighbour. -/
theorem narrow_parts {n : Nat} : ∃ a k q, narrowMag n = a * 2 ^ 23 + roundEven (sig64 n) k ∧ q = sig64 n / 2 ^ k ∧ q < 2 ^ 24 ∧
    (a = 0 ∨ 2 ^ 23 ≤ q) ∧ a = max (exp64 n) 1 - 897 ∧ max (exp64 n) 1 - 1 + k = 925 + a ∧ 29 ≤ k ∧ (a ≠ 0 → k = 29) := by
  have hm : man64 n < 2 ^ 52 := Nat.mod_lt _ (by omega)
  have hs : sig64 n < 2 ^ 53 := by unfold sig64; split <;> omega
  refine ⟨_, _, _, rfl, rfl, ?_, ?_, rfl, by omega, by omega, by omega⟩
  · rw [Nat.div_lt_iff_lt_mul (Nat.two_pow_pos _)]
    have : 2 ^ 29 ≤ 2 ^ (29 + (897 - max (exp64 n) 1)) := Nat.pow_le_pow_right (by omega) (by omega)
    generalize 2 ^ (29 + (897 - max (exp64 n) 1)) = z at this ⊢
    omega
  · by_cases h : 897 ≤ exp64 n
    · right
      have e : 897 - max (exp64 n) 1 = 0 := by omega
      rw [e, sig64, if_neg (by omega)]
      omega
    · left; omega

/-- The magnitude of a double, in units of 2^-1074. -/
def mag64 (n : Nat) : Nat := sig64 n * 2 ^ (max (exp64 n) 1 - 1)

/-- Rounding chooses the nearer of the two neighbours. -/
theorem narrow_core (n : Nat) : ∃ lo A B, mag lo * 2 ^ 925 + A = mag64 n ∧ mag64 n + B = mag (lo + 1) * 2 ^ 925 ∧ 0 < B ∧
    ((narrowMag n = lo ∧ A ≤ B ∧ (A = B → lo % 2 = 0)) ∨ (narrowMag n = lo + 1 ∧ B ≤ A ∧ (A = B → (lo + 1) % 2 = 0))) := by
  obtain ⟨a, k, q, hn, hq, hq24, haq, -, hk, -, -⟩ := narrow_parts (n := n)
  have hR : sig64 n % 2 ^ k < 2 ^ k := Nat.mod_lt _ (Nat.two_pow_pos _)
  have hM : 2 ^ k * q + sig64 n % 2 ^ k = sig64 n := by rw [hq]; exact Nat.div_add_mod _ _
  have hE : 2 ^ (max (exp64 n) 1 - 1) * 2 ^ k = 2 ^ a * 2 ^ 925 := by rw [← Nat.pow_add, ← Nat.pow_add, hk, Nat.add_comm]
  have hEp := Nat.two_pow_pos (max (exp64 n) 1 - 1)
  have lo : mag (a * 2 ^ 23 + q) * 2 ^ 925 = 2 ^ k * q * 2 ^ (max (exp64 n) 1 - 1) := by
    rw [mag_split (by omega) haq, Nat.mul_assoc, ← hE]
    ac_rfl
  have hi : mag (a * 2 ^ 23 + q + 1) * 2 ^ 925 = 2 ^ k * (q + 1) * 2 ^ (max (exp64 n) 1 - 1) := by
    rw [Nat.add_assoc, mag_split (by omega) (by omega), Nat.mul_assoc, ← hE]
    ac_rfl
  clear hE hk
  refine ⟨a * 2 ^ 23 + q, sig64 n % 2 ^ k * 2 ^ (max (exp64 n) 1 - 1), (2 ^ k - sig64 n % 2 ^ k) * 2 ^ (max (exp64 n) 1 - 1), ?_, ?_, ?_, ?_⟩
  · rw [lo, ← Nat.add_mul, hM, mag64]
  · rw [hi, mag64, ← Nat.add_mul, Nat.mul_add, Nat.mul_one]
    have : sig64 n + (2 ^ k - sig64 n % 2 ^ k) = 2 ^ k * q + 2 ^ k := by omega
    rw [this]
  · exact Nat.mul_pos (by omega) hEp
  · rcases roundEven_cases (sig64 n) k with ⟨h, h1, h2⟩ | ⟨h, h1, h2⟩
    · refine .inl ⟨by rw [hn, h, hq], Nat.mul_le_mul_right _ (by omega), fun e => ?_⟩
      have := Nat.eq_of_mul_eq_mul_right hEp e
      have := h2 (by omega)
      rw [← hq] at this
      omega
    · refine .inr ⟨by rw [hn, h, hq, Nat.add_assoc], Nat.mul_le_mul_right _ (by omega), fun e => ?_⟩
      have := Nat.eq_of_mul_eq_mul_right hEp e
      have := h2 (by omega)
      rw [← hq] at this
      omega

/-- The rounded magnitude is nearest among all magnitudes, ties to even. -/
theorem narrow_nearest (n b : Nat) :
    ((mag (narrowMag n) * 2 ^ 925 : Nat) - (mag64 n : Int)).natAbs ≤ ((mag b * 2 ^ 925 : Nat) - (mag64 n : Int)).natAbs ∧
    (((mag b * 2 ^ 925 : Nat) - (mag64 n : Int)).natAbs = ((mag (narrowMag n) * 2 ^ 925 : Nat) - (mag64 n : Int)).natAbs → b ≠ narrowMag n →
      narrowMag n % 2 = 0) := by
  obtain ⟨lo, A, B, h1, h2, hB, h3⟩ := narrow_core n
  have hD := Nat.two_pow_pos 925
  have hlo : b < lo → mag b * 2 ^ 925 < mag lo * 2 ^ 925 := fun h => Nat.mul_lt_mul_of_pos_right (mag_lt h) hD
  have hhi : lo + 1 < b → mag (lo + 1) * 2 ^ 925 < mag b * 2 ^ 925 := fun h => Nat.mul_lt_mul_of_pos_right (mag_lt h) hD
  have hb : b < lo ∨ b = lo ∨ b = lo + 1 ∨ lo + 1 < b := by omega
  rcases h3 with ⟨e, h3, h4⟩ | ⟨e, h3, h4⟩ <;> rw [e] <;> rcases hb with hb | hb | hb | hb
  all_goals first | (have hlt := hlo hb) | (have hlt := hhi hb) | rw [hb]
  all_goals try generalize mag b * 2 ^ 925 = z at *
  all_goals generalize mag lo * 2 ^ 925 = u at *
  all_goals generalize mag (lo + 1) * 2 ^ 925 = w at *
  all_goals generalize mag64 n = X at *
  all_goals clear hlo hhi hD e
  all_goals constructor
  all_goals omega

/-- Whether the rounded number is too large. -/
theorem narrow_overflow (n : Nat) : 255 * 2 ^ 23 ≤ narrowMag n ↔ (2 ^ 128 - 2 ^ 103) * 2 ^ 1074 ≤ mag64 n := by
  obtain ⟨lo, A, B, h1, h2, hB, h3⟩ := narrow_core n
  have hD := Nat.two_pow_pos 925
  -- the largest single and the one after it
  have m1 : mag (255 * 2 ^ 23 - 1) * 2 ^ 925 = (2 ^ 24 - 1) * 2 ^ 104 * 2 ^ 1074 := by decide +kernel
  have m2 : mag (255 * 2 ^ 23) * 2 ^ 925 = 2 ^ 128 * 2 ^ 1074 := by decide +kernel
  have key : 2 * ((2 ^ 128 - 2 ^ 103) * 2 ^ 1074) = (2 ^ 24 - 1) * 2 ^ 104 * 2 ^ 1074 + 2 ^ 128 * 2 ^ 1074 := by decide +kernel
  rw [← m1, ← m2] at key
  generalize (2 ^ 128 - 2 ^ 103) * 2 ^ 1074 = Z at key ⊢
  clear m1 m2
  have hb : lo + 1 < 255 * 2 ^ 23 ∨ lo + 1 = 255 * 2 ^ 23 ∨ 255 * 2 ^ 23 ≤ lo := by omega
  rcases hb with hb | hb | hb
  · have l1 := Nat.mul_le_mul_right (2 ^ 925) (mag_le (b := lo + 1) (c := 255 * 2 ^ 23 - 1) (by omega))
    have l2 := Nat.mul_lt_mul_of_pos_right (mag_step (255 * 2 ^ 23 - 1)) hD
    constructor <;> intro h
    · omega
    · exfalso
      have : 255 * 2 ^ 23 - 1 + 1 = 255 * 2 ^ 23 := by omega
      rw [this] at l2
      omega
  · have : lo = 255 * 2 ^ 23 - 1 := by omega
    subst this
    rw [hb] at h2
    generalize mag (255 * 2 ^ 23) * 2 ^ 925 = u at *
    generalize mag (255 * 2 ^ 23 - 1) * 2 ^ 925 = w at *
    rcases h3 with ⟨e, h3, h4⟩ | ⟨e, h3, h4⟩ <;> rw [e] <;> constructor <;> intro h <;> omega
  · have l1 := Nat.mul_le_mul_right (2 ^ 925) (mag_le hb)
    have l2 := Nat.mul_lt_mul_of_pos_right (mag_step (255 * 2 ^ 23 - 1)) hD
    have : 255 * 2 ^ 23 - 1 + 1 = 255 * 2 ^ 23 := by omega
    rw [this] at l2
    constructor <;> intro h <;> omega

/-! ## Bits -/

theorem sign64_le (x : F64) : sign64 x.toNat ≤ 1 := by have := x.toNat_lt; unfold sign64; omega
theorem sign32_le (y : F32) : sign32 y.toNat ≤ 1 := by have := y.toNat_lt; unfold sign32; omega

theorem bits64 (n : Nat) : n = sign64 n * 2 ^ 63 + exp64 n * 2 ^ 52 + man64 n := by unfold sign64 exp64 man64; omega
theorem bits32 (n : Nat) : n = sign32 n * 2 ^ 31 + exp32 n * 2 ^ 23 + man32 n := by unfold sign32 exp32 man32; omega

theorem fields64 {s e m n : Nat} (he : e < 2 ^ 11) (hm : m < 2 ^ 52) (h : n = s * 2 ^ 63 + e * 2 ^ 52 + m) :
    sign64 n = s ∧ exp64 n = e ∧ man64 n = m := by
  subst h; unfold sign64 exp64 man64; omega

theorem fields32 {s e m n : Nat} (he : e < 2 ^ 8) (hm : m < 2 ^ 23) (h : n = s * 2 ^ 31 + e * 2 ^ 23 + m) :
    sign32 n = s ∧ exp32 n = e ∧ man32 n = m := by
  subst h; unfold sign32 exp32 man32; omega

theorem exp64_lt (n : Nat) : exp64 n < 2 ^ 11 := Nat.mod_lt _ (by omega)
theorem man64_lt (n : Nat) : man64 n < 2 ^ 52 := Nat.mod_lt _ (by omega)
theorem exp32_lt (n : Nat) : exp32 n < 2 ^ 8 := Nat.mod_lt _ (by omega)
theorem man32_lt (n : Nat) : man32 n < 2 ^ 23 := Nat.mod_lt _ (by omega)

theorem scaled64_eq (x : F64) : x.scaled = (if sign64 x.toNat = 1 then -1 else 1) * (mag64 x.toNat : Nat) := rfl

theorem scaled32_eq (y : F32) : y.scaled = (if sign32 y.toNat = 1 then -1 else 1) * (mag (y.toNat % 2 ^ 31) * 2 ^ 925 : Nat) := by
  rw [F32.scaled, mag_sig]

theorem finite32_iff (y : F32) : y.finite ↔ y.toNat % 2 ^ 31 < 255 * 2 ^ 23 := by
  have h := exp32_lt y.toNat
  rw [F32.finite]
  unfold exp32 at h ⊢
  omega

/-- Narrowing a finite number: its bits. -/
theorem narrow_finite {x : F64} (hx : x.finite) {y : F32} (h : narrow x = some y) :
    narrowMag x.toNat < 255 * 2 ^ 23 ∧ y.toNat = sign64 x.toNat * 2 ^ 31 + narrowMag x.toNat := by
  rw [narrow, narrowBits, if_neg hx] at h
  split at h
  · cases h
  · have := sign64_le x
    cases h
    refine ⟨by omega, ?_⟩
    rw [UInt32.toNat_ofNat']
    omega

theorem narrow_none {x : F64} : narrow x = none ↔ x.finite ∧ 255 * 2 ^ 23 ≤ narrowMag x.toNat := by
  rw [narrow, narrowBits, F64.finite]
  constructor
  · intro h
    split at h
    · cases h
    · split at h
      · exact ⟨by assumption, by assumption⟩
      · cases h
  · intro ⟨h1, h2⟩
    rw [if_neg h1, if_pos h2]
    rfl

theorem nearest_of_narrow {x : F64} {y : F32} (hx : x.finite) (h : narrow x = some y) : Nearest y x := by
  obtain ⟨hlt, hy⟩ := narrow_finite hx h
  have hs := sign64_le x
  have hm : y.toNat % 2 ^ 31 = narrowMag x.toNat := by omega
  have hsy : sign32 y.toNat = sign64 x.toNat := by unfold sign32; omega
  refine ⟨(finite32_iff y).mpr (by omega), fun y' hy' => ?_⟩
  have hsame : ∀ b : Nat, (sign64 x.toNat = 1 →
      (((-1 : Int) * (mag b * 2 ^ 925 : Nat)) - x.scaled).natAbs = ((mag b * 2 ^ 925 : Nat) - (mag64 x.toNat : Int)).natAbs) ∧
      (sign64 x.toNat ≠ 1 → (((1 : Int) * (mag b * 2 ^ 925 : Nat)) - x.scaled).natAbs = ((mag b * 2 ^ 925 : Nat) - (mag64 x.toNat : Int)).natAbs) := by
    intro b
    rw [scaled64_eq]
    generalize mag b * 2 ^ 925 = z
    generalize mag64 x.toNat = X
    constructor <;> intro hs1
    · rw [if_pos hs1]; omega
    · rw [if_neg hs1]; omega
  have hdy : y.dist x = ((mag (narrowMag x.toNat) * 2 ^ 925 : Nat) - (mag64 x.toNat : Int)).natAbs := by
    rw [F32.dist, scaled32_eq, hm, hsy]
    split
    · exact (hsame _).1 (by assumption)
    · exact (hsame _).2 (by assumption)
  have heven : narrowMag x.toNat % 2 = 0 → y.even := by intro h; unfold F32.even; omega
  by_cases hs' : sign32 y'.toNat = sign64 x.toNat
  · have hdy' : y'.dist x = ((mag (y'.toNat % 2 ^ 31) * 2 ^ 925 : Nat) - (mag64 x.toNat : Int)).natAbs := by
      rw [F32.dist, scaled32_eq, hs']
      split
      · exact (hsame _).1 (by assumption)
      · exact (hsame _).2 (by assumption)
    have hc := narrow_nearest x.toNat (y'.toNat % 2 ^ 31)
    refine ⟨by rw [hdy, hdy']; exact hc.1, fun e hne => heven (hc.2 (by rw [← hdy, ← hdy', e]) fun e' => hne ?_)⟩
    rw [scaled32_eq, scaled32_eq, e', hm, hs', hsy]
  · have hc := narrow_nearest x.toNat 0
    have hz : mag 0 * 2 ^ 925 = 0 := by decide +kernel
    rw [hz] at hc
    have hdy' : y'.dist x = mag (y'.toNat % 2 ^ 31) * 2 ^ 925 + mag64 x.toNat := by
      have h1 := sign32_le y'
      rw [F32.dist, scaled32_eq, scaled64_eq]
      generalize mag (y'.toNat % 2 ^ 31) * 2 ^ 925 = z
      generalize mag64 x.toNat = X
      split <;> split <;> omega
    rw [← hdy] at hc
    refine ⟨?_, fun e hne => heven (hc.2 ?_ fun e' => hne ?_)⟩
    · rw [hdy']
      generalize mag (y'.toNat % 2 ^ 31) * 2 ^ 925 = z at *
      generalize mag64 x.toNat = X at *
      omega
    · rw [hdy'] at e
      generalize mag (y'.toNat % 2 ^ 31) * 2 ^ 925 = z at *
      generalize mag64 x.toNat = X at *
      omega
    · have hz' : mag (y'.toNat % 2 ^ 31) * 2 ^ 925 = 0 := by
        rw [hdy'] at e
        generalize mag (y'.toNat % 2 ^ 31) * 2 ^ 925 = z at *
        generalize mag64 x.toNat = X at *
        omega
      rw [scaled32_eq, scaled32_eq, hz', hm, ← e', hz]
      split <;> split <;> rfl

/-! ## Widening -/

theorem log2_bounds {m : Nat} (h : m ≠ 0) : 2 ^ Nat.log2 m ≤ m ∧ m < 2 ^ (Nat.log2 m + 1) :=
  ⟨Nat.log2_self_le h, Nat.lt_log2_self⟩

/-- Sign, exponent and significand of a widened finite number. -/
theorem widen_finite {y : F32} (hy : y.finite) : (widen y).finite ∧ sign64 (widen y).toNat = sign32 y.toNat ∧
    mag64 (widen y).toNat = mag (y.toNat % 2 ^ 31) * 2 ^ 925 := by
  have hs := sign32_le y
  have he := exp32_lt y.toNat
  have hm := man32_lt y.toNat
  rw [← mag_sig, F64.finite, mag64, widen, widenBits, if_neg hy]
  rw [F32.finite] at hy
  by_cases h0 : exp32 y.toNat = 0
  · rw [if_pos h0]
    by_cases h1 : man32 y.toNat = 0
    · rw [if_pos h1, UInt64.toNat_ofNat', Nat.mod_eq_of_lt (by omega)]
      obtain ⟨f1, f2, f3⟩ := fields64 (s := sign32 y.toNat) (e := 0) (m := 0) (by omega) (by omega) rfl
      rw [Nat.zero_mul, Nat.add_zero] at f1 f2 f3
      refine ⟨by omega, f1, ?_⟩
      rw [sig64, f2, if_pos rfl, f3, sig32, if_pos h0, h1, Nat.zero_mul, Nat.zero_mul, Nat.zero_mul]
    · rw [if_neg h1]
      obtain ⟨l1, l2⟩ := log2_bounds h1
      have hl : Nat.log2 (man32 y.toNat) < 23 := (Nat.log2_lt h1).mpr hm
      generalize Nat.log2 (man32 y.toNat) = L at *
      have hmm : (man32 y.toNat - 2 ^ L) * 2 ^ (52 - L) + 2 ^ 52 = man32 y.toNat * 2 ^ (52 - L) := by
        have e : 2 ^ 52 = 2 ^ L * 2 ^ (52 - L) := by rw [← Nat.pow_add]; congr 1; omega
        rw [e, ← Nat.add_mul, Nat.sub_add_cancel l1]
      have hlt : (man32 y.toNat - 2 ^ L) * 2 ^ (52 - L) < 2 ^ 52 := by
        have e : 2 ^ 52 = 2 ^ L * 2 ^ (52 - L) := by rw [← Nat.pow_add]; congr 1; omega
        rw [e]
        rw [Nat.pow_succ] at l2
        exact Nat.mul_lt_mul_of_pos_right (by omega) (Nat.two_pow_pos _)
      generalize hd : (man32 y.toNat - 2 ^ L) * 2 ^ (52 - L) = d at *
      rw [UInt64.toNat_ofNat', Nat.mod_eq_of_lt (by omega)]
      obtain ⟨f1, f2, f3⟩ := fields64 (s := sign32 y.toNat) (e := L + 874) (m := d) (by omega) hlt rfl
      refine ⟨by omega, f1, ?_⟩
      rw [sig64, f2, if_neg (by omega), f3, hmm, sig32, if_pos h0, h0, Nat.max_eq_left (by omega), Nat.mul_assoc, ← Nat.pow_add]
      have : 52 - L + (L + 874 - 1) = 925 := by omega
      rw [this]
      simp only [Nat.max_eq_right (Nat.zero_le 1), Nat.sub_self, Nat.pow_zero, Nat.mul_one]
  · rw [if_neg h0, UInt64.toNat_ofNat', Nat.mod_eq_of_lt (by omega)]
    obtain ⟨f1, f2, f3⟩ := fields64 (s := sign32 y.toNat) (e := exp32 y.toNat + 896) (m := man32 y.toNat * 2 ^ 29) (by omega) (by omega) rfl
    refine ⟨by omega, f1, ?_⟩
    have e : man32 y.toNat * 2 ^ 29 + 2 ^ 52 = (man32 y.toNat + 2 ^ 23) * 2 ^ 29 := by omega
    rw [sig64, f2, if_neg (by omega), f3, e, sig32, if_neg h0, Nat.max_eq_left (by omega), Nat.max_eq_left (by omega), Nat.mul_assoc, Nat.mul_assoc,
      ← Nat.pow_add, ← Nat.pow_add]
    have : 29 + (exp32 y.toNat + 896 - 1) = exp32 y.toNat - 1 + 925 := by omega
    rw [this]

/-- The largest single is far below the numbers that overflow. -/
theorem mag_small {b : Nat} (h : b < 255 * 2 ^ 23) : mag b * 2 ^ 925 < (2 ^ 128 - 2 ^ 103) * 2 ^ 1074 := by
  have m1 : mag (255 * 2 ^ 23 - 1) * 2 ^ 925 < (2 ^ 128 - 2 ^ 103) * 2 ^ 1074 := by decide +kernel
  exact Nat.lt_of_le_of_lt (Nat.mul_le_mul_right _ (mag_le (by omega))) m1

theorem narrow_widen_finite {y : F32} (hy : y.finite) : narrow (widen y) = some y := by
  obtain ⟨hf, hs, hm⟩ := widen_finite hy
  have hlt := (finite32_iff y).mp hy
  cases hn : narrow (widen y) with
  | none =>
    obtain ⟨-, h⟩ := narrow_none.mp hn
    rw [narrow_overflow, hm] at h
    exact absurd h (Nat.not_le_of_lt (mag_small hlt))
  | some z =>
    obtain ⟨h1, h2⟩ := narrow_finite hf hn
    have hc := (narrow_nearest (widen y).toNat (y.toNat % 2 ^ 31)).1
    rw [hm] at hc
    have : mag (narrowMag (widen y).toNat) * 2 ^ 925 = mag (y.toNat % 2 ^ 31) * 2 ^ 925 := by
      generalize mag (narrowMag (widen y).toNat) * 2 ^ 925 = u at *
      generalize mag (y.toNat % 2 ^ 31) * 2 ^ 925 = w at *
      omega
    have := mag_inj (Nat.eq_of_mul_eq_mul_right (Nat.two_pow_pos 925) this)
    clear hc hm
    have hz : z = y := by
      apply UInt32.toNat.inj
      rw [h2, hs, this]
      unfold sign32
      omega
    rw [hz]

/-! ## Infinities and NaN -/

theorem quiet_lt {b m : Nat} (h : m < 2 ^ (b + 1)) : quiet b m < 2 ^ (b + 1) := by
  rw [Nat.pow_succ] at h ⊢
  unfold quiet; split <;> omega

theorem quiet_ge (b m : Nat) : 2 ^ b ≤ quiet b m := by unfold quiet; split <;> omega
theorem quiet_self {b m : Nat} (h : 2 ^ b ≤ m) : quiet b m = m := by unfold quiet; rw [if_neg (by omega)]

theorem widen_special {y : F32} (hy : ¬ y.finite) : (widen y).toNat = sign32 y.toNat * 2 ^ 63 + 2047 * 2 ^ 52 +
    (if man32 y.toNat = 0 then 0 else quiet 51 (man32 y.toNat * 2 ^ 29)) := by
  have hy : exp32 y.toNat = 255 := Decidable.not_not.mp hy
  have hs := sign32_le y
  have hm := man32_lt y.toNat
  rw [widen, widenBits, if_pos hy, UInt64.toNat_ofNat', Nat.mod_eq_of_lt]
  split
  · omega
  · have := quiet_lt (b := 51) (m := man32 y.toNat * 2 ^ 29) (by omega)
    omega

theorem narrow_special {x : F64} (hx : ¬ x.finite) : ∃ y, narrow x = some y ∧ y.toNat = sign64 x.toNat * 2 ^ 31 + 255 * 2 ^ 23 +
    (if man64 x.toNat = 0 then 0 else quiet 22 (man64 x.toNat / 2 ^ 29)) := by
  have hx : exp64 x.toNat = 2047 := Decidable.not_not.mp hx
  have hs := sign64_le x
  have hm := man64_lt x.toNat
  refine ⟨_, by rw [narrow, narrowBits, if_pos hx]; rfl, ?_⟩
  rw [UInt32.toNat_ofNat', Nat.mod_eq_of_lt]
  split
  · omega
  · have := quiet_lt (b := 22) (m := man64 x.toNat / 2 ^ 29) (by omega)
    omega

theorem widen_special_fields {y : F32} (hy : ¬ y.finite) : ¬ (widen y).finite ∧ sign64 (widen y).toNat = sign32 y.toNat ∧
    man64 (widen y).toNat = (if man32 y.toNat = 0 then 0 else quiet 51 (man32 y.toNat * 2 ^ 29)) := by
  have hm := man32_lt y.toNat
  obtain ⟨f1, f2, f3⟩ := fields64 (n := (widen y).toNat) (by omega) (by
    split
    · omega
    · exact quiet_lt (b := 51) (by omega)) (widen_special hy)
  exact ⟨fun h => h f2, f1, f3⟩

theorem narrow_special_fields {x : F64} {y : F32} (hx : ¬ x.finite) (h : narrow x = some y) : ¬ y.finite ∧ sign32 y.toNat = sign64 x.toNat ∧
    man32 y.toNat = (if man64 x.toNat = 0 then 0 else quiet 22 (man64 x.toNat / 2 ^ 29)) := by
  have hm := man64_lt x.toNat
  obtain ⟨z, hz, hn⟩ := narrow_special hx
  rw [hz] at h
  cases h
  obtain ⟨f1, f2, f3⟩ := fields32 (n := y.toNat) (by omega) (by
    split
    · omega
    · exact quiet_lt (b := 22) (by omega)) hn
  exact ⟨fun h => h f2, f1, f3⟩

theorem ext32 {y z : F32} (h1 : sign32 y.toNat = sign32 z.toNat) (h2 : exp32 y.toNat = exp32 z.toNat) (h3 : man32 y.toNat = man32 z.toNat) : y = z := by
  apply UInt32.toNat.inj
  rw [bits32 y.toNat, bits32 z.toNat, h1, h2, h3]

/-- Narrowing what was widened: the same, except that a NaN becomes quiet. -/
theorem narrow_widen_special {y : F32} (hy : ¬ y.finite) (hq : man32 y.toNat = 0 ∨ 2 ^ 22 ≤ man32 y.toNat) : narrow (widen y) = some y := by
  obtain ⟨h1, h2, h3⟩ := widen_special_fields hy
  obtain ⟨z, hz, -⟩ := narrow_special h1
  obtain ⟨g1, g2, g3⟩ := narrow_special_fields h1 hz
  rw [hz]
  have : z = y := by
    refine ext32 (by rw [g2, h2]) (by rw [Decidable.not_not.mp g1, Decidable.not_not.mp hy]) ?_
    rw [g3, h3]
    rcases hq with hq | hq
    · simp [hq]
    · rw [if_neg (c := man32 y.toNat = 0) (by omega), quiet_self (b := 51) (by omega), if_neg (by omega), quiet_self (by omega)]
      omega
  rw [this]

theorem narrow_widen {y : F32} (hy : ¬ y.isNaN) : narrow (widen y) = some y := by
  by_cases hf : y.finite
  · exact narrow_widen_finite hf
  · refine narrow_widen_special hf (.inl ?_)
    have : exp32 y.toNat = 255 := Decidable.not_not.mp hf
    exact Decidable.not_not.mp fun h => hy ⟨this, h⟩

/-- A second rounding changes nothing. -/
theorem narrow_idem {x : F64} {y : F32} (h : narrow x = some y) : narrow (widen y) = some y := by
  by_cases hf : x.finite
  · exact narrow_widen_finite (nearest_of_narrow hf h).1
  · obtain ⟨h1, -, h3⟩ := narrow_special_fields hf h
    refine narrow_widen_special h1 ?_
    rw [h3]
    split
    · exact .inl rfl
    · exact .inr (quiet_ge _ _)

theorem isSingle_widen (y : F32) : isSingle (widen y) = true := by
  by_cases hf : y.isNaN
  · have hy : ¬ y.finite := fun h => h hf.1
    obtain ⟨h1, h2, h3⟩ := widen_special_fields hy
    obtain ⟨z, hz, -⟩ := narrow_special h1
    obtain ⟨g1, g2, g3⟩ := narrow_special_fields h1 hz
    obtain ⟨k1, k2, k3⟩ := widen_special_fields g1
    rw [isSingle, hz]
    have hm := man32_lt y.toNat
    have hm0 := hf.2
    rw [if_neg hm0] at h3
    have hq := quiet_ge 51 (man32 y.toNat * 2 ^ 29)
    have e : widen z = widen y := by
      apply UInt64.toNat.inj
      rw [widen_special g1, widen_special hy, g2, h2, g3, h3, if_neg (c := man32 y.toNat = 0) hm0]
      have hq2 := quiet_ge 22 (quiet 51 (man32 y.toNat * 2 ^ 29) / 2 ^ 29)
      rw [if_neg (c := quiet 51 (man32 y.toNat * 2 ^ 29) = 0) (by omega), if_neg (by omega)]
      have : quiet 51 (man32 y.toNat * 2 ^ 29) / 2 ^ 29 * 2 ^ 29 = quiet 51 (man32 y.toNat * 2 ^ 29) := by
        unfold quiet; split <;> omega
      rw [quiet_self (b := 22) (by omega), this, quiet_self (b := 51) hq]
    dsimp only
    rw [e]; exact beq_self_eq_true _
  · rw [isSingle, narrow_widen hf]; exact beq_self_eq_true _

theorem isSingle_iff (x : F64) : isSingle x = true ↔ ∃ y, widen y = x := by
  constructor
  · intro h
    unfold isSingle at h
    split at h
    · exact ⟨_, eq_of_beq h⟩
    · cases h
  · rintro ⟨y, rfl⟩; exact isSingle_widen y

/-! ## Order and error -/

theorem dist_max {x : F64} {y : F32} (hx : x.finite) (h : narrow x = some y) {z : F32} (hz : z.finite) : y.dist x ≤ z.dist x :=
  ((nearest_of_narrow hx h).2 z hz).1

/-- The rounded magnitude depends on the value only. -/
theorem narrowMag_congr {n m : Nat} (h : mag64 n = mag64 m) : narrowMag n = narrowMag m := by
  obtain ⟨lo, A, B, h1, h2, hB, h3⟩ := narrow_core n
  obtain ⟨lo', A', B', h1', h2', hB', h3'⟩ := narrow_core m
  have hD := Nat.two_pow_pos 925
  have e : lo = lo' := by
    rcases Nat.lt_trichotomy lo lo' with g | g | g
    · have := Nat.mul_le_mul_right (2 ^ 925) (mag_le (b := lo + 1) (c := lo') g)
      generalize mag (lo + 1) * 2 ^ 925 = a at *
      generalize mag lo' * 2 ^ 925 = b at *
      omega
    · exact g
    · have := Nat.mul_le_mul_right (2 ^ 925) (mag_le (b := lo' + 1) (c := lo) g)
      generalize mag (lo' + 1) * 2 ^ 925 = a at *
      generalize mag lo * 2 ^ 925 = b at *
      omega
  subst e
  generalize mag (lo + 1) * 2 ^ 925 = a at *
  generalize mag lo * 2 ^ 925 = b at *
  have hA : A' = A := by omega
  have hB : B' = B := by omega
  subst hA hB
  rcases h3 with ⟨e, h3, h4⟩ | ⟨e, h3, h4⟩ <;> rcases h3' with ⟨e', h3', h4'⟩ | ⟨e', h3', h4'⟩ <;> omega

theorem scaled_congr {x x' : F64} (hx : x.finite) (hx' : x'.finite) (he : x.scaled = x'.scaled) {y y' : F32} (h : narrow x = some y)
    (h' : narrow x' = some y') : y.scaled = y'.scaled := by
  obtain ⟨g1, g2⟩ := narrow_finite hx h
  obtain ⟨g1', g2'⟩ := narrow_finite hx' h'
  have s1 := sign64_le x
  have s2 := sign64_le x'
  have hz : mag64 0 = 0 := by decide +kernel
  have hr : narrowMag 0 = 0 := by decide +kernel
  rw [scaled64_eq, scaled64_eq] at he
  have hm : mag64 x.toNat = mag64 x'.toNat := by
    generalize mag64 x.toNat = a at *
    generalize mag64 x'.toNat = b at *
    split at he <;> split at he <;> omega
  have hn := narrowMag_congr hm
  have e1 : y.toNat % 2 ^ 31 = narrowMag x.toNat := by omega
  have e2 : y'.toNat % 2 ^ 31 = narrowMag x.toNat := by omega
  rw [scaled32_eq, scaled32_eq, e1, e2]
  have f1 : sign32 y.toNat = sign64 x.toNat := by unfold sign32; omega
  have f2 : sign32 y'.toNat = sign64 x'.toNat := by unfold sign32; omega
  rw [f1, f2]
  by_cases hs : sign64 x.toNat = sign64 x'.toNat
  · rw [hs]
  · have h0 : mag64 x.toNat = mag64 0 := by
      rw [hz]
      rw [← hm] at he
      generalize mag64 x.toNat = a at *
      split at he <;> split at he <;> omega
    rw [narrowMag_congr h0, hr]
    have : mag 0 * 2 ^ 925 = 0 := by decide +kernel
    rw [this]
    split <;> split <;> rfl

/-- Rounding keeps the order. -/
theorem narrow_mono {x x' : F64} (hx : x.finite) (hx' : x'.finite) (hle : x.scaled ≤ x'.scaled) {y y' : F32} (h : narrow x = some y)
    (h' : narrow x' = some y') : y.scaled ≤ y'.scaled := by
  rcases Int.lt_or_eq_of_le hle with hlt | he
  · have n1 := dist_max hx h (nearest_of_narrow hx' h').1
    have n2 := dist_max hx' h' (nearest_of_narrow hx h).1
    unfold F32.dist at n1 n2
    generalize y.scaled = a at *
    generalize y'.scaled = b at *
    generalize x.scaled = c at *
    generalize x'.scaled = d at *
    omega
  · rw [scaled_congr hx hx' he h h']; exact Int.le_refl _

theorem dist_eq {x : F64} {y : F32} (hx : x.finite) (h : narrow x = some y) :
    y.dist x = ((mag (narrowMag x.toNat) * 2 ^ 925 : Nat) - (mag64 x.toNat : Int)).natAbs := by
  obtain ⟨hlt, hy⟩ := narrow_finite hx h
  have hs := sign64_le x
  have hm : y.toNat % 2 ^ 31 = narrowMag x.toNat := by omega
  have hsy : sign32 y.toNat = sign64 x.toNat := by unfold sign32; omega
  rw [F32.dist, scaled32_eq, hm, hsy, scaled64_eq]
  generalize mag (narrowMag x.toNat) * 2 ^ 925 = z
  generalize mag64 x.toNat = X
  split <;> omega

/-- The error is at most half of a unit in the last place. -/
theorem narrow_error {x : F64} {y : F32} (hx : x.finite) (h : narrow x = some y) :
    2 * y.dist x ≤ 2 ^ 925 ∨ 2 ^ 24 * y.dist x ≤ x.scaled.natAbs := by
  obtain ⟨lo, A, B, h1, h2, hB, h3⟩ := narrow_core x.toNat
  have hd : 2 * y.dist x ≤ A + B := by
    rw [dist_eq hx h]
    rcases h3 with ⟨e, h3, h4⟩ | ⟨e, h3, h4⟩ <;> rw [e]
    all_goals
      generalize mag lo * 2 ^ 925 = u at *
      generalize mag (lo + 1) * 2 ^ 925 = w at *
      generalize mag64 x.toNat = X at *
      omega
  have hX : x.scaled.natAbs = mag64 x.toNat := by
    rw [scaled64_eq]
    generalize mag64 x.toNat = X
    split <;> omega
  rw [hX]
  by_cases hl : lo < 2 ^ 23
  · left
    have e1 := mag_split (a := 0) (q := lo) (by omega) (.inl rfl)
    have e2 := mag_split (a := 0) (q := lo + 1) (by omega) (.inl rfl)
    rw [Nat.zero_mul, Nat.zero_add, Nat.pow_zero, Nat.mul_one] at e1 e2
    rw [e1] at h1
    rw [e2, Nat.add_mul, Nat.one_mul] at h2
    generalize 2 ^ 925 = D at *
    generalize lo * D = u at *
    generalize mag64 x.toNat = X at *
    omega
  · right
    have hb : lo = (lo / 2 ^ 23 - 1) * 2 ^ 23 + (lo % 2 ^ 23 + 2 ^ 23) := by omega
    have e1 := mag_split (a := lo / 2 ^ 23 - 1) (q := lo % 2 ^ 23 + 2 ^ 23) (by omega) (.inr (by omega))
    have e2 := mag_split (a := lo / 2 ^ 23 - 1) (q := lo % 2 ^ 23 + 2 ^ 23 + 1) (by omega) (.inr (by omega))
    rw [← hb] at e1
    rw [← Nat.add_assoc, ← hb] at e2
    rw [e1] at h1
    rw [e2] at h2
    have hge : 2 ^ 23 * (2 ^ (lo / 2 ^ 23 - 1) * 2 ^ 925) ≤ (lo % 2 ^ 23 + 2 ^ 23) * 2 ^ (lo / 2 ^ 23 - 1) * 2 ^ 925 := by
      rw [Nat.mul_assoc]
      exact Nat.mul_le_mul_right _ (by omega)
    rw [Nat.add_mul _ 1, Nat.add_mul, Nat.one_mul] at h2
    generalize 2 ^ (lo / 2 ^ 23 - 1) * 2 ^ 925 = g at *
    generalize (lo % 2 ^ 23 + 2 ^ 23) * 2 ^ (lo / 2 ^ 23 - 1) * 2 ^ 925 = v at *
    generalize mag64 x.toNat = X at *
    omega

end Verif
