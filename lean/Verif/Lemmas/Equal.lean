import Verif.Spec.Equal
import Verif.Lemmas.FloatCodec
/-! # Equality of floats is equality of numbers -/
namespace Verif

def magD (b : Nat) : Nat := if b < 2 ^ 52 then b else (b % 2 ^ 52 + 2 ^ 52) * 2 ^ (b / 2 ^ 52 - 1)

theorem magD_split {a q : Nat} (hq : q ≤ 2 ^ 53) (ha : a = 0 ∨ 2 ^ 52 ≤ q) : magD (a * 2 ^ 52 + q) = q * 2 ^ a := by
  unfold magD
  by_cases h1 : q < 2 ^ 52
  · have ha0 : a = 0 := by omega
    subst ha0
    rw [if_pos (by omega)]; simp
  · rw [if_neg (by omega)]
    by_cases h2 : q < 2 ^ 53
    · have e1 : (a * 2 ^ 52 + q) % 2 ^ 52 = q - 2 ^ 52 := by omega
      have e2 : (a * 2 ^ 52 + q) / 2 ^ 52 - 1 = a := by omega
      rw [e1, e2, Nat.sub_add_cancel (by omega)]
    · have hq : q = 2 ^ 53 := by omega
      have e1 : (a * 2 ^ 52 + q) % 2 ^ 52 = 0 := by omega
      have e2 : (a * 2 ^ 52 + q) / 2 ^ 52 - 1 = a + 1 := by omega
      rw [e1, e2, hq, Nat.pow_succ]
      omega

theorem magD_step (b : Nat) : magD b < magD (b + 1) := by
  by_cases h : b < 2 ^ 52
  · have h1 := magD_split (a := 0) (q := b) (by omega) (.inl rfl)
    have h2 := magD_split (a := 0) (q := b + 1) (by omega) (.inl rfl)
    simp at h1 h2
    omega
  · have hb : b = (b / 2 ^ 52 - 1) * 2 ^ 52 + (b % 2 ^ 52 + 2 ^ 52) := by omega
    have h1 := magD_split (a := b / 2 ^ 52 - 1) (q := b % 2 ^ 52 + 2 ^ 52) (by omega) (.inr (by omega))
    have h2 := magD_split (a := b / 2 ^ 52 - 1) (q := b % 2 ^ 52 + 2 ^ 52 + 1) (by omega) (.inr (by omega))
    rw [← Nat.add_assoc, ← hb] at h2
    rw [← hb] at h1
    rw [h1, h2]
    exact Nat.mul_lt_mul_of_pos_right (by omega) (Nat.two_pow_pos _)

theorem magD_lt {b c : Nat} (h : b < c) : magD b < magD c := by
  induction h with
  | refl => exact magD_step b
  | step _ ih => exact Nat.lt_trans ih (magD_step _)

theorem magD_inj {b c : Nat} (h : magD b = magD c) : b = c := by
  rcases Nat.lt_trichotomy b c with g | g | g
  · have := magD_lt g; omega
  · exact g
  · have := magD_lt g; omega

theorem magD_sig (n : Nat) : mag64 n = magD (n % 2 ^ 63) := by
  have hn : n % 2 ^ 63 = exp64 n * 2 ^ 52 + man64 n := by unfold exp64 man64; omega
  have hm : man64 n < 2 ^ 52 := man64_lt n
  unfold mag64
  by_cases h : exp64 n = 0
  · rw [sig64, if_pos h, hn, h, magD, if_pos (by omega)]; simp
  · rw [sig64, if_neg h, hn]
    have e : exp64 n * 2 ^ 52 + man64 n = (exp64 n - 1) * 2 ^ 52 + (man64 n + 2 ^ 52) := by omega
    rw [e, magD_split (by omega) (.inr (by omega)), Nat.max_eq_left (by omega)]

theorem F64.nan_iff (x : F64) : x.nan = true ↔ x.isNaN := by
  unfold F64.nan F64.isNaN
  simp only [Bool.and_eq_true, decide_eq_true_eq]

/-- The comparison of the bits is that of the numbers. -/
theorem F64.eq_iff (x y : F64) : F64.eq x y = true ↔ F64.Same x y := by
  have hs := sign64_le x
  have hs' := sign64_le y
  have bx := bits64 x.toNat
  have bY := bits64 y.toNat
  have mx := man64_lt x.toNat
  have my := man64_lt y.toNat
  have ex := exp64_lt x.toNat
  have ey := exp64_lt y.toNat
  have nx : x.toNat % 2 ^ 63 = exp64 x.toNat * 2 ^ 52 + man64 x.toNat := by unfold exp64 man64; omega
  have ny : y.toNat % 2 ^ 63 = exp64 y.toNat * 2 ^ 52 + man64 y.toNat := by unfold exp64 man64; omega
  have hxy : x = y ↔ x.toNat = y.toNat := ⟨fun h => by rw [h], fun h => UInt64.toNat.inj h⟩
  unfold F64.eq
  by_cases hn : x.nan || y.nan
  · rw [if_pos hn]
    rw [Bool.or_eq_true, F64.nan_iff, F64.nan_iff] at hn
    refine ⟨fun h => (nomatch h), ?_⟩
    rintro (⟨h1, h2, -⟩ | ⟨-, -, h1, h2, -⟩)
    · rcases hn with h | h
      · exact absurd h.1 h1
      · exact absurd h.1 h2
    · rcases hn with h | h
      · exact absurd h h1
      · exact absurd h h2
  · rw [if_neg hn]
    rw [Bool.or_eq_true, F64.nan_iff, F64.nan_iff] at hn
    simp only [Bool.or_eq_true, Bool.and_eq_true, beq_iff_eq]
    have hnx : ¬ x.isNaN := fun h => hn (.inl h)
    have hny : ¬ y.isNaN := fun h => hn (.inr h)
    by_cases fx : x.finite
    · by_cases fy : y.finite
      · have key : x.scaled = y.scaled ↔ (x.toNat % 2 ^ 63 = y.toNat % 2 ^ 63 ∧ (sign64 x.toNat = sign64 y.toNat ∨ x.toNat % 2 ^ 63 = 0)) := by
          rw [scaled64_eq, scaled64_eq]
          have z0 : mag64 x.toNat = 0 ↔ x.toNat % 2 ^ 63 = 0 := by
            rw [magD_sig]
            have : magD 0 = 0 := by decide
            exact ⟨fun h => magD_inj (h.trans this.symm), fun h => by rw [h, this]⟩
          have zz : mag64 x.toNat = mag64 y.toNat ↔ x.toNat % 2 ^ 63 = y.toNat % 2 ^ 63 := by
            rw [magD_sig, magD_sig]
            exact ⟨magD_inj, fun h => by rw [h]⟩
          rw [← z0, ← zz]
          generalize mag64 x.toNat = a at *
          generalize mag64 y.toNat = b at *
          split <;> split <;> omega
        constructor
        · intro h
          left
          refine ⟨fx, fy, key.mpr ?_⟩
          rcases h with h | ⟨h1, h2⟩
          · rw [hxy] at h
            rw [h]; exact ⟨rfl, .inl rfl⟩
          · exact ⟨by omega, .inr h1⟩
        · rintro (⟨-, -, h⟩ | ⟨h, -⟩)
          · obtain ⟨h1, h2⟩ := key.mp h
            rw [hxy]
            rcases h2 with h2 | h2
            · left; omega
            · right; exact ⟨h2, by omega⟩
          · exact absurd fx h
      · constructor
        · intro h
          exfalso
          unfold F64.finite at fx fy
          rcases h with h | ⟨h1, h2⟩
          · rw [h] at fx; exact fy fx
          · omega
        · rintro (⟨-, h, -⟩ | ⟨h, -⟩)
          · exact absurd h fy
          · exact absurd fx h
    · have ex1 : exp64 x.toNat = 2047 := by unfold F64.finite at fx; omega
      have mx0 : man64 x.toNat = 0 := by unfold F64.isNaN at hnx; omega
      constructor
      · intro h
        rcases h with h | ⟨h1, h2⟩
        · subst h
          exact .inr ⟨fx, fx, hnx, hnx, rfl⟩
        · omega
      · rintro (⟨h, -⟩ | ⟨-, h, -, -, h2⟩)
        · exact absurd h fx
        · left
          rw [hxy]
          have ey1 : exp64 y.toNat = 2047 := by unfold F64.finite at h; omega
          have my0 : man64 y.toNat = 0 := by unfold F64.isNaN at hny; omega
          omega

theorem F64.eq_self (x : F64) : F64.eq x x = true ↔ ¬ x.isNaN := by
  unfold F64.eq
  rw [← F64.nan_iff]
  cases x.nan <;> simp

theorem F64.Same.symm {x y : F64} (h : F64.Same x y) : F64.Same y x := by
  rcases h with ⟨h1, h2, h3⟩ | ⟨h1, h2, h3, h4, h5⟩
  · exact .inl ⟨h2, h1, h3.symm⟩
  · exact .inr ⟨h2, h1, h4, h3, h5.symm⟩

theorem F64.Same.trans {x y z : F64} (h : F64.Same x y) (h' : F64.Same y z) : F64.Same x z := by
  rcases h with ⟨h1, h2, h3⟩ | ⟨h1, h2, h3, h4, h5⟩ <;> rcases h' with ⟨g1, g2, g3⟩ | ⟨g1, g2, g3, g4, g5⟩
  · exact .inl ⟨h1, g2, h3.trans g3⟩
  · exact absurd h2 g1
  · exact absurd g1 h2
  · exact .inr ⟨h1, g2, h3, g4, h5.trans g5⟩

/-- Equal numbers that are not zero have equal bits. -/
theorem F64.eq_bits {x y : F64} (h : F64.eq x y = true) (h0 : x ≠ 0 ∧ x ≠ 0x8000000000000000) : x = y := by
  unfold F64.eq at h
  split at h
  · cases h
  · simp only [Bool.or_eq_true, Bool.and_eq_true, beq_iff_eq] at h
    rcases h with h | ⟨h, -⟩
    · exact h
    · exfalso
      have := x.toNat_lt
      have : x.toNat = 0 ∨ x.toNat = 2 ^ 63 := by omega
      rcases this with e | e
      · exact h0.1 (UInt64.toNat.inj e)
      · exact h0.2 (UInt64.toNat.inj e)

end Verif
