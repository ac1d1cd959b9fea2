import Verif.Model.Bytes
namespace Verif

@[simp] theorem beEnc_length (w v : Nat) : (beEnc w v).length = w := by
  induction w generalizing v with
  | zero => rfl
  | succ w ih => simp [beEnc, ih]

theorem beDec_append (a b : Bytes) : beDec (a ++ b) = beDec a * 256 ^ b.length + beDec b := by
  unfold beDec
  rw [List.foldl_append]
  generalize List.foldl (fun acc (x : UInt8) => acc * 256 + x.toNat) 0 a = n
  suffices h : ∀ (b : Bytes) (n : Nat),
      List.foldl (fun acc (x : UInt8) => acc * 256 + x.toNat) n b
        = n * 256 ^ b.length + List.foldl (fun acc (x : UInt8) => acc * 256 + x.toNat) 0 b from h b n
  intro b
  induction b with
  | nil => intro n; simp
  | cons x b ih =>
    intro n
    simp only [List.foldl_cons, List.length_cons]
    rw [ih, ih (0 * 256 + x.toNat), Nat.pow_succ]
    simp only [Nat.zero_mul, Nat.zero_add, Nat.add_mul, Nat.mul_assoc, Nat.mul_comm 256]
    omega

@[simp] theorem beDec_nil : beDec [] = 0 := rfl

theorem beDec_singleton (x : UInt8) : beDec [x] = x.toNat := by simp [beDec]

theorem beDec_beEnc (w v : Nat) : beDec (beEnc w v) = v % 256 ^ w := by
  induction w generalizing v with
  | zero => simp [beEnc, Nat.mod_one]
  | succ w ih =>
    rw [beEnc, beDec_append, ih, beDec_singleton]
    simp only [List.length_singleton, Nat.pow_one]
    rw [show (UInt8.ofNat (v % 256)).toNat = v % 256 by simp]
    rw [Nat.pow_succ, Nat.mul_comm (256 ^ w) 256, Nat.mod_mul]
    omega

theorem beDec_beEnc_lt {w v : Nat} (h : v < 256 ^ w) : beDec (beEnc w v) = v := by
  rw [beDec_beEnc, Nat.mod_eq_of_lt h]

theorem beDec_lt (b : Bytes) : beDec b < 256 ^ b.length := by
  induction b with
  | nil => simp
  | cons x b ih =>
    rw [show x :: b = [x] ++ b from rfl, beDec_append, beDec_singleton]
    simp only [List.length_append, List.length_singleton]
    have h := x.toNat_lt
    rw [Nat.add_comm 1, Nat.pow_succ]
    have : x.toNat * 256 ^ b.length ≤ 255 * 256 ^ b.length := Nat.mul_le_mul_right _ (by omega)
    omega

theorem beEnc_beDec (b : Bytes) : beEnc b.length (beDec b) = b := by
  suffices h : ∀ (n : Nat) (b : Bytes), b.length = n → beEnc n (beDec b) = b from h _ b rfl
  intro n
  induction n with
  | zero => intro b hb; simp at hb; simp [hb, beEnc]
  | succ n ih =>
    intro b hb
    have hne : b ≠ [] := by intro h; simp [h] at hb
    obtain ⟨c, x, rfl⟩ : ∃ c x, b = c ++ [x] := ⟨b.dropLast, b.getLast hne, (List.dropLast_concat_getLast hne).symm⟩
    have hx := x.toNat_lt
    rw [beDec_append, beDec_singleton, beEnc]
    simp only [List.length_singleton, Nat.pow_one]
    rw [show (beDec c * 256 + x.toNat) / 256 = beDec c by omega,
        show (beDec c * 256 + x.toNat) % 256 = x.toNat by omega, ih c (by simpa using hb)]
    simp

theorem compl64_eq {x : Nat} (h : x < 2 ^ 64) : compl64 x = 2 ^ 64 - 1 - x := by
  unfold compl64
  have h2 := BitVec.toNat_not (x := BitVec.ofNat 64 x)
  rw [← BitVec.xor_allOnes] at h2
  simp only [BitVec.toNat_xor, BitVec.toNat_ofNat, BitVec.toNat_allOnes, Nat.mod_eq_of_lt h] at h2
  exact h2

theorem compl64_lt {x : Nat} (h : x < 2 ^ 64) : compl64 x < 2 ^ 64 := by
  rw [compl64_eq h]; omega

theorem compl64_compl64 {x : Nat} (h : x < 2 ^ 64) : compl64 (compl64 x) = x := by
  rw [compl64_eq (compl64_lt h), compl64_eq h]; omega

/-! ### pack / unpack -/

theorem packU_ok {w : Nat} {v : Int} {b : Bytes} (h : packU w v = .ok b) :
    0 ≤ v ∧ v < 256 ^ w ∧ b = beEnc w v.toNat := by
  unfold packU at h
  split at h
  · next hc => cases h; exact ⟨hc.1, hc.2, rfl⟩
  · cases h

theorem packU_len {w : Nat} {v : Int} {b : Bytes} (h : packU w v = .ok b) : b.length = w := by
  rw [(packU_ok h).2.2]; simp

theorem packU_dec {w : Nat} {v : Int} {b : Bytes} (h : packU w v = .ok b) : (beDec b : Int) = v := by
  obtain ⟨h0, h1, rfl⟩ := packU_ok h
  rw [beDec_beEnc_lt]
  · omega
  · have : ((v.toNat : Nat) : Int) < ((256 ^ w : Nat) : Int) := by
      rw [Int.toNat_of_nonneg h0]; simpa using h1
    omega

theorem packU_decN {w v : Nat} {b : Bytes} (h : packU w (v : Int) = .ok b) : beDec b = v := by
  have := packU_dec h
  omega

theorem packU_nat {w v : Nat} (h : v < 256 ^ w) : packU w (v : Int) = .ok (beEnc w v) := by
  unfold packU
  rw [if_pos]
  · simp
  · constructor
    · omega
    · have : ((v : Nat) : Int) < ((256 ^ w : Nat) : Int) := by exact_mod_cast h
      simpa using this

theorem packS_ok {w : Nat} {v : Int} {b : Bytes} (h : packS w v = .ok b) :
    b.length = w ∧ unpackS w b = v := by
  unfold packS at h
  split at h
  · next hc =>
    cases h
    refine ⟨by simp, ?_⟩
    obtain ⟨h1, h2⟩ := hc
    have hp : (0 : Int) < 256 ^ w := Int.pow_pos (by omega)
    have hcast : ((256 ^ w : Nat) : Int) = (256 : Int) ^ w := by simp
    unfold unpackS
    by_cases hv : v < 0
    · have hlt : (v + 256 ^ w).toNat < 256 ^ w := by omega
      rw [if_pos hv, beDec_beEnc_lt hlt]
      simp only
      rw [Int.toNat_of_nonneg (by omega)]
      rw [if_neg (by omega)]
      omega
    · have hlt : v.toNat < 256 ^ w := by omega
      rw [if_neg hv, beDec_beEnc_lt hlt]
      simp only
      rw [Int.toNat_of_nonneg (by omega), if_pos h2]
  · cases h

end Verif
