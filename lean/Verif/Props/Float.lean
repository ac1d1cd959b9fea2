import Verif.Lemmas.FloatCodec
import Verif.Props.RoundTrip
/-! # C81: float fields -/
namespace Verif

/-! ## Numbers -/

/-- C81. Every finite single is read as the same number. -/
theorem C81_read_exact {y : F32} (hy : y.finite) : (widen y).finite ∧ (widen y).scaled = y.scaled := by
  obtain ⟨h1, h2, h3⟩ := widen_finite hy
  exact ⟨h1, by rw [scaled64_eq, scaled32_eq, h2, h3]⟩

/-- C81. What was read is written as the same bytes: numbers can be passed on. -/
theorem C81_relay {y : F32} (hy : ¬ y.isNaN) : narrow (widen y) = some y := narrow_widen hy

/-- C81. A number is written as the single nearest to it, of two equally near ones as the even one. -/
theorem C81_nearest {x : F64} {y : F32} (hx : x.finite) (h : narrow x = some y) : Nearest y x := nearest_of_narrow hx h

/-- C81. Writing fails exactly for finite numbers from 2^128 - 2^103 on: half way between the largest single and 2^128. -/
theorem C81_overflow (x : F64) : narrow x = none ↔ x.finite ∧ (2 ^ 128 - 2 ^ 103) * 2 ^ 1074 ≤ x.scaled.natAbs := by
  have hX : x.scaled.natAbs = mag64 x.toNat := by
    rw [scaled64_eq]
    generalize mag64 x.toNat = X
    split <;> omega
  rw [narrow_none, narrow_overflow, hX]

/-- C81. The error is at most 2^-150, or 2^-24 of the number. -/
theorem C81_error {x : F64} {y : F32} (hx : x.finite) (h : narrow x = some y) :
    2 * y.dist x ≤ 2 ^ 925 ∨ 2 ^ 24 * y.dist x ≤ x.scaled.natAbs := narrow_error hx h

/-- C81. The order of numbers is kept. -/
theorem C81_order {x x' : F64} (hx : x.finite) (hx' : x'.finite) (hle : x.scaled ≤ x'.scaled) {y y' : F32} (h : narrow x = some y)
    (h' : narrow x' = some y') : y.scaled ≤ y'.scaled := narrow_mono hx hx' hle h h'

/-- C81. The numbers that a field of 32 bits keeps are the singles. -/
theorem C81_singles (x : F64) : isSingle x = true ↔ ∃ y, widen y = x := isSingle_iff x

/-- The double 0.1 and the single nearest to it. -/
example : F64.finite 0x3fb999999999999a ∧ narrow 0x3fb999999999999a = some 0x3dcccccd ∧ widen 0x3dcccccd = 0x3fb99999a0000000 := by decide +kernel
/-- 16777217 is half way between two singles; the even one is chosen. -/
example : narrow 0x4170000010000000 = some 0x4b800000 ∧ F32.dist 0x4b800000 0x4170000010000000 = F32.dist 0x4b800001 0x4170000010000000 := by
  decide +kernel
/-- The smallest single, and half of it: to the even one, 0. -/
example : widen 1 = 0x36a0000000000000 ∧ narrow 0x3690000000000000 = some 0 ∧ narrow 0x3690000000000001 = some 1 := by decide +kernel
/-- Infinity stays; the largest double overflows. -/
example : narrow 0x7ff0000000000000 = some 0x7f800000 ∧ narrow 0x7fefffffffffffff = none := by decide +kernel

/-! ## Fields -/

/-- FLOAT32 accepts the numbers up to 2^32 - 1 and minus infinity, FLOAT64 those up to 2^64 - 1; neither accepts NaN. -/
theorem C81_accepted {b : Nat} (x : F64) : NumAttrs.validatesFloat { bits := some b } x = true ↔
    (x.finite ∧ x.scaled ≤ (2 ^ b - 1) * 2 ^ 1074) ∨ x = 0xfff0000000000000 := by
  have hinf : exp64 x.toNat = 2047 → ((man64 x.toNat = 0 ∧ sign64 x.toNat = 1) ↔ x = 0xfff0000000000000) := by
    intro he
    constructor
    · rintro ⟨h1, h2⟩
      apply UInt64.toNat.inj
      rw [bits64 x.toNat, h1, h2, he]
      rfl
    · rintro rfl; exact ⟨by decide +kernel, by decide +kernel⟩
  simp only [NumAttrs.validatesFloat, NumAttrs.effMax, Option.map_some, Bool.and_true, Bool.and_eq_true, F64.leInt]
  by_cases he : exp64 x.toNat = 2047
  · simp only [if_pos he, Bool.and_eq_true, beq_iff_eq, and_self]
    rw [hinf he]
    constructor
    · exact .inr
    · rintro (⟨h, -⟩ | h)
      · exact absurd he h
      · exact h
  · simp only [if_neg he, decide_eq_true_eq]
    have hne : x ≠ 0xfff0000000000000 := by rintro rfl; exact he (by decide +kernel)
    have hle : ((2 : Int) ^ b - 1) * 2 ^ 1074 ≤ 2 ^ b * 2 ^ 1074 := Int.mul_le_mul_of_nonneg_right (by omega) (Int.pow_nonneg (by decide))
    constructor
    · rintro ⟨-, h⟩; exact .inl ⟨he, h⟩
    · rintro (⟨-, h⟩ | h)
      · exact ⟨Int.le_trans h hle, h⟩
      · exact absurd h hne

theorem leInt_iff (x : F64) (i : Int) : x.leInt i = true ↔ x.AtMost i := by
  unfold F64.leInt F64.AtMost F64.finite
  by_cases he : exp64 x.toNat = 2047
  · rw [if_pos he]
    simp only [Bool.and_eq_true, beq_iff_eq]
    constructor
    · rintro ⟨h1, h2⟩
      right
      apply UInt64.toNat.inj
      rw [bits64 x.toNat, he, h1, h2]; decide +kernel
    · rintro (⟨h, -⟩ | rfl)
      · exact absurd he h
      · exact ⟨by decide +kernel, by decide +kernel⟩
  · rw [if_neg he, decide_eq_true_eq]
    constructor
    · exact fun h => .inl ⟨he, h⟩
    · rintro (⟨-, h⟩ | rfl)
      · exact h
      · exact absurd (by decide +kernel) he

theorem geInt_iff (x : F64) (i : Int) : x.geInt i = true ↔ x.AtLeast i := by
  unfold F64.geInt F64.AtLeast F64.finite
  by_cases he : exp64 x.toNat = 2047
  · rw [if_pos he]
    simp only [Bool.and_eq_true, beq_iff_eq]
    constructor
    · rintro ⟨h1, h2⟩
      right
      apply UInt64.toNat.inj
      rw [bits64 x.toNat, he, h1, h2]; decide +kernel
    · rintro (⟨h, -⟩ | rfl)
      · exact absurd he h
      · exact ⟨by decide +kernel, by decide +kernel⟩
  · rw [if_neg he, decide_eq_true_eq]
    constructor
    · exact fun h => .inl ⟨he, h⟩
    · rintro (⟨-, h⟩ | rfl)
      · exact h
      · exact absurd (by decide +kernel) he

/-- C81. Which numbers a float field takes, with any limits: they are compared exactly, and a NaN is within none. With `Bits(n)` and without a `MaxValue`, at most
2^n - 1. -/
theorem C81_limits (a : NumAttrs) (x : F64) : a.validatesFloat x = true ↔
    (∀ m, a.minV = some m → x.AtLeast m) ∧ (∀ m, a.maxV = some m → x.AtMost m) ∧ (∀ n, a.bits = some n → x.AtMost (2 ^ n) ∧ (a.maxV = none → x.AtMost (2 ^ n - 1))) := by
  obtain ⟨b, mx, mn⟩ := a
  simp only [NumAttrs.validatesFloat, NumAttrs.effMax, Bool.and_eq_true]
  cases b <;> cases mx <;> cases mn <;> simp [leInt_iff, geInt_iff, and_comm, and_assoc]

example : NumAttrs.validatesFloat { minV := some 1, maxV := some 2 } 0x3ff8000000000000 = true ∧ NumAttrs.validatesFloat { minV := some 1, maxV := some 2 } 0x3ff0000000000000 = true ∧
    NumAttrs.validatesFloat { minV := some 1, maxV := some 2 } 0x3fe8000000000000 = false ∧ NumAttrs.validatesFloat { minV := some 1 } 0x7ff8000000000000 = false := by decide +kernel

/-- C81. A packet arrives with every number in a field of 32 bits replaced by the nearest single, if the types still accept it, and if all other
conditions of C01 hold (its strings are ASCII, its nesting is within the recursion limit, no string or buffer is longer than the packet it is in); numbers in
fields of 64 bits arrive unchanged. -/
theorem C81_packet {env : Env} (hr : env.Registered) {depth : Nat} {base : Cls} {p : Val} (hs : Sendable env base p)
    (ha : accepts env (roundV p) (.packet base) = true) :
    Decodes env depth base (ser env p) (roundV p) ↔ (textV p = true ∧ depthV p ≤ depth ∧ ∃ m, limV (serLen env) 0 p = some m) := by
  obtain ⟨c, fs, b, rfl, hb, hser, he⟩ := sendable_cases hs
  have h1 : serialize env 0 (roundV (.packet c fs)) = .ok b := by
    have := enc_roundV env (.packet c fs) (.packet base) hs.1
    have e : ∀ fs, encV env (.packet c fs) (.packet 0) = encV env (.packet c fs) (.packet base) := fun fs => by rw [encV, encV]
    rw [roundV.eq_def] at this ⊢; dsimp only at this ⊢
    unfold serialize
    rw [e, this, he]
  have hs' : Sendable env base (roundV (.packet c fs)) := ⟨ha, b, h1⟩
  have hse : ser env (roundV (.packet c fs)) = ser env (.packet c fs) := by rw [hser, ser, h1]
  have := C01_roundtrip_iff_partial hr (depth := depth) hs'
  rw [hse, ascii_roundV env _ _ b hs.1 he, depth_roundV, lim_roundV env _ _ 0 hs.1] at this
  exact this

/-- C81. Numbers of at most 2^32 - 256 are still accepted when rounded. -/
theorem C81_still_accepted {x : F64} (h : float32T.validatesFloat x = true) (hlt : x.finite → x.scaled ≤ (2 ^ 32 - 256) * 2 ^ 1074)
    (hs : narrow x ≠ none) : float32T.validatesFloat (toSingle x) = true := by
  rw [float32T, C81_accepted] at h ⊢
  rcases h with ⟨hf, -⟩ | rfl
  · left
    cases hn : narrow x with
    | none => exact absurd hn hs
    | some y =>
      rw [toSingle_of hn]
      have hy := (nearest_of_narrow hf hn).1
      have h2 := C81_read_exact hy
      refine ⟨h2.1, ?_⟩
      rw [h2.2]
      have e1 : F64.scaled 0x41efffffe0000000 = (2 ^ 32 - 256) * 2 ^ 1074 := by decide +kernel
      have e2 : F32.scaled 0x4f7fffff = (2 ^ 32 - 256) * 2 ^ 1074 := by decide +kernel
      have := narrow_mono hf (x' := 0x41efffffe0000000) (by decide +kernel) (by rw [e1]; exact hlt hf) hn (y' := 0x4f7fffff) (by decide +kernel)
      rw [e2] at this
      exact Int.le_trans this (by decide +kernel)
  · right; decide +kernel

/-! ## A concrete packet -/

namespace FloatEx

def t : PDef := ⟨"t.f".toList, "1.0".toList, .cons "x" none false (.float float32T) (.cons "y" none false (.float float64T) .nil)⟩

def env : Env where
  classDef := fun c => if c = 1 then some t else none
  isSub := fun c b => b == 0 || b == c
  lookup := fun _ name v => if name = t.ident ∧ v = ⟨1, 0⟩ then .ok (some 1) else .ok none

theorem registered : env.Registered := by
  intro cls d base h _
  unfold env at h
  dsimp only at h
  split at h
  · next hc => cases h; subst hc; exact ⟨⟨1, 0⟩, by decide +kernel, rfl⟩
  · cases h

def pkt (x y : F64) : Val := .packet 1 (.set (.float true x) (.set (.float false y) .nil))

theorem sendable {p : Val} (h1 : accepts env p (.packet 0) = true) (h2 : (serialize env 0 p).isOk = true) : Sendable env 0 p := by
  refine ⟨h1, ?_⟩
  cases hs : serialize env 0 p with
  | ok b => exact ⟨b, rfl⟩
  | error e => rw [hs] at h2; cases h2

end FloatEx

open FloatEx in
/-- x = 1.5 and y = 0.1 arrive unchanged; x = 0.1 arrives as the nearest single. -/
example : Decodes env 1 0 (ser env (pkt 0x3ff8000000000000 0x3fb999999999999a)) (pkt 0x3ff8000000000000 0x3fb999999999999a) ∧
    Decodes env 1 0 (ser env (pkt 0x3fb999999999999a 0x3fb999999999999a)) (pkt 0x3fb99999a0000000 0x3fb999999999999a) := by
  constructor
  · exact (C81_packet registered (sendable (by decide +kernel) (by decide +kernel)) (by decide +kernel)).mpr ⟨by decide, by decide, _, rfl⟩
  · exact (C81_packet registered (sendable (p := pkt 0x3fb999999999999a 0x3fb999999999999a) (by decide +kernel) (by decide +kernel))
      (by decide +kernel)).mpr ⟨by decide, by decide, _, rfl⟩

/-! ## What does not hold -/

open FloatEx in
/-- C81 is false: 0.1 in a FLOAT32 field is accepted, and another number arrives. -/
theorem C81_false_changed : ∃ p p', p ≠ p' ∧ Sendable env 0 p ∧ Decodes env 1 0 (ser env p) p' := by
  refine ⟨pkt 0x3fb999999999999a 0, roundV (pkt 0x3fb999999999999a 0), by decide +kernel, sendable (by decide +kernel) (by decide +kernel), ?_⟩
  exact (C81_packet registered (sendable (by decide +kernel) (by decide +kernel)) (by decide +kernel)).mpr ⟨by decide, by decide, _, rfl⟩

open FloatEx in
/-- C81 is false: 4294967295.0 in a FLOAT32 field is accepted and sent as 2^32, which every receiver refuses. -/
theorem C81_false_refused : Sendable env 0 (pkt 0x41efffffffe00000 0) ∧ ∀ q, ¬ Decodes env 1 0 (ser env (pkt 0x41efffffffe00000 0)) q := by
  refine ⟨sendable (by decide +kernel) (by decide +kernel), fun q => ?_⟩
  exact Ex.not_decodes (o := none) (by decide +kernel) (by simp)

open FloatEx in
/-- C81 is false: -1e39 is accepted by a FLOAT32 field, and the packet cannot be sent. -/
theorem C81_false_unsendable : accepts env (pkt 0xc8078287f49c4a1d 0) (.packet 0) = true ∧ ∃ e, serialize env 0 (pkt 0xc8078287f49c4a1d 0) = .error e := by
  refine ⟨by decide +kernel, ?_⟩
  cases h : serialize env 0 (pkt 0xc8078287f49c4a1d 0) with
  | error e => exact ⟨e, rfl⟩
  | ok b =>
    have : (serialize env 0 (pkt 0xc8078287f49c4a1d 0)).isOk = false := by decide +kernel
    rw [h] at this; cases this

/-- C81 is false: 5e9, a number that singles hold exactly, is refused by FLOAT32; infinity and NaN are refused, minus infinity is not. -/
theorem C81_false_range : float32T.validatesFloat 0x41f2a05f20000000 = false ∧ isSingle 0x41f2a05f20000000 = true ∧
    float64T.validatesFloat 0x7ff0000000000000 = false ∧ float64T.validatesFloat 0x7ff8000000000000 = false ∧
    float64T.validatesFloat 0xfff0000000000000 = true := by decide +kernel

end Verif
