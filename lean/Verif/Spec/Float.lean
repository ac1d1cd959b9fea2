import Verif.Spec.Codec
/-! # What a float field may be expected to carry

The value of a finite number is a whole multiple of 2^-1074, the smallest positive double; `F64.scaled` and `F32.scaled` are this multiple, so they
compare numbers of both kinds exactly. -/
namespace Verif

def F64.finite (x : F64) : Prop := exp64 x.toNat ≠ 2047
def F64.isNaN (x : F64) : Prop := exp64 x.toNat = 2047 ∧ man64 x.toNat ≠ 0
def F32.finite (y : F32) : Prop := exp32 y.toNat ≠ 255
def F32.isNaN (y : F32) : Prop := exp32 y.toNat = 255 ∧ man32 y.toNat ≠ 0

instance (x : F64) : Decidable x.finite := inferInstanceAs (Decidable (_ ≠ _))
instance (x : F64) : Decidable x.isNaN := inferInstanceAs (Decidable (_ ∧ _))
instance (y : F32) : Decidable y.finite := inferInstanceAs (Decidable (_ ≠ _))
instance (y : F32) : Decidable y.isNaN := inferInstanceAs (Decidable (_ ∧ _))

/-- The number is at most `i`: a finite one, by its value; minus infinity; a NaN is not. -/
def F64.AtMost (x : F64) (i : Int) : Prop := (x.finite ∧ x.scaled ≤ i * 2 ^ 1074) ∨ x = 0xfff0000000000000
/-- The number is at least `i`; so is infinity. -/
def F64.AtLeast (x : F64) (i : Int) : Prop := (x.finite ∧ i * 2 ^ 1074 ≤ x.scaled) ∨ x = 0x7ff0000000000000

/-- The value of a finite single, in units of 2^-1074: a single counts units of 2^-149. -/
def F32.scaled (y : F32) : Int :=
  (if sign32 y.toNat = 1 then -1 else 1) * (sig32 y.toNat * 2 ^ (max (exp32 y.toNat) 1 - 1) * 2 ^ 925 : Nat)

/-- The last bit of the mantissa is 0. -/
def F32.even (y : F32) : Prop := y.toNat % 2 = 0

/-- The distance of a single from a double. -/
def F32.dist (y : F32) (x : F64) : Nat := (y.scaled - x.scaled).natAbs

/-- `y` is the single nearest to `x`; of two equally near ones, the even one. -/
def Nearest (y : F32) (x : F64) : Prop :=
  y.finite ∧ ∀ y' : F32, y'.finite → y.dist x ≤ y'.dist x ∧ (y'.dist x = y.dist x → y'.scaled ≠ y.scaled → y.even)

/-- What a field of 32 bits makes of a number: the nearest single. -/
def toSingle (x : F64) : F64 := match narrow x with
  | some y => widen y
  | none => x

mutual
/-- The value with every float in a field of 32 bits rounded. -/
def roundV : Val → Val
  | .float true x => .float true (toSingle x)
  | .list vs => .list (roundL vs)
  | .struct fs => .struct (roundF fs)
  | .packet cls fs => .packet cls (roundF fs)
  | v => v
def roundL : VList → VList
  | .nil => .nil
  | .cons v r => .cons (roundV v) (roundL r)
def roundF : FVals → FVals
  | .nil => .nil
  | .unset r => .unset (roundF r)
  | .set v r => .set (roundV v) (roundF r)
end

mutual
/-- Every string in the value is ASCII. -/
def textV : Val → Bool
  | .str s => isAscii s
  | .list vs => textL vs
  | .struct fs => textF fs
  | .packet _ fs => textF fs
  | _ => true
def textL : VList → Bool
  | .nil => true
  | .cons v r => textV v && textL r
def textF : FVals → Bool
  | .nil => true
  | .unset r => textF r
  | .set v r => textV v && textF r
end

/-- FLOAT32 and FLOAT64 (fieldtypes/__init__.py:31-32). -/
def float32T : NumAttrs := { bits := some 32 }
def float64T : NumAttrs := { bits := some 64 }

end Verif
