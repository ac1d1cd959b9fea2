import Verif.Model.Bytes
/-! # IEEE 754 numbers: Python's `float`, and `struct` with `!d` and `!f`

A Python float is the 64 bits of a double. `struct.pack("!d", x)` writes these bits; `struct.pack("!f", x)` rounds to the nearest single, half way to
the even one, and raises OverflowError if the number is finite and the result is not; `struct.unpack("!f", b)` is exact. A NaN is made quiet by the
conversions and its payload cut, as x86 does it. Everything here models `float` and `struct` as used by `FloatFieldType._setTypedData`
(fieldtypes/FloatFieldType.py:10-14) and `FloatEncoder` (encoders/PlaygroundStandardPacketEncoder.py:158-173); comparisons are those of the validators
(fieldtypes/attributes/scalar_validators.py:5-29). -/
namespace Verif

/-- A Python float: the bits of a double (FloatFieldType.py:12). -/
abbrev F64 := UInt64
/-- The bits of a single, pack code `!f` (PlaygroundStandardPacketEncoder.py:161). -/
abbrev F32 := UInt32

/-- Sign, exponent and mantissa of a double, for the pack code `!d` (PlaygroundStandardPacketEncoder.py:162). -/
def sign64 (n : Nat) : Nat := n / 2 ^ 63
def exp64 (n : Nat) : Nat := n / 2 ^ 52 % 2 ^ 11
def man64 (n : Nat) : Nat := n % 2 ^ 52
/-- The same of a single, for `!f` (PlaygroundStandardPacketEncoder.py:161). -/
def sign32 (n : Nat) : Nat := n / 2 ^ 31
def exp32 (n : Nat) : Nat := n / 2 ^ 23 % 2 ^ 8
def man32 (n : Nat) : Nat := n % 2 ^ 23

/-- `m / 2^k` rounded to the nearest integer, half way to the even one (part of `pack("!f")`, PlaygroundStandardPacketEncoder.py:151, 161). -/
def roundEven (m k : Nat) : Nat :=
  if 2 ^ k < 2 * (m % 2 ^ k) ∨ (2 * (m % 2 ^ k) = 2 ^ k ∧ m / 2 ^ k % 2 = 1) then m / 2 ^ k + 1 else m / 2 ^ k

/-- The significand: with the hidden bit, unless the exponent is 0 (bit format of `!f`, `!d`: PlaygroundStandardPacketEncoder.py:161-162). -/
def sig64 (n : Nat) : Nat := if exp64 n = 0 then man64 n else man64 n + 2 ^ 52
def sig32 (n : Nat) : Nat := if exp32 n = 0 then man32 n else man32 n + 2 ^ 23

/-- The mantissa of a quiet NaN of `b + 1` bits (conversions of `!f`, PlaygroundStandardPacketEncoder.py:161). -/
def quiet (b m : Nat) : Nat := if m < 2 ^ b then m + 2 ^ b else m

/-- Exponent and mantissa of the single nearest to a finite double; a carry of the mantissa goes into the exponent
(`pack("!f")`, PlaygroundStandardPacketEncoder.py:151, 161). -/
def narrowMag (n : Nat) : Nat := (max (exp64 n) 1 - 897) * 2 ^ 23 + roundEven (sig64 n) (29 + (897 - max (exp64 n) 1))

/-- `(float)x` in C; `none`: a finite number became infinite (`pack("!f")`, PlaygroundStandardPacketEncoder.py:151, 161). -/
def narrowBits (n : Nat) : Option Nat :=
  if exp64 n = 2047 then some (sign64 n * 2 ^ 31 + 255 * 2 ^ 23 + (if man64 n = 0 then 0 else quiet 22 (man64 n / 2 ^ 29)))
  else if 255 * 2 ^ 23 ≤ narrowMag n then none
  else some (sign64 n * 2 ^ 31 + narrowMag n)

/-- `(double)y` in C (`unpack("!f")`, PlaygroundStandardPacketEncoder.py:155, 161). -/
def widenBits (n : Nat) : Nat :=
  if exp32 n = 255 then sign32 n * 2 ^ 63 + 2047 * 2 ^ 52 + (if man32 n = 0 then 0 else quiet 51 (man32 n * 2 ^ 29))
  else if exp32 n = 0 then
    if man32 n = 0 then sign32 n * 2 ^ 63
    else sign32 n * 2 ^ 63 + (Nat.log2 (man32 n) + 874) * 2 ^ 52 + (man32 n - 2 ^ Nat.log2 (man32 n)) * 2 ^ (52 - Nat.log2 (man32 n))
  else sign32 n * 2 ^ 63 + (exp32 n + 896) * 2 ^ 52 + man32 n * 2 ^ 29

/-- `struct.pack("!f", x)` (PlaygroundStandardPacketEncoder.py:151, 161). -/
def narrow (x : F64) : Option F32 := (narrowBits x.toNat).map UInt32.ofNat
/-- `struct.unpack("!f", ...)` (PlaygroundStandardPacketEncoder.py:155, 161). -/
def widen (y : F32) : F64 := UInt64.ofNat (widenBits y.toNat)

/-- The value of a finite double, in units of 2^-1074 (scalar_validators.py:5-29 compare values). -/
def F64.scaled (x : F64) : Int := (if sign64 x.toNat = 1 then -1 else 1) * (sig64 x.toNat * 2 ^ (max (exp64 x.toNat) 1 - 1) : Nat)

/-- `x <= i` in Python, for an integer `i`: the comparison is exact (`MaxValue`, `Bits`: scalar_validators.py:5-29). -/
def F64.leInt (x : F64) (i : Int) : Bool :=
  if exp64 x.toNat = 2047 then man64 x.toNat == 0 && sign64 x.toNat == 1 else decide (x.scaled ≤ i * 2 ^ 1074)

/-- `x >= i` (`MinValue`: scalar_validators.py:5-29). -/
def F64.geInt (x : F64) (i : Int) : Bool :=
  if exp64 x.toNat = 2047 then man64 x.toNat == 0 && sign64 x.toNat == 0 else decide (i * 2 ^ 1074 ≤ x.scaled)

/-- A single holds the number exactly: `unpack(pack(x)) == x` (PlaygroundStandardPacketEncoder.py:149-156, 161). -/
def isSingle (x : F64) : Bool := match narrow x with
  | some y => widen y == x
  | none => false

end Verif
