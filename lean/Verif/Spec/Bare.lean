import Verif.Model.Bare
import Verif.Spec.Codec
/-! # Specification vocabulary for C98 -/
namespace Verif

mutual
/-- "No string or buffer is longer than the packet whose header was read last" (`limV`), with 0 for "no header was read yet": then there is no limit. -/
def limUV (len : Val → Nat) : Nat → Val → Option Nat
  | m, .str s => if m = 0 ∨ s.length ≤ m then some m else none
  | m, .buf b => if m = 0 ∨ b.length ≤ m then some m else none
  | m, .list vs => limUL len m vs
  | m, .struct fs => limUF len m fs
  | _, .packet cls fs => limUF len (len (.packet cls fs)) fs
  | m, _ => some m
def limUL (len : Val → Nat) : Nat → VList → Option Nat
  | m, .nil => some m
  | m, .cons v r => (limUV len m v).bind fun m' => limUL len m' r
def limUF (len : Val → Nat) : Nat → FVals → Option Nat
  | m, .nil => some m
  | m, .unset r => limUF len m r
  | m, .set v r => (limUV len m v).bind fun m' => limUF len m' r
end

end Verif
