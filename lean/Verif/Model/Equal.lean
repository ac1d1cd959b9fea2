import Verif.Model.Types
/-! # `==` of packets (fieldtypes/PacketFields.py:28-38, fieldtypes/ListFieldType.py:58-70)

On the values of Model/Types.lean. Structs do not carry their class there: two structs that are compared are in the same field, and are taken to be of the class of
the field. Values of different kinds are never in the same field of one class. The recursion of Python, which is limited, is not limited here; Model/Alias.lean has
the same comparison on objects, with the limit. `!=` is the opposite of `==` (no class here defines `__ne__`). -/
namespace Verif

/-- Not a number (the bits of PlaygroundStandardPacketEncoder.py:161-162). -/
def F64.nan (x : F64) : Bool := decide (exp64 x.toNat = 2047) && decide (man64 x.toNat ≠ 0)

/-- `x == y` of Python for floats (in PacketFields.py:36, ListFieldType.py:67): NaN is not equal to anything, 0.0 equals -0.0. -/
def F64.eq (x y : F64) : Bool :=
  if x.nan || y.nan then false else x == y || (x.toNat % 2 ^ 63 == 0 && y.toNat % 2 ^ 63 == 0)

mutual
/-- `a == b` of what two fields of the same type hold; packets: PacketFields.py:33-38; lists: ListFieldType.py:64-70, where the lengths are compared first. -/
def eqV : Val → Val → Bool
  | .num i, .num j => i == j
  | .float _ x, .float _ y => F64.eq x y
  | .bool a, .bool b => a == b
  | .str s, .str t => s == t
  | .buf s, .buf t => s == t
  | .list vs, .list ws => if vs.length = ws.length then eqL vs ws else false
  | .struct fs, .struct gs => eqF fs gs
  | .packet c fs, .packet d gs => if c = d then eqF fs gs else false
  | _, _ => false
/-- The loop over the elements (ListFieldType.py:66-69). -/
def eqL : VList → VList → Bool
  | .nil, _ => true
  | .cons v r, .cons w s => if eqV v w then eqL r s else false
  | .cons _ _, .nil => false
/-- The loop over the fields (PacketFields.py:35-38); UNSET is equal to itself only. Packets of one class have the same number of fields. -/
def eqF : FVals → FVals → Bool
  | .nil, .nil => true
  | .unset r, .unset s => eqF r s
  | .set v r, .set w s => if eqV v w then eqF r s else false
  | _, _ => false
end

end Verif
