import Verif.Model.Equal
import Verif.Spec.Float
/-! # What `==` of packets should mean -/
namespace Verif

/-- The numbers are equal: finite ones by value, infinite ones by sign; a NaN is equal to nothing. -/
def F64.Same (x y : F64) : Prop :=
  (x.finite ∧ y.finite ∧ x.scaled = y.scaled) ∨ (¬ x.finite ∧ ¬ y.finite ∧ ¬ x.isNaN ∧ ¬ y.isNaN ∧ sign64 x.toNat = sign64 y.toNat)

mutual
/-- The same contents. -/
inductive Same : Val → Val → Prop where
  | num (i) : Same (.num i) (.num i)
  | float {w w' x y} : F64.Same x y → Same (.float w x) (.float w' y)
  | bool (b) : Same (.bool b) (.bool b)
  | str (s) : Same (.str s) (.str s)
  | buf (b) : Same (.buf b) (.buf b)
  | list {vs ws} : SameL vs ws → Same (.list vs) (.list ws)
  | struct {fs gs} : SameF fs gs → Same (.struct fs) (.struct gs)
  | packet {c fs gs} : SameF fs gs → Same (.packet c fs) (.packet c gs)
/-- The same number of elements, and the same elements. -/
inductive SameL : VList → VList → Prop where
  | nil : SameL .nil .nil
  | cons {v w r s} : Same v w → SameL r s → SameL (.cons v r) (.cons w s)
/-- The same fields are set, to the same. -/
inductive SameF : FVals → FVals → Prop where
  | nil : SameF .nil .nil
  | unset {r s} : SameF r s → SameF (.unset r) (.unset s)
  | set {v w r s} : Same v w → SameF r s → SameF (.set v r) (.set w s)
end

mutual
/-- `p` holds at every float. -/
def floatsV (p : F64 → Bool) : Val → Bool
  | .float _ x => p x
  | .list vs => floatsL p vs
  | .struct fs => floatsF p fs
  | .packet _ fs => floatsF p fs
  | _ => true
def floatsL (p : F64 → Bool) : VList → Bool
  | .nil => true
  | .cons v r => floatsV p v && floatsL p r
def floatsF (p : F64 → Bool) : FVals → Bool
  | .nil => true
  | .unset r => floatsF p r
  | .set v r => floatsV p v && floatsF p r
end

mutual
/-- Every float in the type has a limit: `Bits` (as in FLOAT32 and FLOAT64), `MaxValue` or `MinValue`. -/
def limitedT : FType → Bool
  | .float a => a.bits.isSome || a.maxV.isSome || a.minV.isSome
  | .list t => limitedT t
  | .struct ds => limitedF ds
  | _ => true
def limitedF : FDecls → Bool
  | .nil => true
  | .cons _ _ _ t r => limitedT t && limitedF r
end

/-- No float is a NaN. -/
def NoNaN (v : Val) : Prop := floatsV (fun x => decide (¬ x.isNaN)) v = true
/-- No float is 0.0 or -0.0. -/
def NoZero (v : Val) : Prop := floatsV (fun x => decide (x ≠ 0 ∧ x ≠ 0x8000000000000000)) v = true

end Verif
