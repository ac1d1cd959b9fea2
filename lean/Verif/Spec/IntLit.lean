import Verif.Model.PyStr
/-! # Specification of the strings `int()` accepts (ASCII part) -/
namespace Verif

/-- `d` is the decimal digit of value `n`. -/
def IsDigit (c : Char) (n : Nat) : Prop := ('0'.toNat + n = c.toNat) ∧ n < 10

/-- Digits with single underscores between them. -/
inductive Grouped : Str → Nat → Prop
  | one {c n} : IsDigit c n → Grouped [c] n
  | digit {ds n c d} : Grouped ds n → IsDigit c d → Grouped (ds ++ [c]) (n * 10 + d)
  | under {ds n c d} : Grouped ds n → IsDigit c d → Grouped (ds ++ ['_', c]) (n * 10 + d)

/-- Only white space. -/
def Blank (s : Str) : Prop := ∀ c ∈ s, c = ' ' ∨ c = '\t' ∨ c = '\n' ∨ c = '\r' ∨ c = '\x0b' ∨ c = '\x0c'

/-- The strings `int()` accepts and their values: white space around an optionally signed number. -/
inductive IntLit : Str → Int → Prop
  | plain {l ds r n} : Blank l → Grouped ds n → Blank r → IntLit (l ++ ds ++ r) n
  | plus {l ds r n} : Blank l → Grouped ds n → Blank r → IntLit (l ++ '+' :: ds ++ r) n
  | minus {l ds r n} : Blank l → Grouped ds n → Blank r → IntLit (l ++ '-' :: ds ++ r) (-(n : Int))

end Verif
