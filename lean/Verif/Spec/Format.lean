import Verif.Model.Format
/-! # Specification vocabulary for C109 -/
namespace Verif.Format

/-- A message: characters, doubled percent signs and fields. -/
inductive Tok where
  | lit (c : Char)
  | percent
  | field (k : Str)
  deriving DecidableEq

/-- The parentheses in a name are in pairs. -/
inductive Balanced : Str → Prop
  | nil : Balanced []
  | char (c : Char) (k : Str) : c ≠ '(' → c ≠ ')' → Balanced k → Balanced (c :: k)
  | paren (b k : Str) : Balanced b → Balanced k → Balanced ('(' :: (b ++ ')' :: k))

/-- A character is no percent sign, and the parentheses in the name of a field are in pairs. -/
def Tok.Ok : Tok → Prop
  | .lit c => c ≠ '%'
  | .percent => True
  | .field k => Balanced k

/-- How the message is written. -/
def Tok.text : Tok → Str
  | .lit c => [c]
  | .percent => ['%', '%']
  | .field k => "%(".toList ++ k ++ ")s".toList

def text (l : List Tok) : Str := l.flatMap Tok.text

/-- What the message says when the fields have these values; other fields stay. -/
def Tok.says (value : Str → Option Str) : Tok → Str
  | .lit c => [c]
  | .percent => ['%']
  | .field k => match value k with
    | some v => v
    | none => "%(".toList ++ k ++ ")s".toList

def says (value : Str → Option Str) (l : List Tok) : Str := l.flatMap (Tok.says value)

/-- The message has fields, but no percent sign. -/
def NoPercent (l : List Tok) : Prop := Tok.percent ∉ l

/-- No value has a percent sign in it. -/
def Plain (d : Dict Str Str) : Prop := ∀ k v, d.get k = some v → '%' ∉ v

end Verif.Format
