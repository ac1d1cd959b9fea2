import Verif.Model.Lines
/-! # Specification of lines -/
namespace Verif.Lines

/-- `d` occurs in `b`. -/
def Occurs (d b : Bytes) : Prop := ∃ x y, b = x ++ d ++ y

/-- In a line followed by its delimiter, the delimiter is only at the end. -/
def IsLine (d l : Bytes) : Prop := ∀ x y, l ++ d = x ++ d ++ y → y = []

/-- The data `b` consists of the lines `ls`, each followed by the delimiter, and an unfinished line. -/
structure Split (d b : Bytes) (ls : List Bytes) (rest : Bytes) : Prop where
  join : (ls.map (· ++ d)).flatten ++ rest = b
  lines : ∀ l ∈ ls, IsLine d l
  last : ¬ Occurs d rest

end Verif.Lines
