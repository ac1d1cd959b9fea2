import Verif.Model.PyStr
import Verif.Model.Bytes
/-! # common/Version.py -/
namespace Verif

/-- `Version`: `major`, `minor` (Version.py:15-20); equality and hash are those of the pair
(Version.py:25-31). -/
structure Ver where
  major : Int
  minor : Int
  deriving DecidableEq, Repr

/-- `Version.FromString` (Version.py:4-13). -/
def Ver.fromString (s : Str) : Except Err Ver :=
  match splitOn '.' s with
  | [a, b] =>
    match pyInt a, pyInt b with
    | some x, some y => .ok ⟨x, y⟩
    | _, _ => .error .attribute
  | _ => .error .attribute

/-- `str(version)` (Version.py:22-23). -/
def Ver.str (v : Ver) : Str := intStr v.major ++ ['.'] ++ intStr v.minor

end Verif
