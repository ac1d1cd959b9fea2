/-!
# The pieces of Python's `str`/`int` used by versions, addresses and hierarchical keys
-/
deriving instance DecidableEq for Except

namespace Verif

abbrev Str := List Char

/-- `s.split(c)` for a one-character separator. Never empty: `"".split(".") == [""]`. -/
def splitOn (c : Char) : Str → List Str
  | [] => [[]]
  | x :: xs =>
    if x = c then [] :: splitOn c xs
    else match splitOn c xs with
      | [] => [[x]]
      | p :: ps => (x :: p) :: ps

/-- `sep.join(parts)` for a one-character separator. -/
def joinWith (c : Char) : List Str → Str
  | [] => []
  | [p] => p
  | p :: q :: ps => p ++ c :: joinWith c (q :: ps)

/-- ASCII whitespace stripped by Python's `int()`. -/
def isWs (c : Char) : Bool := c = ' ' || c = '\t' || c = '\n' || c = '\r' || c = '\x0b' || c = '\x0c'

def strip (s : Str) : Str := ((s.dropWhile isWs).reverse.dropWhile isWs).reverse

/-- Value of a decimal digit. -/
def digitVal (c : Char) : Option Nat :=
  if '0'.toNat ≤ c.toNat ∧ c.toNat ≤ '9'.toNat then some (c.toNat - '0'.toNat) else none

/-- Digits with optional single underscores between digits, accumulating. `prev` tells whether the
previous character was a digit. -/
def digitsVal : (acc : Nat) → (prev : Bool) → Str → Option Nat
  | acc, prev, [] => if prev then some acc else none
  | acc, prev, c :: cs =>
    match digitVal c with
    | some d => digitsVal (acc * 10 + d) true cs
    | none => if c = '_' ∧ prev = true then digitsVal acc false cs else none

/-- Python's `int(s)` on a string: surrounding white space, an optional sign, decimal digits with
single underscores between them. Simplification: only ASCII white space and digits (Python also
accepts other Unicode digits and white space). `none` = ValueError. -/
def pyInt (s : Str) : Option Int :=
  match strip s with
  | '+' :: ds => (digitsVal 0 false ds).map Int.ofNat
  | '-' :: ds => (digitsVal 0 false ds).map fun n : Nat => -(n : Int)
  | ds => (digitsVal 0 false ds).map Int.ofNat

def digitChar (d : Nat) : Char := Char.ofNat ('0'.toNat + d)

/-- Decimal digits of a natural number, `str(n)`. -/
def natStr (n : Nat) : Str :=
  if n < 10 then [digitChar n] else natStr (n / 10) ++ [digitChar (n % 10)]
termination_by n
decreasing_by omega

/-- `str(i)` / `"%d" % i` of an integer. -/
def intStr (i : Int) : Str := if i < 0 then '-' :: natStr i.natAbs else natStr i.natAbs

end Verif
