import Verif.Model.PyStr
/-! # common/CustomConstant.py and network/common/PortKey.py: constants and keys

Not modelled: the other attributes of a constant; values of other types than those named. Floats are given by what Python does with them (`Floats`). -/
namespace Verif.Constant

/-- What is used of Python's floats. -/
structure Floats where
  F : Type
  toInt : F → Option Int      -- int(x); none: it raises (nan, infinity)
  ofInt : Int → Option F      -- float(i); none: it raises
  truth : F → Bool            -- bool(x)
  text : F → Str              -- str(x)

/-- A constant (CustomConstant.py:8-14). -/
structure Const (fl : Floats) where
  str : Option Str
  int : Option Int
  float : Option fl.F
  bool : Option Bool

variable {fl : Floats}

/-- `int(c)` (CustomConstant.py:16-21); `none`: it raises. -/
def toInt (c : Const fl) : Option Int := match c.int with
  | none => (match c.float with
    | none => none
    | some x => fl.toInt x)
  | some i => some i

/-- `float(c)` (CustomConstant.py:23-28). -/
def toFloat (c : Const fl) : Option fl.F := match c.float with
  | none => (match c.int with
    | none => none
    | some i => fl.ofInt i)
  | some x => some x

/-- `bool(c)`, so also `if c` (CustomConstant.py:30-37). -/
def toBool (c : Const fl) : Option Bool := match c.bool with
  | none => (match c.int with
    | none => (match c.float with
      | none => none
      | some x => some (fl.truth x))
    | some i => some (decide (i ≠ 0)))
  | some b => some b

/-- The parts of the text (CustomConstant.py:41-44). -/
def parts (c : Const fl) : List Str :=
  (match c.int with
    | some i => if i = 0 then [] else [intStr i]
    | none => []) ++
  (match c.float with
    | some x => if fl.truth x then [fl.text x] else []
    | none => []) ++
  (match c.bool with
    | some true => ["True".toList]
    | _ => [])

/-- `str(c)` (CustomConstant.py:39-46). -/
def toStr (c : Const fl) : Str := match c.str with
  | none => joinWith '/' (parts c)
  | some s => s

/-- A part of a key: an address, a port, or None. -/
inductive Part where
  | str (s : Str) | int (i : Int) | none
  deriving DecidableEq

/-- `PortKey` (PortKey.py:2-8). -/
structure PKey where
  source : Part
  sourcePort : Part
  destination : Part
  destinationPort : Part
  deriving DecidableEq

/-- What a key may be compared with: a key, something that can be iterated over, anything else. -/
inductive Other where
  | key (k : PKey)
  | items (l : List Part)
  | single
  deriving DecidableEq

/-- `inverseKey` (PortKey.py:10-11). -/
def PKey.inverse (k : PKey) : PKey := ⟨k.destination, k.destinationPort, k.source, k.sourcePort⟩

/-- `sourceOnlyKey` (PortKey.py:13-14). -/
def PKey.sourceOnly (k : PKey) : PKey := ⟨k.source, k.sourcePort, .none, .none⟩

/-- `destinationOnlyKey` (PortKey.py:16-17). -/
def PKey.destinationOnly (k : PKey) : PKey := ⟨.none, .none, k.destination, k.destinationPort⟩

/-- The comparison of the parts (PortKey.py:27-28). -/
def PKey.same (k : PKey) (a b c d : Part) : Bool := k.source == a && k.sourcePort == b && k.destination == c && k.destinationPort == d

/-- `__eq__` (PortKey.py:19-28); `none`: it raises a ValueError. -/
def PKey.eq (k : PKey) : Other → Option Bool
  | .key m => some (k.same m.source m.sourcePort m.destination m.destinationPort)
  | .items [a, b, c, d] => some (k.same a b c d)
  | .items _ => none
  | .single => none

/-- `__hash__` (PortKey.py:30-31), with the hash of tuples. -/
def PKey.hash (tuple : List Part → Int) (k : PKey) : Int := tuple [k.source, k.sourcePort, k.destination, k.destinationPort]

end Verif.Constant
