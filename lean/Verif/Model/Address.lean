import Verif.Model.PyStr
/-! # network/common/PlaygroundAddress.py -/
namespace Verif

/-- A part of an address: `"*"` or an integer. -/
inductive APart where
  | star
  | num (i : Int)
  deriving DecidableEq, Repr

/-- `PlaygroundAddressType` (PlaygroundAddress.py:52-57): zone, network, device, index. -/
structure Addr where
  zone : APart
  network : APart
  device : APart
  index : APart
  deriving DecidableEq, Repr

/-- Exceptions. -/
inductive AErr where
  | invalid     -- InvalidPlaygroundAddress
  deriving DecidableEq, Repr

/-- `str(part)`. -/
def APart.str : APart → Str
  | .star => ['*']
  | .num i => intStr i

namespace Addr

/-- `toParts` (PlaygroundAddress.py:67-68). -/
def parts (a : Addr) : List APart := [a.zone, a.network, a.device, a.index]

/-- `toString`/`str` (PlaygroundAddress.py:57, 64-65, 73-74). -/
def str (a : Addr) : Str := joinWith '.' (a.parts.map APart.str)

/-- `PlaygroundAddress.ConvertStringPart` (PlaygroundAddress.py:101-103); `none` when it raises. -/
def convertAddress (s : Str) : Option APart := (pyInt s).map .num

/-- `PlaygroundAddressBlock.ConvertStringPart` (PlaygroundAddress.py:120-122). -/
def convertBlock (s : Str) : Option APart := if s = ['*'] then some .star else (pyInt s).map .num

/-- The converted parts, if `IsValidAddressString` holds (PlaygroundAddress.py:30-42) for a string
argument. -/
def parseParts (conv : Str → Option APart) (s : Str) : Option Addr :=
  match splitOn '.' s with
  | [a, b, c, d] =>
    match conv a, conv b, conv c, conv d with
    | some a, some b, some c, some d => some ⟨a, b, c, d⟩
    | _, _, _, _ => none
  | _ => none

/-- `PlaygroundAddress.IsValidAddressString` (PlaygroundAddress.py:16-42). -/
def isValidAddressString (s : Str) : Bool := (parseParts convertAddress s).isSome
/-- `PlaygroundAddressBlock.IsValidAddressString` (PlaygroundAddress.py:16-42). -/
def isValidBlockString (s : Str) : Bool := (parseParts convertBlock s).isSome

/-- A non-negative integer. -/
def okNum : APart → Bool
  | .star => false
  | .num i => 0 ≤ i
/-- A wild card or a non-negative integer. -/
def okBlock : APart → Bool
  | .star => true
  | .num i => 0 ≤ i

/-- `PlaygroundAddress(zone, network, device, index)` for parts as they come from `ConvertStringPart`
(PlaygroundAddress.py:105-113). -/
def mkAddress (a : Addr) : Except AErr Addr := if a.parts.all okNum then .ok a else .error .invalid

/-- `PlaygroundAddressBlock(zone, network, device, index)` (PlaygroundAddress.py:124-142). -/
def mkBlock (a : Addr) : Except AErr Addr := if a.parts.all okBlock then .ok a else .error .invalid

/-- `PlaygroundAddress.FromString` (PlaygroundAddress.py:44-50). -/
def addressFromString (s : Str) : Except AErr Addr :=
  match parseParts convertAddress s with
  | none => .error .invalid
  | some a => mkAddress a

/-- `PlaygroundAddressBlock.FromString` (PlaygroundAddress.py:44-50). -/
def blockFromString (s : Str) : Except AErr Addr :=
  match parseParts convertBlock s with
  | none => .error .invalid
  | some a => mkBlock a

/-- `a == other` for an address object (PlaygroundAddress.py:76-81). -/
def eqAddr (a b : Addr) : Bool :=
  a.zone = b.zone && a.network = b.network && a.device = b.device && a.index = b.index

/-- `a == other` for a string (PlaygroundAddress.py:82-83). -/
def eqStr (a : Addr) (s : Str) : Bool := a.str = s

/-- The parts before the first wild card (PlaygroundAddress.py:127-130). -/
def specified (a : Addr) : List APart := a.parts.takeWhile (· ≠ .star)

/-- `prefixString()` (PlaygroundAddress.py:127-134). -/
def prefixString (a : Addr) : Str := joinWith '.' (a.specified.map APart.str)

/-- The loop of `isParentBlock` (PlaygroundAddress.py:158-161). -/
def parentLoop : List APart → List APart → Bool
  | [], _ => true
  | b :: bs, x :: xs => if b ≠ .star ∧ b ≠ x then false else parentLoop bs xs
  | _ :: _, [] => false

/-- `block.isParentBlock(address)` (PlaygroundAddress.py:153-161); both have four parts. -/
def isParentBlock (block a : Addr) : Bool := parentLoop block.parts a.parts

/-- `blockParts[nextBlock] = "*"` for an index below 4 (PlaygroundAddress.py:173). -/
def setStar (a : Addr) : Nat → Addr
  | 0 => { a with zone := .star }
  | 1 => { a with network := .star }
  | 2 => { a with device := .star }
  | _ => { a with index := .star }

/-- `getParentBlock` (PlaygroundAddress.py:163-174): `none` is `None`. The constructor call cannot raise
for a valid block (its parts are those of `self` and wild cards). -/
def getParentBlock (a : Addr) : Option Addr :=
  let currentBlock := a.specified.length
  if currentBlock = 0 then none else some (a.setStar (currentBlock - 1))

/-- The objects visited by `while pAddress: ...; pAddress = pAddress.getParentBlock()`
(Switch.py:44-47), at most `fuel` of them. -/
def ancestors : Nat → Addr → List Addr
  | 0, _ => []
  | n + 1, a => a :: match a.getParentBlock with
    | none => []
    | some p => ancestors n p

/-- The parts of `spawnAddress` (PlaygroundAddress.py:144-151), the random numbers being given. -/
def spawn (a : Addr) (r0 r1 r2 r3 : Nat) : Addr :=
  let f := fun (p : APart) (r : Nat) => match p with
    | .star => APart.num r
    | p => p
  ⟨f a.zone r0, f a.network r1, f a.device r2, f a.index r3⟩

end Addr
end Verif
