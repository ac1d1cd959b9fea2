import Verif.Model.Switch
import Verif.Spec.Address
/-! # Specification of the switch -/
namespace Verif

/-- A part as the switch's check accepts it: `*` or an integer literal (of either sign). -/
def PartText (s : Str) : Prop := s = ['*'] ∨ ((∃ i, IntLit s i) ∧ '.' ∉ s)

/-- A string with four such parts. -/
def BlockText (s : Str) : Prop := ∃ z n d i, s = dotted z n d i ∧ PartText z ∧ PartText n ∧ PartText d ∧ PartText i

/-- In the history `h` the link's most recent valid registration is `a`, and it was not unregistered since. -/
def RegisteredAs (h : List Switch.Op) (l : Nat) (a : Str) : Prop :=
  BlockText a ∧ ∃ before after, h = before ++ .register a l :: after ∧
    (.unregister l) ∉ after ∧ ∀ a', BlockText a' → (.register a' l) ∉ after

/-- The decimal string of a number. -/
abbrev dec (n : Nat) : Str := natStr n

/-- The strings of an address and of the blocks that enclose it. -/
def enclosing (z n d i : Nat) : List Str :=
  [dotted (dec z) (dec n) (dec d) (dec i), dotted (dec z) (dec n) (dec d) ['*'],
   dotted (dec z) (dec n) ['*'] ['*'], dotted (dec z) ['*'] ['*'] ['*'], dotted ['*'] ['*'] ['*'] ['*']]

end Verif

namespace Verif.SwNet
open Switch

/-- The registrations and unregistrations that a history of events asks for. -/
def opsOf : List Ev → List Op
  | [] => []
  | .connectionMade _ :: h => opsOf h
  | .connectionLost l :: h => .unregister l :: opsOf h
  | .data l ps :: h => (ps.filterMap fun p => match p with
      | .announce a => some (.register a l)
      | _ => none) ++ opsOf h

/-- The link has been made and not lost since. -/
def LinkUp (h : List Ev) (l : Nat) : Prop := ∃ before after, h = before ++ .connectionMade l :: after ∧
  ∀ k, .connectionLost k ∈ after → k ≠ l

/-- asyncio gives data only to connected protocols. -/
def DataWhenUp (h : List Ev) : Prop := ∀ before l ps after, h = before ++ .data l ps :: after → LinkUp before l

/-- No packet has a destination that looks like an address but is none. -/
def Calm (h : List Ev) : Prop := ∀ l ps d x, .data l ps ∈ h → .wire d x ∈ ps →
  (∃ a, Addr.blockFromString d = .ok a) ∨ ¬ BlockText d

end Verif.SwNet
