import Verif.Model.Extra
import Verif.Spec.Apps
/-! # Vocabulary for what transports say about a connection -/
namespace Verif.Extra

/-- The names that a `StackingTransport` passes on. -/
def names : List Str := ["sockname".toList, "peername".toList, "spawnport".toList]

/-- The event may change dictionary `d`: somebody writes into it, or gives it to a `StackingTransport`. -/
def Touches {V : Type} (d : Nat) : Ev V → Prop
  | .put d' _ _ => d' = d
  | .stack _ extra => extra = some d
  | _ => False

/-- The states of the transports and dictionaries of a process. -/
def Reached {V : Type} (s : St V) : Prop := ∃ h, s = St.exec .init h

/-- The application on callback protocol `m` sees `own` as its own address and `other` as the address of the other side, whatever default it gives, through any
number of layers and whatever other transports its process has. -/
def Sees (side : Host.Side) (m : Nat) (own other : Str × Nat) : Prop :=
  ∀ (s : St Name) (t layers : Nat) (dflt : Option Name), Reached s → t < s.nTr →
    appAsk side m s t layers "sockname".toList dflt = some (.addr own.1 own.2) ∧ appAsk side m s t layers "peername".toList dflt = some (.addr other.1 other.2)

end Verif.Extra
