import Verif.Model.SpmpFramed
import Verif.Spec.Spmp
import Verif.Spec.Framed
/-! # Vocabulary for management requests on a connection for framed packets -/
namespace Verif.Spmp

/-- What is due for a packet: the payload of a wrapper goes to the management protocol, the bytes of any other packet to the other protocol,
if there is one. -/
def due (env : Env) (wcls : Cls) (hasAlt : Bool) (v : Val) : Option Delivery :=
  match wrapped wcls v with
  | some o => some (.spmp o)
  | none => if hasAlt then some (.alt (fser env v)) else none

/-- The calls, made one after the other. -/
def Handlers.replay {σ : Type} (h : Handlers σ) (st : σ) : List Delivery → σ
  | [] => st
  | .spmp o :: l => h.replay (h.spmp st o).1 l
  | .alt b :: l => match h.alt with
    | none => h.replay st l
    | some f => h.replay (f st b).1 l

/-- None of the calls raises. -/
def Handlers.Quiet {σ : Type} (h : Handlers σ) (st : σ) : List Delivery → Prop
  | [] => True
  | .spmp o :: l => (h.spmp st o).2 = false ∧ h.Quiet (h.spmp st o).1 l
  | .alt b :: l => match h.alt with
    | none => h.Quiet st l
    | some f => (f st b).2 = false ∧ h.Quiet (f st b).1 l

/-- The payloads of the wrappers in a list of packets. -/
def payloads (wcls : Cls) (ps : List Val) : List Bytes := ps.filterMap fun v => (wrapped wcls v).bind id

/-- The packets that are not wrappers. -/
def others (wcls : Cls) (ps : List Val) : List Val := ps.filter fun v => (wrapped wcls v).isNone

/-- The pieces that are written to the connection, in order. -/
def writes : List Act → List Bytes
  | [] => []
  | .write b :: l => b :: writes l
  | _ :: l => writes l

end Verif.Spmp
