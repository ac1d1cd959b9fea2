import Verif.Model.Framed
import Verif.Spec.Codec
import Verif.Spec.Frame
/-! # Vocabulary for streams of packets in frames -/
namespace Verif

/-- A packet that can be sent in a frame to a receiver looking for packets of class `base`: an instance of `base` whose fields hold
values their types accept, without packets inside, with ASCII strings only, and that `__serialize__` accepts. -/
structure FramedSendable (env : Env) (base : Cls) (p : Val) : Prop where
  accepted : accepts env p (.packet base) = true
  flat : ∃ cls fs, p = .packet cls fs ∧ flatF fs = true
  ascii : asciiV p = true
  serializes : ∃ b, framedSerialize env 0 p = .ok b

/-- The bytes of a packet on the wire (none if it cannot be serialized). -/
def fser (env : Env) (p : Val) : Bytes :=
  match framedSerialize env 0 p with
  | .ok b => b
  | .error _ => []

/-- The packets among the events. -/
def packetsIn : List Event → List Val
  | [] => []
  | .packet v :: es => v :: packetsIn es
  | .error _ :: es => packetsIn es

/-- The magic number does not begin inside `g` when another magic number follows directly. -/
def NoMagic (g : Bytes) : Prop := ∀ i < g.length, ((g ++ MAGIC).drop i).take 4 ≠ MAGIC

end Verif
