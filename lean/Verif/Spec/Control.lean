import Verif.Spec.Framed
import Verif.Spec.LinkNet
import Verif.Model.Control
/-! # Specification vocabulary for C93 -/
namespace Verif

/-- The last byte of the checksum in a frame around `n` bytes is the complement of the last byte of `n`. -/
def Slips (n : Nat) : Prop := adler32 (MAGIC ++ beEnc 4 n) % 256 + n % 256 = 255

instance (n : Nat) : Decidable (Slips n) := inferInstanceAs (Decidable (_ = _))

namespace Control
open Verif.Vnic

/-- The definitions belong to the classes. -/
structure Classes.Ok (c : Classes) : Prop where
  registered : c.env.Registered
  openIs : c.env.classDef c.openC = some openDef
  closeIs : c.env.classDef c.closeC = some closeDef
  startIs : c.env.classDef c.startC = some startDef
  stopIs : c.env.classDef c.stopC = some stopDef
  wireIs : c.env.classDef c.wireC = some Link.wireDef
  subs : ∀ k, k = c.openC ∨ k = c.closeC ∨ k = c.startC ∨ k = c.stopC ∨ k = c.wireC → c.env.isSub k c.packetType = true
  differ : [c.openC, c.closeC, c.startC, c.stopC, c.wireC].Nodup

/-- What fits into the packets: ASCII strings of less than 2^16 characters, numbers within the range of their fields, less than 2^31 - 2^20 bytes of data; and an
open packet asks for something. -/
def Cmd.Fits : Cmd → Prop
  | .openSocket i a p r => i < 2 ^ 32 ∧ Link.Text a ∧ p < 2 ^ 16 ∧ match r with
    | .connect dst dport => Link.Text dst ∧ dport < 2 ^ 16
    | .listen q => q < 2 ^ 16
    | .other => False
  | .closeSocket i => i < 2 ^ 32
  | .raw k d => Link.Text k.source ∧ k.sourcePort < 2 ^ 16 ∧ Link.Text k.destination ∧ k.destinationPort < 2 ^ 16 ∧ d.length < 2 ^ 31 - 2 ^ 20
  | _ => True

/-- The bytes that the client writes. -/
def Cmd.bytes (c : Classes) (m : Cmd) : Bytes := if m.framed then fser c.env (m.val c) else ser c.env (m.val c)

/-- The sizes are such that the receiver stays in step: no raw packet whose size makes a frame slip, and directly behind a raw packet no command of a size of
175 modulo 256. -/
def Steady (c : Classes) : Bool → List Cmd → Prop
  | _, [] => True
  | after, m :: l =>
    (if m.framed then ¬ Slips (ser c.env (m.val c)).length else after = true → (ser c.env (m.val c)).length % 256 ≠ 175) ∧ Steady c m.framed l

/-- What a command on control connection `p` asks for. -/
def Cmd.means (p : Nat) : Cmd → Ev
  | .openSocket i _ _ r => .openSocket p i r
  | .closeSocket i => .closeSocket p i
  | .startDump => .startDump p
  | .stopDump => .stopDump p
  | .raw k d => .rawWire p k d

/-- The commands among what a Deserializer gives. -/
def commandsIn (c : Classes) : List Event → List Cmd
  | [] => []
  | .packet v :: l => (ofVal c v).toList ++ commandsIn c l
  | .error _ :: l => commandsIn c l

/-- The chunks that arrive on the connection. -/
def chunksOf : List In → List Bytes
  | [] => []
  | .bytes b :: h => b :: chunksOf h
  | .other _ :: h => chunksOf h

/-- The other events. -/
def othersOf : List In → List Ev
  | [] => []
  | .bytes _ :: h => othersOf h
  | .other e :: h => e :: othersOf h

end Control
end Verif
