import Verif.Model.Vnic
import Verif.Model.LinkNet
import Verif.Model.Deserializer
/-! # The bytes of a control connection of the VNIC (network/protocols/vsockets.py:140-220)

The packets of vsocket_packets.py that a client sends, as values of the codec, and `VNICSocketControlProtocol.data_received`. Control packets are
written without a frame, a `WirePacket` in one (switching_packets.py: `FramedPacketType`); the receiver's Deserializer is that of `PacketType`, which
knows no frames. Not modelled here: the `VNICPromiscuousLevelPacket` (Model/Promiscuous); packets with required fields unset, which `__serialize__`
refuses to write. -/
namespace Verif.Control
open Verif.Vnic

/-- `VNICSocketOpenPacket` (vsocket_packets.py:15-37). -/
def openDef : PDef := ⟨"vsockets.VNICSocketOpenPacket".toList, "1.0".toList,
  .cons "ConnectionId" none false (Link.uint 32) (.cons "callbackAddress" none false .str (.cons "callbackPort" none false (Link.uint 16)
    (.cons "connectData" none true (.struct (.cons "destination" none false .str (.cons "destinationPort" none false (Link.uint 16) .nil)))
    (.cons "listenData" none true (.struct (.cons "sourcePort" none false (Link.uint 16) .nil)) .nil))))⟩

/-- `VNICSocketClosePacket` (vsocket_packets.py:45-49). -/
def closeDef : PDef := ⟨"vsockets.VNICSocketClosePacket".toList, "1.0".toList, .cons "ConnectionId" none false (Link.uint 32) .nil⟩

/-- `VNICStartDumpPacket` (vsocket_packets.py:76-78). -/
def startDef : PDef := ⟨"vsockets.VNICStartDumpPacket".toList, "1.0".toList, .nil⟩

/-- `VNICStopDumpPacket` (vsocket_packets.py:80-82). -/
def stopDef : PDef := ⟨"vsockets.VNICStopDumpPacket".toList, "1.0".toList, .nil⟩

/-- The classes: `PacketType`, the packets above, `WirePacket`. -/
structure Classes where
  env : Env
  packetType : Cls
  openC : Cls
  closeC : Cls
  startC : Cls
  stopC : Cls
  wireC : Cls

/-- What a client can send. -/
inductive Cmd where
  | openSocket (cid : Nat) (callbackAddress : Str) (callbackPort : Nat) (r : Req)
  | closeSocket (cid : Nat)
  | startDump
  | stopDump
  | raw (k : Key) (d : Bytes)
  deriving DecidableEq

/-- The optional fields of an open packet; `other` is modelled with none of the two. -/
def reqVals : Req → FVals
  | .connect dst dport => .set (.struct (.set (.str dst) (.set (.num dport) .nil))) (.unset .nil)
  | .listen port => .unset (.set (.struct (.set (.num port) .nil)) .nil)
  | .other => .unset (.unset .nil)

/-- The packet objects. -/
def Cmd.val (c : Classes) : Cmd → Val
  | .openSocket i a p r => .packet c.openC (.set (.num i) (.set (.str a) (.set (.num p) (reqVals r))))
  | .closeSocket i => .packet c.closeC (.set (.num i) .nil)
  | .startDump => .packet c.startC .nil
  | .stopDump => .packet c.stopC .nil
  | .raw k d => .packet c.wireC (.set (.str k.source) (.set (.num k.sourcePort) (.set (.str k.destination) (.set (.num k.destinationPort) (.unset (.set (.buf d) .nil))))))

/-- The class has the framing encoder. -/
def Cmd.framed : Cmd → Bool
  | .raw _ _ => true
  | _ => false

/-- `isConnectType`, `isListenType` (vsocket_packets.py:39-43). -/
def readReq : FVals → Option Req
  | .set (.struct (.set (.str dst) (.set (.num dport) .nil))) (.unset .nil) => some (.connect dst dport.toNat)
  | .unset (.set (.struct (.set (.num p) .nil)) .nil) => some (.listen p.toNat)
  | .unset (.unset .nil) => some .other
  | .set _ (.set _ .nil) => some .other
  | _ => none

/-- The `isinstance` chain of `data_received` (vsockets.py:183-219); `none`: a packet that is only logged. -/
def ofVal (c : Classes) : Val → Option Cmd
  | .packet k fs =>
    if k = c.openC then (match fs with
      | .set (.num i) (.set (.str a) (.set (.num p) r)) => (readReq r).map fun q => .openSocket i.toNat a p.toNat q
      | _ => none)
    else if k = c.closeC then (match fs with
      | .set (.num i) .nil => some (.closeSocket i.toNat)
      | _ => none)
    else if k = c.startC then some .startDump
    else if k = c.stopC then some .stopDump
    else if k = c.wireC then (match fs with
      | .set (.str s) (.set (.num sp) (.set (.str d) (.set (.num dp) (.unset (.set (.buf b) .nil))))) => some (.raw ⟨s, sp.toNat, d, dp.toNat⟩ b)
      | .set (.str s) (.set (.num sp) (.set (.str d) (.set (.num dp) (.set _ (.set (.buf b) .nil))))) => some (.raw ⟨s, sp.toNat, d, dp.toNat⟩ b)
      | _ => none)
    else none
  | _ => none

/-- The handler of a packet on control connection `p` (vsockets.py:183-202). The addresses of the callback play no role in Model/Vnic. -/
def Cmd.ev (p : Nat) : Cmd → Ev
  | .openSocket i _ _ r => .openSocket p i r
  | .closeSocket i => .closeSocket p i
  | .startDump => .startDump p
  | .stopDump => .stopDump p
  | .raw k d => .rawWire p k d

/-- The handler raises: the response to an open packet of neither kind cannot be serialized (vsockets.py:263-265). -/
def raises (s : St) (p : Nat) : Cmd → Bool
  | .openSocket i _ _ .other => decide (p ∈ s.up) && !(s.ids p).has i
  | _ => false

/-- The loop of `data_received` (vsockets.py:182-219): when a handler raises, the packets behind stay in the Deserializer. -/
def loop (c : Classes) (depth p : Nat) : Nat → DState → St → DState × St
  | 0, d, s => (d, s)
  | n + 1, d, s => match d.iter c.env depth c.packetType with
    | (none, d') => (d', s)
    | (some (.error _), d') => loop c depth p n d' s
    | (some (.packet v), d') => match ofVal c v with
      | none => loop c depth p n d' s
      | some cmd => if raises s p cmd then (d', step s (cmd.ev p)) else loop c depth p n d' (step s (cmd.ev p))

/-- `data_received` (vsockets.py:180-219). -/
def data (c : Classes) (depth p : Nat) (d : DState) (s : St) (b : Bytes) : DState × St :=
  loop c depth p ((d.buf ++ b).length + 1) (d.update b) s

/-- What happens at the VNIC: bytes on the control connection, or anything else. -/
inductive In where
  | bytes (b : Bytes)
  | other (e : Ev)

/-- A history. -/
def run (c : Classes) (depth p : Nat) : DState → St → List In → DState × St
  | d, s, [] => (d, s)
  | d, s, .bytes b :: h => match data c depth p d s b with
    | (d', s') => run c depth p d' s' h
  | d, s, .other e :: h => run c depth p d (step s e) h

end Verif.Control
