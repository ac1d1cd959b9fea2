import Verif.Model.Deserializer
import Verif.Model.Framing
/-!
# network/packet/encoders/PlaygroundFramingPacketEncoder.py: packets in frames

The encoder of `FramedPacketType` (switching_packets.py:8-12). Packets with fields that are packets themselves are not modelled (no class in
the repository combines the two): decoding such a field fails here at once, as it does in Python once there are 12 bytes (the inner framing
adapter calls `peek` on an `EncoderStreamAdapter`, which has none).
-/
namespace Verif

/-! ## Writing -/

/-- What the standard encoder does with its stream once the bytes `b` of the packet are known
(PlaygroundStandardPacketEncoder.py:349-371): the header is first written with zeros for the two lengths, then come the fields; then it
seeks back, writes the lengths and seeks to the end. Here the first part is one `write`. -/
def writePacket (f : Frm) (b : Bytes) : Except Err Unit × Frm :=
  let start := f.tell
  match f.write (List.replicate 16 0 ++ b.drop 16) with
  | (.error e, f) => (.error e, f)
  | (.ok _, f) =>
    let fin := f.tell
    match (f.seekSet start).write (b.take 8) with
    | (.error e, f) => (.error e, f)
    | (.ok _, f) =>
      match f.write ((b.drop 8).take 8) with
      | (.error e, f) => (.error e, f)
      | (.ok _, f) => (.ok (), f.seekSet fin)

/-- `encode` (PlaygroundFramingPacketEncoder.py:10-16) into a new `io.BytesIO` (PacketType.py:234-240): the adapter, the packet, the
frame around it. -/
def framedBytes (b : Bytes) : Except Err Bytes :=
  match Frm.init ⟨[], 0⟩ with
  | (.error e, _) => .error e
  | (.ok _, f) =>
    match writePacket f b with
    | (.error e, _) => .error e
    | (.ok _, f) =>
      match f.writeFrame with
      | (.error e, _) => .error e
      | (.ok _, f) => .ok f.s.buf

/-- `packet.__serialize__()` (PacketType.py:234-240) for a packet class with the framing encoder. -/
def framedSerialize (env : Env) (base : Cls) (p : Val) : Except Err Bytes :=
  match serialize env base p with
  | .error e => .error e
  | .ok b => framedBytes b

/-! ## Reading -/

namespace Frm

/-- `EncoderStreamAdapter.available` (AbstractStreamAdapter.py:26-35) on top of the framing adapter: the number, and the state, because
seeking to the end and back may move the position. -/
def availableE (f : Frm) : Int × Frm :=
  let cur := f.tell
  let f := f.seekEnd
  let fin := f.tell
  ((fin : Int) - cur, f.seekSet cur)

/-- The part of `unpackIterator` behind the check of the limit (PlaygroundStandardPacketEncoder.py:51-57). -/
inductive Got where
  | wait (f : Frm)
  | bytes (b : Bytes) (f : Frm)
  | error (e : Err) (f : Frm)

def unpack (f : Frm) (n : Nat) : Got :=
  match f.availableE with
  | (a, f) =>
    if a < n then .wait f
    else match f.read n with
      | (.error e, f) => .error e f
      | (.ok b, f) => if b.length = n then .bytes b f else .error .encoding f

/-- Where the search for a packet length in a frame stops. -/
inductive Scan where
  | found (len start : Nat) (f : Frm)
  | wait1 (start : Nat) (f : Frm)
  | wait2 (start q1 : Nat) (f : Frm)
  | error (e : Err) (f : Frm)

/-- One round of the loop that looks for a packet length (PlaygroundStandardPacketEncoder.py:378-395) from the second number on; `again` is
the next round. -/
def second (f : Frm) (start q1 : Nat) (again : Frm → Scan) : Scan :=
  match f.unpack 8 with
  | .wait f => .wait2 start q1 f
  | .error e f => .error e f
  | .bytes b f => if q1 = compl64 (beDec b) then .found q1 start f else again (f.seekSet (start + 1))

/-- The loop (PlaygroundStandardPacketEncoder.py:378-395); the fuel bounds the number of positions tried. -/
def scanLoop : Nat → Frm → Nat → Scan
  | 0, f, start => .wait1 start f
  | fuel + 1, f, start =>
    match f.unpack 8 with
    | .wait f => .wait1 start f
    | .error e f => .error e f
    | .bytes b f => f.second start (beDec b) fun f => scanLoop fuel f (start + 1)

/-- The search, resumed where it was suspended. -/
def scan (f : Frm) (start : Nat) : Option Nat → Scan
  | none => scanLoop (f.s.buf.length + 1) f start
  | some q1 => f.second start q1 fun f => scanLoop (f.s.buf.length + 1) f (start + 1)

end Frm

/-- `next(generator)` of a decoder whose stream is a framing adapter. -/
def Dec.runF {α} : Dec α → Frm → Out α × Frm
  | .ret a, f => (.done a, f)
  | .fail e, f => (.error e, f)
  | .read n k, f =>
    match f.unpack n with
    | .wait f => (.wait (.read n k), f)
    | .error e f => (.error e, f)
    | .bytes b f => (k b).runF f
  | .tell k, f => (k f.tell).runF f
  | .skip n k, f =>
    match f.read n with
    | (.error e, f) => (.error e, f)
    | (.ok _, f) => k.runF f
  | .sync start q k, f =>
    match f.scan start q with
    | .found len start' f => (k len start').runF f
    | .wait1 start' f => (.wait (.sync start' none k), f)
    | .wait2 start' q1 f => (.wait (.sync start' (some q1) k), f)
    | .error e f => (.error e, f)

/-- State of the Deserializer (PacketType.py:177-184) of a framed packet class. `run = none`: the generator has not been started, and of
`frm` only the stream counts. -/
structure FState where
  frm : Frm
  run : Option (Dec (Val × Nat))

/-- Decoding one packet in a frame (`super().decodeIterator`, PlaygroundFramingPacketEncoder.py:22). Depth 1: packets inside packets fail. -/
def framedGen (env : Env) (cls : Cls) : Dec (Val × Nat) := decPacket env 1 cls 0

namespace FState

/-- A new Deserializer. -/
def init : FState := ⟨⟨⟨[], 0⟩, 0, false, false, none⟩, none⟩

/-- `update(buffer)` (PacketType.py:186-187, HighPerformanceStreamIO.py:19-23). -/
def update (st : FState) (b : Bytes) : FState :=
  { st with frm := { st.frm with s := { st.frm.s with buf := st.frm.s.buf ++ b } } }

/-- `stream.closeFrame()` (PlaygroundFramingPacketEncoder.py:23-24) when the packet is complete. -/
def closed {α} : Out α × Frm → Out α × Frm
  | (.done a, f) =>
    match f.closeFrame with
    | (.error e, f) => (.error e, f)
    | (.ok _, f) => (.done a, f)
  | r => r

/-- `next(self._iterator)`: the generator of `DeserializeStream` (PacketType.py:160-172) runs `decodeIterator`
(PlaygroundFramingPacketEncoder.py:18-24), which makes the adapter when it is started. -/
def genNext (env : Env) (cls : Cls) (st : FState) : Out (Val × Nat) × Frm :=
  match st.run with
  | none =>
    match Frm.init st.frm.s with
    | (.error e, f) => (.error e, f)
    | (.ok _, f) => closed ((framedGen env cls).runF f)
  | some d => closed (d.runF st.frm)

/-- One iteration of the `while` loop of `nextPackets` (PacketType.py:194-221); `none` = exhausted. -/
def iter (env : Env) (cls : Cls) (st : FState) : Option Event × FState :=
  let pfx := window st.frm.s.buf st.frm.s.pos 8
  match st.genNext env cls with
  | (.wait d, f) => (none, ⟨f, some d⟩)
  | (.done (v, _), f) => (some (.packet v), ⟨{ f with s := ⟨f.s.buf.drop f.s.pos, 0⟩ }, none⟩)
  | (.error e, f) =>
    let p' := if window f.s.buf f.s.pos 8 = pfx then Nat.min f.s.buf.length (f.s.pos + 1) else f.s.pos
    (some (.error e), ⟨f.goto p', none⟩)

/-- `nextPackets()` run to exhaustion; the fuel bounds the number of iterations. The last component tells whether the loop came to its
end. -/
def nextLoop (env : Env) (cls : Cls) : Nat → FState → List Event × FState × Bool
  | 0, st => ([], st, false)
  | n + 1, st =>
    match st.iter env cls with
    | (none, st') => ([], st', true)
    | (some ev, st') =>
      let r := nextLoop env cls n st'
      (ev :: r.1, r.2)

def next (env : Env) (cls : Cls) (st : FState) : List Event × FState × Bool :=
  nextLoop env cls (st.frm.s.buf.length + 1) st

/-- Run a history of calls; all events in order, the final state, and whether every call of `nextPackets` came to its end. -/
def runOps (env : Env) (cls : Cls) : FState → List DOp → List Event × FState × Bool
  | st, [] => ([], st, true)
  | st, .update b :: ops => runOps env cls (st.update b) ops
  | st, .next :: ops =>
    let r := st.next env cls
    let r' := runOps env cls r.2.1 ops
    (r.1 ++ r'.1, r'.2.1, r.2.2 && r'.2.2)

end FState
end Verif
