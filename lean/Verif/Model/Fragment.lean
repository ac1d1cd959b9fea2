import Verif.Model.StreamIO
import Verif.Model.Dict
import Verif.Model.PyStr
/-! # The link side of network/protocols/switching.py: `PlaygroundSwitchTxProtocol`

Packets are values (the framed codec is modelled elsewhere): a chunk of received data is the list of wire
packets that become complete with it. All fields of a received packet are taken to be set. -/
namespace Verif.Frag

/-- `MAX_MSG_SIZE` (switching.py:58). -/
def MAX_MSG_SIZE : Nat := 2 ^ 16

/-- `source`, `sourcePort`, `destination`, `destinationPort` of a `WirePacket` (switching_packets.py:33-38). -/
structure Header where
  source : Str
  sourcePort : Nat
  destination : Str
  destinationPort : Nat
  deriving DecidableEq

/-- `WirePacket.FragmentData` (switching_packets.py:26-31). -/
structure Info where
  fragId : Nat
  totalSize : Nat
  offset : Nat
  deriving DecidableEq

/-- `WirePacket` (switching_packets.py:22-45); `isFragment()` is `frag.isSome`. -/
structure Wire where
  header : Header
  frag : Option Info
  data : Bytes
  deriving DecidableEq

/-- The loop of `write` (switching.py:126-135): offsets and data of the fragments. `m` is the maximum size; the fuel is the number of
bytes, which is enough (every turn takes at least one byte). -/
def cut (m : Nat) : Nat → Nat → Bytes → List (Nat × Bytes)
  | 0, _, _ => []
  | f + 1, offset, data =>
    if data = [] then [] else (offset, data.take m) :: cut m f (offset + (data.take m).length) (data.drop m)

/-- `write` (switching.py:110-135): the packets transmitted; `fragId` is the random number drawn. -/
def write (h : Header) (fragId : Nat) (data : Bytes) : List Wire :=
  if data.length ≤ MAX_MSG_SIZE then [⟨h, none, data⟩]
  else (cut MAX_MSG_SIZE data.length 0 data).map fun c => ⟨h, some ⟨fragId, data.length, c.1⟩, c.2⟩

/-- `FragStorage` (switching.py:60-69). -/
structure Storage where
  totalSize : Nat
  received : Nat
  stream : Bio
  offsets : List Nat
  deriving DecidableEq

/-- `FragStorage(fragId, totalSize, ...)` (switching.py:61-69). -/
def Storage.new (totalSize : Nat) : Storage := ⟨totalSize, 0, ⟨[], 0⟩, []⟩

/-- `insert` (switching.py:75-81). -/
def Storage.insert (s : Storage) (offset : Nat) (d : Bytes) : Storage :=
  if offset ∈ s.offsets then s
  else
    { s with
      offsets := offset :: s.offsets
      stream := ({ s.stream with pos := offset } : Bio).write d
      received := s.received + d.length }

/-- `isComplete` (switching.py:83-84). -/
def Storage.isComplete (s : Storage) : Bool := s.received = s.totalSize

/-- `_fragStorage` (switching.py:97). -/
abbrev State := Dict Nat Storage

/-- The body of the loop of `_data_received` up to line 156 for one packet: the storage afterwards, and what is assigned to
`demuxData`, if anything (switching.py:147-155). `cleanup()` (lines 89-91) expires the timer, which removes
the storage from the dictionary. -/
def absorb (st : State) (w : Wire) : State × Option Bytes :=
  match w.frag with
  | none => (st, some w.data)
  | some i =>
    let s := ((st.get i.fragId).getD (.new i.totalSize)).insert i.offset w.data
    if s.isComplete then (st.del i.fragId, some s.stream.buf) else (st.set i.fragId s, none)

/-- A call of `demux`: the packet whose header is passed on, and the data. -/
abbrev Delivery := Wire × Bytes

/-- The variable `demuxData` after a packet (switching.py:153, 155): it keeps its value when nothing is assigned. -/
def keep (old : Option Bytes) : Option Bytes → Option Bytes
  | none => old
  | some d => some d

/-- `if demuxData != None: self._demuxer.demux(...)` (switching.py:157-160). -/
def deliver (w : Wire) : Option Bytes → List Delivery
  | none => []
  | some d => [(w, d)]

/-- The loop of `_data_received` (switching.py:146-160). -/
def loop (st : State) (demuxData : Option Bytes) : List Wire → State × List Delivery
  | [] => (st, [])
  | w :: ws =>
    let r := absorb st w
    let v := keep demuxData r.2
    let r' := loop r.1 v ws
    (r'.1, deliver w v ++ r'.2)

/-- What can happen: a chunk of data arrives, or the five minute timer of a storage fires
(switching.py:68, 71-73). -/
inductive Ev where
  | data (ws : List Wire)
  | timeout (fragId : Nat)

/-- One event (`demuxData` starts as `None`, switching.py:145). -/
def step (st : State) : Ev → State × List Delivery
  | .data ws => loop st none ws
  | .timeout i => (if st.has i then st.del i else st, [])

def exec (st : State) : List Ev → State × List Delivery
  | [] => (st, [])
  | e :: h => ((exec (step st e).1 h).1, (step st e).2 ++ (exec (step st e).1 h).2)

end Verif.Frag
