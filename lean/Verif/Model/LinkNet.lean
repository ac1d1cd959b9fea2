import Verif.Model.Framed
import Verif.Model.Switch
import Verif.Model.Fragment
/-! # A switch and its links on byte streams (network/protocols/switching.py)

The packets of switching_packets.py as values of the codec, the two protocols of switching.py with their Deserializers, and the two byte
streams of every connection: what was written and has not arrived yet. A connection `l` is one pair of protocol instances. Not modelled here: the
demuxer behind the link side (it is taken not to raise; its calls are recorded), and the timers that give the events `timeout`. -/
namespace Verif.Link

/-! ## Packets (switching_packets.py) -/

/-- `AnnounceLinkPacket` (switching_packets.py:14-20). -/
def announceDef : PDef := ⟨"switching.AnnounceLinkPacket".toList, "1.0".toList, .cons "address" none false .str .nil⟩

/-- UINT16, UINT32 and UINT64 (fieldtypes/__init__.py). -/
def uint (bits : Nat) : FType := .num false { bits := some bits }

/-- `WirePacket.FragmentData` (switching_packets.py:26-31). -/
def fragDecls : FDecls :=
  .cons "fragId" none false (uint 32) (.cons "totalSize" none false (uint 64) (.cons "offset" none false (uint 64) .nil))

/-- `WirePacket` (switching_packets.py:22-42). -/
def wireDef : PDef := ⟨"switching.WirePacket".toList, "1.0".toList,
  .cons "source" none false .str (.cons "sourcePort" none false (uint 16) (.cons "destination" none false .str
    (.cons "destinationPort" none false (uint 16) (.cons "fragData" none true (.struct fragDecls) (.cons "data" none false .buf .nil)))))⟩

/-- The classes: `FramedPacketType`, `WirePacket`, `AnnounceLinkPacket`. -/
structure Classes where
  env : Env
  framed : Cls
  wire : Cls
  announce : Cls

/-- The packets on a link. -/
inductive Pkt where
  | announce (address : Str)
  | wire (w : Frag.Wire)
  deriving DecidableEq

/-- `fragData` (switching.py:121-128). -/
def fragVals : Option Frag.Info → FVals → FVals
  | none, r => .unset r
  | some i, r => .set (.struct (.set (.num i.fragId) (.set (.num i.totalSize) (.set (.num i.offset) .nil)))) r

/-- The packet objects (switching.py:107, 111-129). -/
def Pkt.val (c : Classes) : Pkt → Val
  | .announce a => .packet c.announce (.set (.str a) .nil)
  | .wire w => .packet c.wire (.set (.str w.header.source) (.set (.num w.header.sourcePort) (.set (.str w.header.destination)
      (.set (.num w.header.destinationPort) (fragVals w.frag (.set (.buf w.data) .nil))))))

/-- `fragData` and `data` of a received packet (switching.py:147-155). -/
def readRest : FVals → Option (Option Frag.Info × Bytes)
  | .unset (.set (.buf d) .nil) => some (none, d)
  | .set (.struct (.set (.num i) (.set (.num t) (.set (.num o) .nil)))) (.set (.buf d) .nil) =>
    some (some ⟨i.toNat, t.toNat, o.toNat⟩, d)
  | _ => none

/-- `isinstance` and the attributes of a received packet (switching.py:42-46, 147-160). There are no subclasses of the two classes. A packet with
an unset field (which `__serialize__` refuses to write) is taken as another packet. -/
def ofVal (c : Classes) : Val → Option Pkt
  | .packet k fs =>
    if k = c.announce then (match fs with
      | .set (.str a) .nil => some (.announce a)
      | _ => none)
    else if k = c.wire then (match fs with
      | .set (.str s) (.set (.num sp) (.set (.str d) (.set (.num dp) r))) =>
        (readRest r).map fun x => .wire ⟨⟨s, sp.toNat, d, dp.toNat⟩, x.1, x.2⟩
      | _ => none)
    else none
  | _ => none

/-! ## The link side: `PlaygroundSwitchTxProtocol` -/

/-- `_deserializer`, `_fragStorage` (switching.py:94-97), and the calls of `demux` so far. -/
structure Tx where
  des : FState
  store : Frag.State
  got : List Frag.Delivery

def Tx.init : Tx := ⟨.init, [], []⟩

/-- The loop of `_data_received` (switching.py:145-160); `v` is `demuxData`. Deserialization errors are not yielded (PacketType.py:209-219). -/
def Tx.loop (c : Classes) : Nat → Tx → Option Bytes → Tx
  | 0, t, _ => t
  | n + 1, t, v => match t.des.iter c.env c.wire with
    | (none, d) => { t with des := d }
    | (some (.error _), d) => Tx.loop c n { t with des := d } v
    | (some (.packet p), d) => match ofVal c p with
      | some (.wire w) =>
        Tx.loop c n ⟨d, (Frag.absorb t.store w).1, t.got ++ Frag.deliver w (Frag.keep v (Frag.absorb t.store w).2)⟩
          (Frag.keep v (Frag.absorb t.store w).2)
      | _ => { t with des := d }

/-- `data_received` (switching.py:137-145). -/
def Tx.data (c : Classes) (t : Tx) (b : Bytes) : Tx :=
  Tx.loop c ((t.des.update b).frm.s.buf.length + 1) { t with des := t.des.update b } none

/-! ## The network -/

/-- A switch and its connections. `swUp`, `hostUp`: the connections whose protocol at the switch, at the link side, has a transport;
`rx`: the Deserializers at the switch; `toSwitch`, `toHost`: the bytes on their way. -/
structure Net where
  switch : Switch
  swUp : List Nat
  hostUp : List Nat
  rx : Nat → FState
  tx : Nat → Tx
  toSwitch : Nat → Bytes
  toHost : Nat → Bytes

def Net.init : Net := ⟨.new, [], [], fun _ => .init, fun _ => .init, fun _ => [], fun _ => []⟩

/-- Replace the value at one connection. -/
def upd {α : Type} (f : Nat → α) (l : Nat) (x : α) : Nat → α := fun k => if k = l then x else f k

/-- `set.add`. -/
def add (l : List Nat) (x : Nat) : List Nat := if x ∈ l then l else l ++ [x]

/-- `for destinationProtocol in destinations` (switching.py:47-52); the result tells whether an exception was raised. -/
def Net.forward (c : Classes) (n : Net) (p : Val) : List Nat → Net × Bool
  | [] => (n, false)
  | d :: ds => match framedSerialize c.env 0 p with
    | .error _ => (n, true)
    | .ok b => if d ∈ n.swUp then Net.forward c { n with toHost := upd n.toHost d (n.toHost d ++ b) } p ds else (n, true)

/-- The body of the loop of the switch's `_data_received` (switching.py:42-54) for a packet from connection `l`. -/
def Net.handle (c : Classes) (n : Net) (l : Nat) (p : Val) : Net × Bool :=
  match ofVal c p with
  | some (.announce a) => match n.switch.registerLink a l with
    | .error _ => (n, true)
    | .ok s => ({ n with switch := s }, false)
  | some (.wire w) => match n.switch.getOutboundLinks w.header.destination with
    | .error _ => (n, true)
    | .ok ls => n.forward c p ls
  | none => (n, false)

/-- The loop (switching.py:41-54): an exception ends it, and is caught (switching.py:33-37). -/
def Net.loop (c : Classes) (l : Nat) : Nat → Net → Net
  | 0, n => n
  | k + 1, n => match (n.rx l).iter c.env c.framed with
    | (none, d) => { n with rx := upd n.rx l d }
    | (some (.error _), d) => Net.loop c l k { n with rx := upd n.rx l d }
    | (some (.packet p), d) => match Net.handle c { n with rx := upd n.rx l d } l p with
      | (n, true) => n
      | (n, false) => Net.loop c l k n

/-- `data_received` at the switch (switching.py:33-40). -/
def Net.switchData (c : Classes) (n : Net) (l : Nat) (b : Bytes) : Net :=
  Net.loop c l (((n.rx l).update b).frm.s.buf.length + 1) { n with rx := upd n.rx l ((n.rx l).update b) }

/-- `self.transport.write(packet.__serialize__())` on the link side, for one packet after the other (switching.py:108, 118, 135); an exception
ends it. -/
def Net.send (c : Classes) (n : Net) (l : Nat) : List Pkt → Net
  | [] => n
  | p :: ps => match framedSerialize c.env 0 (p.val c) with
    | .error _ => n
    | .ok b => Net.send c { n with toSwitch := upd n.toSwitch l (n.toSwitch l ++ b) } l ps

/-- What can happen. -/
inductive Ev where
  | accept (l : Nat)                                                     -- connection_made at the switch
  | connect (l : Nat) (address : Str)                                    -- connection_made at the link side
  | announce (l : Nat) (address : Str)                                   -- changeRegisteredAddress
  | write (l : Nat) (h : Frag.Header) (fragId : Nat) (data : Bytes)      -- write, with the random number drawn
  | toSwitch (l : Nat) (k : Nat)                                         -- the next k bytes arrive at the switch
  | toHost (l : Nat) (k : Nat)                                           -- the next k bytes arrive at the link side
  | timeout (l : Nat) (fragId : Nat)
  | lostSwitch (l : Nat)                                                 -- connection_lost at the switch
  | lostHost (l : Nat)                                                   -- connection_lost at the link side

/-- One event. Without a transport, writing raises AttributeError; asyncio gives data only to connected protocols. `connection_lost` at the switch: if
`unregisterLink` raised, the exception would go to the event loop. -/
def Net.step (c : Classes) (n : Net) : Ev → Net
  | .accept l => { n with swUp := add n.swUp l }
  | .connect l a => Net.send c { n with hostUp := add n.hostUp l } l [.announce a]
  | .announce l a => if l ∈ n.hostUp then n.send c l [.announce a] else n
  | .write l h id data => if l ∈ n.hostUp then n.send c l ((Frag.write h id data).map .wire) else n
  | .toSwitch l k =>
    if l ∈ n.swUp then Net.switchData c { n with toSwitch := upd n.toSwitch l ((n.toSwitch l).drop k) } l ((n.toSwitch l).take k) else n
  | .toHost l k =>
    if l ∈ n.hostUp then
      { n with toHost := upd n.toHost l ((n.toHost l).drop k), tx := upd n.tx l ((n.tx l).data c ((n.toHost l).take k)) }
    else n
  | .timeout l i => { n with tx := upd n.tx l { n.tx l with store := (Frag.step (n.tx l).store (.timeout i)).1 } }
  | .lostSwitch l => match n.switch.unregisterLink l with
    | .error _ => { n with swUp := n.swUp.filter (· ≠ l) }
    | .ok s => { n with swUp := n.swUp.filter (· ≠ l), switch := s }
  | .lostHost l => { n with hostUp := n.hostUp.filter (· ≠ l) }

def Net.exec (c : Classes) (n : Net) : List Ev → Net
  | [] => n
  | e :: h => Net.exec c (n.step c e) h

end Verif.Link
