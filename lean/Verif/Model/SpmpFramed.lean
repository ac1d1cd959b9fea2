import Verif.Model.Spmp
import Verif.Model.Framed
/-! # network/protocols/spmp.py: management requests on a connection for framed packets

`FramedProtocolAdapter` and `FramedTransport` (spmp.py:141-171), as the switch, the WAN and the access point use them (launch_switch.py:50-54,
launch_wan.py:68-78, NetworkAccessPoint.py:126-137). What the two protocols behind the adapter do is arbitrary: functions on a state `σ` that may
raise. Not modelled: `connection_made` and `connection_lost`, which are passed on to both. -/
namespace Verif.Spmp

/-- `FramedSPMPWrapper` (management.py:40-49). -/
def wrapDef : PDef := ⟨"devices.management.FramedSPMPWrapper".toList, "1.0".toList, .cons "spmpPacket" none false .buf .nil⟩

/-- `FramedSPMPWrapper(spmpPacket=data)` (spmp.py:143). -/
def wrap (wcls : Cls) (data : Bytes) : Val := .packet wcls (.set (.buf data) .nil)

/-- `isinstance(pkt, FramedSPMPWrapper)` and `pkt.spmpPacket` (spmp.py:162-163): `none` if it is another packet, `some none` if the field is
`UNSET`. There are no subclasses of the wrapper. -/
def wrapped (wcls : Cls) : Val → Option (Option Bytes)
  | .packet c fs => if c = wcls then (match fs with
    | .set (.buf b) _ => some (some b)
    | _ => some none) else none
  | _ => none

/-- A call of `data_received` of one of the two protocols; `none` is `UNSET`. -/
inductive Delivery where
  | spmp (data : Option Bytes)
  | alt (data : Bytes)
  deriving DecidableEq

/-- The two protocols: what `data_received` does to the state, and whether it raises. -/
structure Handlers (σ : Type) where
  spmp : σ → Option Bytes → σ × Bool
  alt : Option (σ → Bytes → σ × Bool)

/-- The adapter; `log` are the calls it has made so far. -/
structure Adapter (σ : Type) where
  des : FState
  st : σ
  log : List Delivery

def Adapter.init {σ : Type} (st : σ) : Adapter σ := ⟨.init, st, []⟩

/-- The body of the loop (spmp.py:162-165); the last component tells whether it raises. -/
def Adapter.dispatch {σ : Type} (env : Env) (wcls : Cls) (h : Handlers σ) (a : Adapter σ) (v : Val) : Adapter σ × Bool :=
  match wrapped wcls v with
  | some o => match h.spmp a.st o with
    | (st, r) => ({ a with st := st, log := a.log ++ [.spmp o] }, r)
  | none => match h.alt with
    | none => (a, false)
    | some f => match framedSerialize env 0 v with
      | .error _ => (a, true)
      | .ok b => match f a.st b with
        | (st, r) => ({ a with st := st, log := a.log ++ [.alt b] }, r)

/-- The loop of `data_received` (spmp.py:161-165): when the body raises, the packets behind stay in the deserializer. -/
def Adapter.loop {σ : Type} (env : Env) (base wcls : Cls) (h : Handlers σ) : Nat → Adapter σ → Adapter σ × Bool
  | 0, a => (a, false)
  | n + 1, a => match a.des.iter env base with
    | (none, d) => ({ a with des := d }, false)
    | (some (.error _), d) => Adapter.loop env base wcls h n { a with des := d }
    | (some (.packet v), d) => match Adapter.dispatch env wcls h { a with des := d } v with
      | (a, true) => (a, true)
      | (a, false) => Adapter.loop env base wcls h n a

/-- `data_received` (spmp.py:159-165) with `FramedPacketType` as `base`. -/
def Adapter.data {σ : Type} (env : Env) (base wcls : Cls) (h : Handlers σ) (a : Adapter σ) (b : Bytes) : Adapter σ × Bool :=
  Adapter.loop env base wcls h ((a.des.update b).frm.s.buf.length + 1) { a with des := a.des.update b }

/-- The chunks that arrive; an exception does not keep the next chunk away. -/
def Adapter.recv {σ : Type} (env : Env) (base wcls : Cls) (h : Handlers σ) : Adapter σ → List Bytes → Adapter σ
  | a, [] => a
  | a, b :: bs => Adapter.recv env base wcls h (a.data env base wcls h b).1 bs

/-! ## The protocols of spmp.py behind the adapter -/

/-- Whether `data_received` of the server raises (spmp.py:89-116). -/
def serveRaises {σ : Type} (c : Cfg σ) : Nat → Server σ → Bool
  | 0, _ => false
  | n + 1, s => match s.des.iter c.env c.depth c.cls with
    | (none, _) => false
    | (some (.error _), d) => serveRaises c n { s with des := d }
    | (some (.packet v), d) => match ofVal c.cls v with
      | none => false
      | some p => match process c s.up s.w p with
        | (_, _, true) => true
        | (w', _, false) => serveRaises c n { s with des := d, w := w' }

/-- `update(UNSET)`: the stream is at its end when `write` raises, and stays there (HighPerformanceStreamIO.py:19-23). -/
def unsetUpdate (d : DState) : DState := { d with pos := d.buf.length }

/-- What `FramedTransport.write` (spmp.py:141-144) makes of what the server writes: a wrapper in a frame. Wrappers of 4 GiB and more, which
`__serialize__` refuses, are not modelled. -/
def frameAct (env : Env) (wcls : Cls) : Act → Act
  | .write b => match framedSerialize env 0 (wrap wcls b) with
    | .ok f => .write f
    | .error _ => .write []
  | a => a

/-- The server and the other protocol of a device: the server's state, what it has done, and the state of the other protocol. -/
structure Device (σ β : Type) where
  server : Server σ
  acts : List Act
  other : β

/-- `SPMPServerProtocol` on a `FramedTransport` (spmp.py:89-92, 141-144). -/
def serverData {σ β : Type} (c : Cfg σ) (wcls : Cls) (s : Device σ β) : Option Bytes → Device σ β × Bool
  | none => ({ s with server := { s.server with des := unsetUpdate s.server.des } }, true)
  | some b => match s.server.data c b with
    | (sv, acts) => ({ s with server := sv, acts := s.acts ++ acts.map (frameAct c.env wcls) },
      serveRaises c ((s.server.des.buf ++ b).length + 1) { s.server with des := s.server.des.update b })

/-- The protocols of a switch or a WAN device: the server, and the device's own protocol, which does not raise. -/
def deviceHandlers {σ β : Type} (c : Cfg σ) (wcls : Cls) (alt : β → Bytes → β) : Handlers (Device σ β) :=
  ⟨serverData c wcls, some fun s b => ({ s with other := alt s.other b }, false)⟩

def Device.init {σ β : Type} (c : Cfg σ) (w : σ) (o : β) : Device σ β := ⟨.init c w, [], o⟩

/-- `SPMPClientProtocol` behind an adapter without another protocol (NetworkAccessPoint.py:130). -/
def clientHandlers (env : Env) (depth : Nat) (cls : Cls) : Handlers Client :=
  ⟨fun s o => match o with
    | none => ({ s with des := unsetUpdate s.des }, true)
    | some b => (s.data env depth cls b, false), none⟩

end Verif.Spmp
