import Verif.Model.Control
import Verif.Model.VnicClient
/-! # A client library and a VNIC on the bytes of one control connection (network/protocols/vsockets.py:140-373)

`VNICSocketControlClientProtocol` and `VNICSocketControlProtocol`, each with its Deserializer, and the bytes in flight between them. The connection stands
for the whole history. Not modelled: the message of an error (it is "Port is not available"; the other one, for a connection id in use, does not occur with
this client, whose ids are new); packets that `__serialize__` refuses. -/
namespace Verif.Session
open Verif.Vnic (Key)

/-- `VNICSocketOpenResponsePacket` (vsocket_packets.py:51-59). -/
def respDef : PDef := ⟨"vsockets.VNICSocketOpenResponsePacket".toList, "1.0".toList,
  .cons "ConnectionId" none false (Link.uint 32) (.cons "port" none false (Link.uint 16) (.cons "errorCode" none true (Link.uint 8) (.cons "errorMessage" none true .str .nil)))⟩

/-- `VNICConnectionSpawnedPacket` (vsocket_packets.py:64-74). -/
def spawnDef : PDef := ⟨"vsockets.VNICConnectionSpawnedPacket".toList, "1.0".toList,
  .cons "ConnectionId" none false (Link.uint 32) (.cons "spawnTcpPort" none false (Link.uint 16) (.cons "source" none false .str (.cons "sourcePort" none false (Link.uint 16)
    (.cons "destination" none false .str (.cons "destinationPort" none false (Link.uint 16) .nil)))))⟩

/-- The classes, `VNICSocketControlPacket` (`base`); the number of the control connection at the VNIC, where the callback service listens, and the local TCP
ports of the callback connections. -/
structure Cfg where
  c : Control.Classes
  base : Cls
  respC : Cls
  spawnC : Cls
  depth : Nat
  p : Nat
  callback : Str × Nat
  tcp : Nat → Nat

/-- What the VNIC writes on the control connection. -/
inductive Msg where
  | response (id : Nat) (r : Vnic.Resp)
  | spawned (id tcpPort : Nat) (k : Key)
  deriving DecidableEq

/-- The packet objects (vsockets.py:222-262, 268-277). -/
def Msg.val (c : Cfg) : Msg → Val
  | .response i (.port q) => .packet c.respC (.set (.num i) (.set (.num q) (.unset (.unset .nil))))
  | .response i .busy => .packet c.respC (.set (.num i) (.set (.num 0) (.set (.num 1) (.set (.str "Port is not available".toList) .nil))))
  | .spawned i t k => .packet c.spawnC (.set (.num i) (.set (.num t) (.set (.str k.source) (.set (.num k.sourcePort) (.set (.str k.destination)
      (.set (.num k.destinationPort) .nil))))))

/-- The writes of the VNIC to control connection `p` (vsockets.py:265, 278). -/
def msgsOf (p : Nat) (tcp : Nat → Nat) : List Vnic.Eff → List Msg
  | [] => []
  | .respond q i r :: l => if q = p then .response i r :: msgsOf p tcp l else msgsOf p tcp l
  | .announce q i t k :: l => if q = p then .spawned i (tcp t) k :: msgsOf p tcp l else msgsOf p tcp l
  | _ :: l => msgsOf p tcp l

/-- The `isinstance` chain of the client's `data_received` with `isFailure` (vsockets.py:334-371, vsocket_packets.py:61-62); `none`: other packets. A failure
with a message but no code gets 0. -/
def ofVal (c : Cfg) : Val → Option Cli.Ev
  | .packet k fs =>
    if k = c.respC then (match fs with
      | .set (.num i) (.set (.num q) (.unset (.unset .nil))) => some (.response i.toNat (.port q.toNat))
      | .set (.num i) (.set _ (.set (.num e) _)) => some (.response i.toNat (.failure e.toNat))
      | .set (.num i) (.set _ (.unset (.set _ .nil))) => some (.response i.toNat (.failure 0))
      | _ => none)
    else if k = c.spawnC then (match fs with
      | .set (.num i) (.set (.num t) (.set (.str _) (.set (.num sp) (.set (.str _) (.set (.num _) .nil))))) => some (.spawned i.toNat t.toNat sp.toNat)
      | _ => none)
    else none
  | _ => none

/-- An exception leaves the handler: `self._connections[...]`, or the future is done (vsockets.py:346-350, 360, 370-371). -/
def raises (s : Cli.St) : Cli.Ev → Bool
  | .response i r => match s.futures.get i with
    | none => false
    | some (k, n) => match r, k with
      | .port _, .connect => false
      | _, _ => decide (s.fut n ≠ .pending)
  | .spawned i _ _ => match s.apps.get i with
    | none => true
    | some _ => match s.futures.get i with
      | some (.connect, n) => decide (s.fut n ≠ .pending)
      | _ => false
  | _ => false

/-- The loop of the client's `data_received` (vsockets.py:333-371): when a handler raises, the packets behind stay in the Deserializer. -/
def loop (c : Cfg) : Nat → DState → Cli.St → DState × Cli.St
  | 0, d, s => (d, s)
  | n + 1, d, s => match d.iter c.c.env c.depth c.base with
    | (none, d') => (d', s)
    | (some (.error _), d') => loop c n d' s
    | (some (.packet v), d') => match ofVal c v with
      | none => loop c n d' s
      | some e => if raises s e then (d', Cli.step s e) else loop c n d' (Cli.step s e)

/-- `packet.__serialize__()` (PacketType.py:234-240); nothing is written if it raises. -/
def bytes (c : Cfg) (v : Val) : Bytes := match serialize c.c.env 0 v with
  | .ok b => b
  | .error _ => []

/-- The client, the VNIC, their Deserializers, and the bytes on the way. -/
structure Net where
  cli : Cli.St
  cd : DState
  vnic : Vnic.St
  vd : DState
  toVnic : Bytes
  toCli : Bytes

/-- The connection is made (vsockets.py:162-164, 328-330); `a`: the address of the VNIC. -/
def Net.init (c : Cfg) (a : Str) : Net :=
  ⟨.init, .init c.c.env c.depth c.base, Vnic.step (.init a) (.ctlMade c.p), .init c.c.env c.depth c.c.packetType, [], []⟩

/-- The VNIC does something: what it writes to the control connection is on the way. -/
def Net.moved (c : Cfg) (s : Net) (v : Vnic.St) : Net :=
  { s with vnic := v, toCli := s.toCli ++ (msgsOf c.p c.tcp (v.out.drop s.vnic.out.length)).flatMap fun m => bytes c (m.val c) }

inductive Ev where
  | connect (dst : Str) (dport factory : Nat)
  | listen (port factory : Nat)
  | close (cid : Nat)
  | cancel (n : Nat)          -- the owner cancels future `n`
  | toVnic (n : Nat)          -- (at most) `n` bytes arrive at the VNIC
  | toCli (n : Nat)           -- at the client
  | vnic (e : Vnic.Ev)        -- anything else at the VNIC

/-- The open packet of a request (vsockets.py:294-300, 314-318). -/
def openCmd (c : Cfg) (count : Nat) (r : Vnic.Req) : Control.Cmd := .openSocket (count + 1) c.callback.1 c.callback.2 r

/-- One event (vsockets.py:289-326, 332-371). -/
def step (c : Cfg) (s : Net) : Ev → Net
  | .connect dst dport f => { s with cli := Cli.step s.cli (.request .connect f), toVnic := s.toVnic ++ bytes c ((openCmd c s.cli.count (.connect dst dport)).val c.c) }
  | .listen port f => { s with cli := Cli.step s.cli (.request .listen f), toVnic := s.toVnic ++ bytes c ((openCmd c s.cli.count (.listen port)).val c.c) }
  | .close i => { s with toVnic := s.toVnic ++ bytes c ((Control.Cmd.closeSocket i).val c.c) }
  | .cancel n => { s with cli := Cli.step s.cli (.cancel n) }
  | .toVnic n => match Control.data c.c c.depth c.p s.vd s.vnic (s.toVnic.take n) with
    | (d, v) => Net.moved c { s with vd := d, toVnic := s.toVnic.drop n } v
  | .toCli n => match loop c ((s.cd.buf ++ s.toCli.take n).length + 1) (s.cd.update (s.toCli.take n)) s.cli with
    | (d, x) => { s with cd := d, cli := x, toCli := s.toCli.drop n }
  | .vnic e => Net.moved c s (Vnic.step s.vnic e)

/-- A history. -/
def run (c : Cfg) (s : Net) (h : List Ev) : Net := h.foldl (step c) s

end Verif.Session
