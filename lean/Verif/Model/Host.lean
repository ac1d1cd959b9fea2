import Verif.Model.Vnic
import Verif.Model.Connector
/-! # A process with a connector, at a VNIC (devices/vnic/connect.py, devices/vnic/VNIC.py, protocols/vsockets.py)

The VNIC of Model/Vnic.lean and the connector of Model/Connector.lean with the TCP connections between them. A TCP connection is what was written so far
at one end and how much of it has arrived at the other; it may be lost at each end at any time. Packets on a control connection arrive one by one (their bytes
are Model/Framed.lean). Control connection `c` of this connector is number `2 * c` at the VNIC; the odd numbers, and everything that happens on them, are
other processes. Simplifications: all locations the connector finds are this VNIC; the TCP port of callback connection `n` of the VNIC is `n` (ports are not
reused, and nobody else connects to the callback service); the callback address is reachable. -/
namespace Verif.Host
open Verif.Cli (Kind)

/-- Packets from the connector to the VNIC (vsockets.py:289-322, connect.py:177-185). -/
inductive Up where
  | opens (id : Nat) (r : Vnic.Req)
  | closes (id : Nat)
  deriving DecidableEq

/-- Packets from the VNIC to the connector (vsockets.py:221-265, 268-278): the answer to an open packet; a new connection, with the TCP port of its callback
connection and its four addresses. -/
inductive Down where
  | response (id : Nat) (r : Vnic.Resp)
  | spawned (id t : Nat) (k : Vnic.Key)
  deriving DecidableEq

/-- The process, and its TCP connections to the VNIC. -/
structure Side where
  con : Connect.St
  acc : List Nat                -- control connections that the VNIC has accepted
  sent : Nat → List Up          -- packets written to control connection `c`
  read : Nat → Nat              -- how many of them have arrived
  seen : Nat → Nat              -- how many packets of the VNIC on control connection `c` have arrived
  peer : Nat → Option Nat       -- callback connection of the VNIC ↦ callback protocol of the connector
  got : Nat → Nat               -- how many bytes of the VNIC have arrived on callback connection `n`
  wrote : Nat → Bytes           -- what the process wrote on callback connection `n`
  given : Nat → Nat             -- how many of these bytes have arrived
  data : Nat → Option Vnic.Key  -- the addresses in `_connectionData[t]` (connect.py:96), kept after that is deleted
  info : Nat → Option Vnic.Key  -- the addresses that callback protocol `m` was given for the transport of its stack (vsockets.py:389-393)

def Side.init : Side := ⟨.init, [], fun _ => [], fun _ => 0, fun _ => 0, fun _ => none, fun _ => 0, fun _ => [], fun _ => 0, fun _ => none, fun _ => none⟩

def upd {α} (f : Nat → α) (i : Nat) (x : α) : Nat → α := fun j => if j = i then x else f j

/-- The control connection of the VNIC (VNICSocketControlProtocol) that is connection `c` of this connector. -/
def proto (c : Nat) : Nat := 2 * c

/-- The contents of the open packet of call `i` (vsockets.py:294-303, 312-319): destination and port as given to the call. -/
def reqOf (want : Nat → Str × Nat) (k : Kind) (i : Nat) : Vnic.Req := match k with
  | .connect => .connect (want i).1 (want i).2
  | .listen => .listen (want i).2

/-- The packet for an effect of the control protocol. -/
def request (want : Nat → Str × Nat) (apps : Dict Nat Nat) : Cli.Eff → Option Up
  | .request id k => some (.opens id (reqOf want k ((apps.get id).getD 0)))
  | _ => none

def closing (c : Nat) : Connect.Eff → Option Up
  | .closePacket d id => if d = c then some (.closes id) else none
  | _ => none

/-- The packets that the connector writes to control connection `c` from `s` to `s'`. -/
def ups (want : Nat → Str × Nat) (s s' : Connect.St) (c : Nat) : List Up :=
  ((s'.cli c).out.drop (s.cli c).out.length).filterMap (request want (s'.cli c).apps) ++ (s'.out.drop s.out.length).filterMap (closing c)

/-- The packet for an effect of the VNIC. -/
def down (c : Nat) : Vnic.Eff → Option Down
  | .respond p id r => if p = proto c then some (.response id r) else none
  | .announce p id t k => if p = proto c then some (.spawned id t k) else none
  | _ => none

/-- All packets that the VNIC has written to control connection `c`. -/
def downs (v : Vnic.St) (c : Nat) : List Down := v.out.filterMap (down c)

/-- What the VNIC has written to callback connection `n`. -/
def written : List Vnic.Eff → Nat → Bytes
  | [], _ => []
  | .write t d :: l, n => (if t = n then d else []) ++ written l n
  | _ :: l, n => written l n

/-- An answer as the control protocol of the connector reads it (vsockets.py:335-350). -/
def answer : Vnic.Resp → Cli.Resp
  | .port p => .port p
  | .busy => .failure 1

def conEv (c : Nat) : Down → Connect.Ev
  | .response id r => .response c id (answer r)
  | .spawned id t k => .spawned c id t k.sourcePort

def vnicEvOf (c : Nat) : Up → Vnic.Ev
  | .opens id r => .openSocket (proto c) id r
  | .closes id => .closeSocket (proto c) id

/-- The addresses given to the callback protocols (connect.py:100, 112-114): a protocol that got its stack is given those of its port. -/
def inform (s : Side) (t : Connect.St) (m : Nat) : Option Vnic.Key :=
  if (t.cb.proto m).made = true ∧ (s.con.cb.proto m).made = false then s.data (t.cb.proto m).port else s.info m

/-- An event in the connector. -/
def conStep (want : Nat → Str × Nat) (s : Side) (e : Connect.Ev) : Side :=
  { s with con := Connect.step s.con e, sent := fun c => s.sent c ++ ups want s.con (Connect.step s.con e) c, info := inform s (Connect.step s.con e) }

/-- `completeCallback` stores the addresses of a connection (connect.py:96); for an unknown connection id it is not called (vsockets.py:360 raises KeyError). -/
def learn (s : Side) (c : Nat) : Down → Side
  | .spawned id t k => if ((s.con.cli c).apps.get id).isSome then { s with data := upd s.data t (some k) } else s
  | .response _ _ => s

inductive Ev where
  | own (e : Connect.Ev)            -- in the process
  | other (e : Vnic.Ev)             -- in the VNIC, or by other processes, or from the switch
  | accept (c : Nat)                -- the VNIC accepts control connection `c`
  | toVnic (c : Nat)                -- the next packet on control connection `c` arrives at the VNIC
  | toCon (c : Nat)                 -- the next packet on control connection `c` arrives at the connector
  | lostVnic (c : Nat)              -- connection_lost of control connection `c` at the VNIC
  | lostCon (c : Nat)               -- and at the connector
  | callback (n : Nat)              -- the callback service accepts callback connection `n`
  | toApp (n k : Nat)               -- the next `k` bytes on callback connection `n` arrive at the process
  | write (n : Nat) (d : Bytes)     -- the process (the stack with the application) writes to callback connection `n`
  | toSock (n k : Nat)              -- the next `k` of these bytes arrive at the VNIC
  | endVnic (n : Nat)               -- connection_lost of callback connection `n` at the VNIC
  | endApp (n : Nat)                -- and at the process
  deriving DecidableEq

/-- Events of the connector that do not come from the VNIC. -/
def inside : Connect.Ev → Bool
  | .response _ _ _ => false
  | .spawned _ _ _ _ => false
  | .callback _ => false
  | .data _ _ => false
  | .lost _ => false
  | .ctlLost _ => false
  | _ => true

/-- Callback connection `n` goes to this process. -/
def mine (v : Vnic.St) (n : Nat) : Bool := (v.ctl (v.spawn n).control).proto % 2 == 0

/-- Events of the VNIC that do not come from this process. Its tasks that make callback connections run by themselves. -/
def foreign (v : Vnic.St) : Vnic.Ev → Bool
  | .ctlMade p => p % 2 == 1
  | .ctlLost p => p % 2 == 1
  | .openSocket p _ _ => p % 2 == 1
  | .closeSocket p _ => p % 2 == 1
  | .startDump p => p % 2 == 1
  | .stopDump p => p % 2 == 1
  | .rawWire p _ _ => p % 2 == 1
  | .lost n => decide (n < v.nSpawn) && !mine v n
  | .reverse n _ => decide (n < v.nSpawn) && !mine v n
  | _ => true

/-- The next `k` bytes of a connection on which `b` was written and `n` bytes have arrived. -/
def chunk (b : Bytes) (n k : Nat) : Bytes := (b.drop n).take k

/-- The callback protocol of the connector has a transport. -/
def running (s : Side) (m : Nat) : Bool := decide (m < s.con.cb.nProto) && !(s.con.cb.proto m).lost

/-- The callback connection `n` of the VNIC has a transport. -/
def live (v : Vnic.St) (n : Nat) : Bool := decide (n < v.nSpawn) && decide ((v.spawn n).stage ≠ .connecting) && !(v.spawn n).lost

/-- What an event is for the VNIC. -/
def vnicEv (v : Vnic.St) (s : Side) : Ev → List Vnic.Ev
  | .other e => if foreign v e then [e] else []
  | .accept c => if c < s.con.nCli ∧ c ∉ s.acc then [.ctlMade (proto c)] else []
  | .toVnic c => if c ∈ s.acc then ((s.sent c)[s.read c]?.map (vnicEvOf c)).toList else []
  | .lostVnic c => if c ∈ s.acc then [.ctlLost (proto c)] else []
  | .toSock n k => if mine v n = true ∧ live v n = true ∧ chunk (s.wrote n) (s.given n) k ≠ [] then [.reverse n (chunk (s.wrote n) (s.given n) k)] else []
  | .endVnic n => if mine v n then [.lost n] else []
  | _ => []

/-- The next packet on control connection `c`, if there is one. -/
def receive (want : Nat → Str × Nat) (s : Side) (c : Nat) : Option Down → Side
  | none => s
  | some x => { conStep want (learn s c x) (conEv c x) with seen := upd s.seen c (s.seen c + 1) }

/-- The bytes `d` arrive on callback connection `n`. -/
def take (want : Nat → Str × Nat) (s : Side) (n : Nat) (d : Bytes) : Option Nat → Side
  | none => s
  | some m => if running s m = true ∧ d ≠ [] then { conStep want s (.data m d) with got := upd s.got n (s.got n + d.length) } else s

/-- The process writes, if the connection is there and the application is on it (Model/Callback.lean). -/
def put (s : Side) (n : Nat) (d : Bytes) : Option Nat → Side
  | none => s
  | some m => if running s m = true ∧ (s.con.cb.proto m).made = true then { s with wrote := upd s.wrote n (s.wrote n ++ d) } else s

/-- What an event is for the process; `v` is the VNIC before the event. -/
def sideStep (want : Nat → Str × Nat) (v : Vnic.St) (s : Side) : Ev → Side
  | .own e => if inside e then conStep want s e else s
  | .other _ => s
  | .accept c => if c < s.con.nCli ∧ c ∉ s.acc then { s with acc := s.acc ++ [c] } else s
  | .toVnic c => if c ∈ s.acc ∧ s.read c < (s.sent c).length then { s with read := upd s.read c (s.read c + 1) } else s
  | .toCon c => if c < s.con.nCli ∧ s.con.up c = true then receive want s c (downs v c)[s.seen c]? else s
  | .lostVnic _ => s
  | .lostCon c => conStep want s (.ctlLost c)
  | .callback n => if n < v.nSpawn ∧ mine v n = true ∧ s.peer n = none then
      { conStep want s (.callback n) with peer := upd s.peer n (some s.con.cb.nProto) } else s
  | .toApp n k => take want s n (chunk (written v.out n) (s.got n) k) (s.peer n)
  | .write n d => put s n d (s.peer n)
  | .toSock n k => if mine v n = true ∧ live v n = true then { s with given := upd s.given n (s.given n + (chunk (s.wrote n) (s.given n) k).length) } else s
  | .endVnic _ => s
  | .endApp n => match s.peer n with
    | none => s
    | some m => conStep want s (.lost m)

/-- A VNIC with a process. -/
structure St where
  vnic : Vnic.St
  side : Side

def St.init (a : Str) : St := ⟨.init a, .init⟩

/-- One event. -/
def step (want : Nat → Str × Nat) (s : St) (e : Ev) : St := ⟨Vnic.exec s.vnic (vnicEv s.vnic s.side e), sideStep want s.vnic s.side e⟩

def exec (want : Nat → Str × Nat) (s : St) : List Ev → St
  | [] => s
  | e :: h => exec want (step want s e) h

end Verif.Host
