import Verif.Model.Promiscuous
import Verif.Model.LinkNet
import Verif.Model.Deserializer
/-! # Clients that set and ask for the promiscuous level of a VNIC (network/protocols/vsockets.py:202-213, 443-460)

`VNICPromiscuousControl` objects on control connections of their own, each with its Deserializer, the bytes in flight, and what `VNICSocketControlProtocol` does with their
packets (Model/Control.lean has the other packets). The connections stand until the client closes them. -/
namespace Verif.LevelNet

/-- `VNICPromiscuousLevelPacket` (vsocket_packets.py:84-101). -/
def levelDef : PDef := ⟨"vsockets.VNICPromiscuousLevelPacket".toList, "1.0".toList, .cons "set" none true (Link.uint 8) (.cons "get" none true (Link.uint 8) .nil)⟩

/-- The classes: `PacketType` and the packet. -/
structure Cfg where
  env : Env
  packetType : Cls
  levelC : Cls
  depth : Nat

/-- The request (vsockets.py:450-451); `none`: `request.set = self.level` raises, because the number is not one of 8 bits. -/
def request (c : Cfg) : Option Int → Option Val
  | none => some (.packet c.levelC (.unset (.unset .nil)))
  | some l => if 0 ≤ l ∧ l < 256 then some (.packet c.levelC (.set (.num l) (.unset .nil))) else none

/-- The answer (vsockets.py:208-211). -/
def reply (c : Cfg) (l : Nat) : Val := .packet c.levelC (.unset (.set (.num l) .nil))

/-- `setPromiscuousLevel` raises: there is a new link that is not made yet, or none, or no such block (VNIC.py:83-92, switching.py:105-108). -/
def refuses (s : Prom.St) (l : Option Int) : Bool :=
  decide (s.mode ≠ some (Prom.clampLevel l)) && s.connected && match Prom.parents (Prom.clampLevel l) s.address, s.link with
    | some _, some tx => !s.up tx
    | _, _ => true

/-- A packet of a client at the VNIC (vsockets.py:202-213): the level in the answer, if there is one. -/
def control (s : Prom.St) : Option Int → Prom.St × Option Nat
  | none => (s, some (Prom.promiscuousLevel s))
  | some l =>
    let s' := Prom.setLevel s (some l)
    (s', if refuses s (some l) then none else some (Prom.promiscuousLevel s'))

/-- The field `set` of a packet at the VNIC; `none`: another packet. -/
def setOf (c : Cfg) : Val → Option (Option Int)
  | .packet k fs =>
    if k = c.levelC then (match fs with
      | .set (.num l) _ => some (some l)
      | .unset _ => some none
      | _ => none)
    else none
  | _ => none

/-- The field `get` of a packet at the client. -/
def getOf : Val → Option Nat
  | .packet _ (.set _ (.set (.num l) .nil)) => some l.toNat
  | .packet _ (.unset (.set (.num l) .nil)) => some l.toNat
  | _ => none

/-- The loop of `data_received` at the VNIC (vsockets.py:182-213); the packets that it writes. -/
def vnicLoop (c : Cfg) : Nat → DState → Prom.St → List Val → DState × Prom.St × List Val
  | 0, d, s, out => (d, s, out)
  | n + 1, d, s, out => match d.iter c.env c.depth c.packetType with
    | (none, d') => (d', s, out)
    | (some (.error _), d') => vnicLoop c n d' s out
    | (some (.packet v), d') => match setOf c v with
      | none => vnicLoop c n d' s out
      | some set => match control s set with
        | (s', none) => vnicLoop c n d' s' out
        | (s', some l) => vnicLoop c n d' s' (out ++ [reply c l])

/-- The loop of the client (vsockets.py:455-460): it stops at the first packet. -/
def clientLoop (c : Cfg) : Nat → DState → DState × Option Val
  | 0, d => (d, none)
  | n + 1, d => match d.iter c.env c.depth c.levelC with
    | (none, d') => (d', none)
    | (some (.error _), d') => clientLoop c n d'
    | (some (.packet v), d') => (d', some v)

/-- A connection. -/
structure Conn where
  opened : Bool
  level : Option Int               -- the argument of the client
  toVnic : Bytes
  vd : DState
  toClient : Bytes
  cd : DState
  current : Option Nat             -- currentVnicLevel
  closed : Bool                    -- the client has closed it

def Conn.init (c : Cfg) : Conn := ⟨false, none, [], .init c.env c.depth c.packetType, [], .init c.env c.depth c.levelC, none, false⟩

def bytesOf (c : Cfg) (v : Val) : Bytes := match serialize c.env 0 v with
  | .ok b => b
  | .error _ => []

structure World where
  vnic : Prom.St
  conn : Nat → Conn

def World.init (c : Cfg) (a : Addr) : World := ⟨.init a, fun _ => .init c⟩

def World.put (w : World) (i : Nat) (x : Conn) : World := { w with conn := fun j => if j = i then x else w.conn j }

inductive Ev where
  | open (i : Nat) (level : Option Int)     -- connection `i` is made, with this client
  | toVnic (i n : Nat)                      -- so many bytes arrive
  | toClient (i n : Nat)
  | net (e : Prom.Ev)                       -- anything else at the VNIC
  deriving DecidableEq

/-- `connection_made` (vsockets.py:448-452). -/
def connect (c : Cfg) (w : World) (i : Nat) (level : Option Int) : World :=
  let x := w.conn i
  if x.opened then w
  else w.put i { x with opened := true, level := level, toVnic := match request c level with
    | none => []
    | some v => bytesOf c v }

/-- Bytes at the VNIC. -/
def atVnic (c : Cfg) (w : World) (i n : Nat) : World :=
  let x := w.conn i
  let b := x.toVnic.take n
  match vnicLoop c ((x.vd.buf ++ b).length + 1) (x.vd.update b) w.vnic [] with
  | (d, s, out) => { w with vnic := s }.put i { x with toVnic := x.toVnic.drop n, vd := d, toClient := x.toClient ++ out.flatMap (bytesOf c) }

/-- Bytes at the client; a closed connection gets none. -/
def atClient (c : Cfg) (w : World) (i n : Nat) : World :=
  let x := w.conn i
  if x.closed then w
  else
    let b := x.toClient.take n
    match clientLoop c ((x.cd.buf ++ b).length + 1) (x.cd.update b) with
    | (d, none) => w.put i { x with toClient := x.toClient.drop n, cd := d }
    | (d, some v) => w.put i { x with toClient := x.toClient.drop n, cd := d, closed := true, current := match getOf v with
      | none => x.current
      | some l => some l }

def step (c : Cfg) (w : World) : Ev → World
  | .open i l => connect c w i l
  | .toVnic i n => atVnic c w i n
  | .toClient i n => atClient c w i n
  | .net e => { w with vnic := Prom.step w.vnic e }

def exec (c : Cfg) (w : World) : List Ev → World
  | [] => w
  | e :: h => exec c (step c w e) h

end Verif.LevelNet
