import Verif.Model.Deserializer
import Verif.Model.Dict
/-! # network/protocols/spmp.py, network/protocols/packets/management.py: the management protocol

The functions of `apiMap` are arbitrary; they work on a state `σ`. The transport is the list of the calls that are made on it; what the peer
receives is in `Verif.Spec.Spmp`. Not modelled: logging; functions that return `UNSET` or that use the connection themselves. -/
namespace Verif.Spmp

/-- `SPMPPacket.FIELDS` (management.py:20-32). -/
def fields : FDecls :=
  .cons "requestId" none false (.num false { bits := some 16 })
  (.cons "request" none false .str
  (.cons "args" none false (.list .str)
  (.cons "result" none false .str
  (.cons "error" none true .str
  (.cons "securityType" none true .str
  (.cons "security" none true (.list .buf) .nil))))))

/-- `SPMPPacket` (management.py:14-16). -/
def packetDef : PDef := ⟨"devices.management.SPMPPacket".toList, "1.0".toList, fields⟩

/-- The attributes of an `SPMPPacket` object; `none` is `UNSET`. -/
structure Packet where
  requestId : Option Int
  request : Option Str
  args : Option (List Str)
  result : Option Str
  error : Option Str
  securityType : Option Str
  security : Option (List Bytes)
  deriving DecidableEq

def ofList {α : Type} (f : α → Val) : List α → VList
  | [] => .nil
  | a :: l => .cons (f a) (ofList f l)

def toList {α : Type} (f : Val → Option α) : VList → Option (List α)
  | .nil => some []
  | .cons v r => match f v, toList f r with
    | some a, some l => some (a :: l)
    | _, _ => none

/-- A field of the packet. -/
def fld {α : Type} (f : α → Val) : Option α → FVals → FVals
  | none, r => .unset r
  | some a, r => .set (f a) r

/-- The object as a value of the codec. -/
def Packet.val (cls : Cls) (p : Packet) : Val :=
  .packet cls (fld .num p.requestId (fld .str p.request (fld (fun l => .list (ofList .str l)) p.args (fld .str p.result
    (fld .str p.error (fld .str p.securityType (fld (fun l => .list (ofList .buf l)) p.security .nil)))))))

def getNum : Val → Option Int | .num i => some i | _ => none
def getStr : Val → Option Str | .str s => some s | _ => none
def getBuf : Val → Option Bytes | .buf b => some b | _ => none
def getList {α : Type} (f : Val → Option α) : Val → Option (List α) | .list l => toList f l | _ => none

/-- Read a field: its value if it is set, and the rest. `none` if there is no such field. -/
def take {α : Type} (f : Val → Option α) : FVals → Option (Option α × FVals)
  | .unset r => some (none, r)
  | .set v r => match f v with
    | some a => some (some a, r)
    | none => none
  | .nil => none

/-- The attributes of a packet that the deserializer of `SPMPPacket` delivered. It delivers instances of that class only. -/
def ofFields (fs : FVals) : Option Packet := do
  let (a, fs) ← take getNum fs
  let (b, fs) ← take getStr fs
  let (c, fs) ← take (getList getStr) fs
  let (d, fs) ← take getStr fs
  let (e, fs) ← take getStr fs
  let (f, fs) ← take getStr fs
  let (g, _) ← take (getList getBuf) fs
  some ⟨a, b, c, d, e, f, g⟩

def ofVal (cls : Cls) : Val → Option Packet
  | .packet c fs => if c = cls then ofFields fs else none
  | _ => none

/-- What a function of the API does: return a value (here its `str`), or raise an exception (here its `str`). -/
inductive Res where
  | value (s : Str)
  | raised (msg : Str)
  deriving DecidableEq

/-- `LocalAccessSecurityPolicy.authorized` (spmp.py:21-31) for the address in `peername`, if there is one. -/
def localAccess (peer : Option Str) : Bool := decide (peer = some "127.0.0.1".toList)

structure Cfg (σ : Type) where
  env : Env
  depth : Nat
  cls : Cls                                              -- `SPMPPacket`
  device : Str                                           -- `str(self._device)`
  api : Str → Option (List Str → σ → σ × Res)            -- `apiMap`
  authorized : Packet → Bool                             -- `true` for all packets if there is no security policy

/-- What the server does to the outside. -/
inductive Act where
  | call (cmd : Str) (args : List Str)
  | write (b : Bytes)
  | close
  deriving DecidableEq

/-- `"Unknown request '{}' to device [{}]"` (spmp.py:108). -/
def unknown (cmd device : Str) : Str := "Unknown request '".toList ++ cmd ++ "' to device [".toList ++ device ++ "]".toList

/-- `str(PacketFieldType.UNSET)`. -/
def unsetStr : Str := "Unset Packet Field".toList

/-- `if error: response.error = error` (spmp.py:114-115), after the result was set. -/
def respond (p : Packet) (result : Str) (error : Option Str) : Packet :=
  match error with
  | none => { p with result := some result }
  | some e => if e = [] then { p with result := some result } else { p with result := some result, error := some e }

/-- The call of the function (spmp.py:103-115): the new state, the calls, the response. -/
def execute {σ : Type} (c : Cfg σ) (w : σ) (p : Packet) (args : List Str) : σ × List Act × Packet :=
  match p.request with
  | none => (w, [], respond p [] (some (unknown unsetStr c.device)))
  | some cmd => match c.api cmd with
    | none => (w, [], respond p [] (some (unknown cmd c.device)))
    | some f => match f args w with
      | (w', .value s) => (w', [.call cmd args], respond p s none)
      | (w', .raised e) => (w', [.call cmd args], respond p [] (some e))

/-- `_processSpmpRequest` (spmp.py:94-116); the last component tells whether it raises. `up`: there is a transport. -/
def process {σ : Type} (c : Cfg σ) (up : Bool) (w : σ) (p : Packet) : σ × List Act × Bool :=
  if !c.authorized p then (if up then (w, [.close], false) else (w, [], true))
  else match p.args with
    | none => (w, [], true)
    | some args => match execute c w p args with
      | (w', acts, r) => if !up then (w', acts, true) else match serialize c.env 0 (r.val c.cls) with
        | .ok b => (w', acts ++ [.write b], false)
        | .error _ => (w', acts, true)

structure Server (σ : Type) where
  des : DState
  up : Bool
  w : σ

/-- `SPMPServerProtocol.__init__` and `connection_made` (spmp.py:71-87). -/
def Server.init {σ : Type} (c : Cfg σ) (w : σ) : Server σ := ⟨.init c.env c.depth c.cls, true, w⟩

/-- The loop of `data_received` (spmp.py:91-92); when the processing of a packet raises, the packets behind it stay in the deserializer. The
fuel bounds the number of iterations; it is never used up (`C51`). -/
def serveLoop {σ : Type} (c : Cfg σ) : Nat → Server σ → Server σ × List Act
  | 0, s => (s, [])
  | n + 1, s => match s.des.iter c.env c.depth c.cls with
    | (none, d) => ({ s with des := d }, [])
    | (some (.error _), d) => serveLoop c n { s with des := d }
    | (some (.packet v), d) => match ofVal c.cls v with
      | none => ({ s with des := d }, [])
      | some p => match process c s.up s.w p with
        | (w', acts, true) => ({ s with des := d, w := w' }, acts)
        | (w', acts, false) =>
          let r := serveLoop c n { s with des := d, w := w' }
          (r.1, acts ++ r.2)

/-- `data_received` (spmp.py:89-92). -/
def Server.data {σ : Type} (c : Cfg σ) (s : Server σ) (b : Bytes) : Server σ × List Act :=
  serveLoop c ((s.des.buf ++ b).length + 1) { s with des := s.des.update b }

/-- What happens to the server protocol. -/
inductive Ev where
  | data (b : Bytes)
  | lost            -- `connection_lost` (spmp.py:83-84)

def Server.step {σ : Type} (c : Cfg σ) (s : Server σ) : Ev → Server σ × List Act
  | .data b => s.data c b
  | .lost => ({ s with up := false }, [])

def Server.exec {σ : Type} (c : Cfg σ) (s : Server σ) : List Ev → Server σ × List Act
  | [] => (s, [])
  | e :: h =>
    let r := s.step c e
    let r' := Server.exec c r.1 h
    (r'.1, r.2 ++ r'.2)

/-! ## The client -/

/-- `SPMPClientProtocol` (spmp.py:33-46): the responses by request id. -/
structure Client where
  des : DState
  responses : Dict (Option Int) (Option Str × Option Str)

def Client.init (env : Env) (depth : Nat) (cls : Cls) : Client := ⟨.init env depth cls, []⟩

/-- The body of the loop (spmp.py:51-54). -/
def Client.accept (cls : Cls) (r : Dict (Option Int) (Option Str × Option Str)) : Event → Dict (Option Int) (Option Str × Option Str)
  | .error _ => r
  | .packet v => match ofVal cls v with
    | none => r
    | some p => r.set p.requestId (p.result, p.error)

/-- `data_received` (spmp.py:48-55). -/
def Client.data (env : Env) (depth : Nat) (cls : Cls) (s : Client) (b : Bytes) : Client :=
  match (s.des.update b).next env depth cls with
  | (evs, d, _) => ⟨d, evs.foldl (Client.accept cls) s.responses⟩

def Client.recv (env : Env) (depth : Nat) (cls : Cls) (s : Client) : List Bytes → Client
  | [] => s
  | b :: bs => Client.recv env depth cls (s.data env depth cls b) bs

/-- The request of `query(cmd, *args)` (spmp.py:57-65) without security; `id` is the random number. -/
def request (id : Nat) (cmd : Str) (args : List Str) : Packet := ⟨some id, some cmd, some args, some [], none, none, none⟩

/-- `query` waits until this is not `none`, and returns it (spmp.py:67-68). -/
def Client.answer (s : Client) (id : Nat) : Option (Option Str × Option Str) := s.responses.get (some (id : Int))

/-! ## Management requests on a connection for other packets -/

/-- What `HiddenSPMPServerProtocol` does with a packet (spmp.py:124-131): management requests are processed, all other packets go to the main
protocol, serialized again. `none`: it raises. -/
inductive Route where
  | spmp (p : Packet)
  | main (b : Bytes)
  deriving DecidableEq

def hidden (env : Env) (cls : Cls) (v : Val) : Option Route := match ofVal cls v with
  | some p => some (.spmp p)
  | none => match serialize env 0 v with
    | .ok b => some (.main b)
    | .error _ => none

/-- What `data_received` of `HiddenSPMPServerProtocol` does with the events of its deserializer as long as nothing raises; `none` if something raises. -/
def routes (env : Env) (cls : Cls) : List Event → Option (List Route)
  | [] => some []
  | .error _ :: l => routes env cls l
  | .packet v :: l => match hidden env cls v, routes env cls l with
    | some r, some rs => some (r :: rs)
    | _, _ => none

end Verif.Spmp
