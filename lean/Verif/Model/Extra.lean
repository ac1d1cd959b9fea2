import Verif.Model.Dict
import Verif.Model.Host
/-! # What transports say about a connection (network/common/Protocol.py: `StackingTransport`; vsockets.py: `setPlaygroundConnectionInfo`)

Transports and the dictionaries with their extra information are objects, numbered in the order in which they are made: two transports may share one dictionary. -/
namespace Verif.Extra

/-- The extra information of a transport: `none` is Python's `None`. -/
abbrev Info (V : Type) := Dict Str (Option V)

/-- A transport: the one below, if it is a `StackingTransport`, and its dictionary (Protocol.py:57-59). -/
structure Tr where
  lower : Option Nat
  extra : Nat
  deriving DecidableEq

/-- The dictionaries and the transports. -/
structure St (V : Type) where
  dict : Nat → Info V
  nDict : Nat
  tr : Nat → Tr
  nTr : Nat

def St.init {V : Type} : St V := ⟨fun _ => [], 0, fun _ => ⟨none, 0⟩, 0⟩

variable {V : Type}

/-- `{...}`: a new dictionary. -/
def St.newDict (s : St V) (d : Info V) : St V :=
  { s with dict := fun i => if i = s.nDict then d else s.dict i, nDict := s.nDict + 1 }

/-- `d[name] = value` (Protocol.py:61, 63, 65). -/
def St.put (s : St V) (d : Nat) (name : Str) (v : Option V) : St V :=
  { s with dict := fun i => if i = d then (s.dict i).set name v else s.dict i }

/-- A new transport with dictionary `d` (`BaseTransport.__init__` of asyncio keeps the dictionary that it is given: Protocol.py:58). -/
def St.newTr (s : St V) (lower : Option Nat) (d : Nat) : St V :=
  { s with tr := fun i => if i = s.nTr then ⟨lower, d⟩ else s.tr i, nTr := s.nTr + 1 }

/-- `transport.get_extra_info(name, default)`: `self._extra.get(name, default)` of asyncio; used in Protocol.py:60-65. -/
def St.ask (s : St V) (t : Nat) (name : Str) (dflt : Option V) : Option V := ((s.dict (s.tr t).extra).get name).getD dflt

/-- One of the lines 60-65 of Protocol.py: a name that the transport does not know is taken from the transport below. -/
def St.inherit (s : St V) (t low : Nat) (name : Str) : St V :=
  match s.ask t name none with
  | some _ => s
  | none => s.put (s.tr t).extra name (s.ask low name none)

/-- Lines 60-65 of Protocol.py. -/
def St.inherits (s : St V) (t low : Nat) : St V :=
  ((s.inherit t low "sockname".toList).inherit t low "peername".toList).inherit t low "spawnport".toList

/-- `StackingTransport(lower, extra)` (Protocol.py:57-65); without `extra`, asyncio makes a new dictionary. -/
def St.stack (s : St V) (low : Nat) : Option Nat → St V
  | some d => (s.newTr (some low) d).inherits s.nTr low
  | none => ((s.newDict []).newTr (some low) s.nDict).inherits s.nTr low

/-- A transport that is no `StackingTransport`, with its own dictionary (asyncio's transport of a TCP connection, vsockets.py:383-385). -/
def St.base (s : St V) (d : Info V) : St V := (s.newDict d).newTr none s.nDict

inductive Ev (V : Type) where
  | dict (d : Info V)                               -- a dictionary is made
  | put (d : Nat) (name : Str) (v : Option V)       -- somebody writes into dictionary d
  | base (d : Info V)
  | stack (low : Nat) (extra : Option Nat)          -- StackingTransport(low, extra)

/-- One event. Objects that do not exist cannot be used. -/
def St.step (s : St V) : Ev V → St V
  | .dict d => s.newDict d
  | .put d name v => if d < s.nDict then s.put d name v else s
  | .base d => s.base d
  | .stack low none => if low < s.nTr then s.stack low none else s
  | .stack low (some d) => if low < s.nTr ∧ d < s.nDict then s.stack low (some d) else s

def St.exec (s : St V) : List (Ev V) → St V
  | [] => s
  | e :: h => St.exec (s.step e) h

/-- `n` transports, each on the one before, beginning with transport `t` (a stack whose layers call `StackingTransport(self.transport)`): the new state and the
uppermost transport. -/
def St.layers (s : St V) (t : Nat) : Nat → St V × Nat
  | 0 => (s, t)
  | n + 1 => (s.stack t none).layers s.nTr n

/-! ## Playground connections -/

/-- The values: an address with a port, or a TCP port. -/
inductive Name where
  | addr (a : Str) (port : Nat)
  | port (p : Nat)
  deriving DecidableEq

/-- The dictionary that `setPlaygroundConnectionInfo` makes (vsockets.py:391-393). -/
def played (k : Vnic.Key) (spawnPort : Nat) : Info Name :=
  [("sockname".toList, some (.addr k.source k.sourcePort)), ("peername".toList, some (.addr k.destination k.destinationPort)), ("spawnport".toList, some (.port spawnPort))]

/-- The transport that the stack of a callback protocol gets (vsockets.py:391-393) in a process that has any objects `s` already; `t` is the transport of the
callback connection. -/
def St.play (s : St Name) (t : Nat) (k : Vnic.Key) (spawnPort : Nat) : St Name := (s.newDict (played k spawnPort)).stack t (some s.nDict)

/-- What the application on callback protocol `m` of a process gets for `get_extra_info(name, default)`, with `layers` layers between (none if it is not on a
connection yet); `s` are the objects of the process before, `t` the transport of the callback connection. -/
def appAsk (side : Host.Side) (m : Nat) (s : St Name) (t layers : Nat) (name : Str) (dflt : Option Name) : Option Name :=
  match side.info m with
  | none => none
  | some k => (((s.play t k (side.con.cb.proto m).port).layers s.nTr layers).1).ask (((s.play t k (side.con.cb.proto m).port).layers s.nTr layers).2) name dflt

end Verif.Extra
