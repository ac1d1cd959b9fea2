import Verif.Model.Dict
import Verif.Model.StreamIO
/-! # network/common/Protocol.py: `ProtocolObservation`

Protocols, transports and listeners are numbers; adapters are numbered in the order of their creation. The methods of a protocol and
the `write` of a transport are slots that hold the original method or the wrapper (a lambda) of an adapter. The original methods are
assumed not to raise, to store the transport given to `connection_made`, and not to call other observed methods; listeners are
assumed not to raise and not to call `Listen` or `StopListening`. Calling `EnableProtocol` without `Listen` is not modelled.
The iteration over the set of listeners is in the order of insertion here. -/
namespace Verif.Obs

/-- What a method slot holds. `b`: the object whose original method it is. -/
inductive Slot where
  | base (b : Nat)
  | wrap (a : Nat)
  deriving DecidableEq

/-- An event and its argument (Protocol.py:104-107). -/
inductive Kind where
  | made (t : Nat)
  | lost
  | data (d : Bytes)
  | sent (d : Bytes)
  deriving DecidableEq

inductive Eff where
  | orig (p : Nat) (k : Kind)              -- the protocol's own method ran
  | sent (t : Nat) (d : Bytes)             -- the transport's own write ran
  | notify (l p : Nat) (k : Kind)          -- listener `l` was called for protocol `p`
  | typeError                              -- None was called
  | recursion                              -- RecursionError
  deriving DecidableEq

/-- `ProtocolAdapter` (Protocol.py:109-116). The three original methods are saved, restored and cleared together: `origM`. -/
structure Adapter where
  protocol : Nat                 -- the protocol the lambdas of this adapter refer to
  origM : Option Slot
  transport : Option Nat
  origWrite : Option Slot
  listeners : List Nat
  deriving DecidableEq

structure St where
  observed : Dict Nat Nat        -- OBSERVED_PROTOCOLS: protocol → adapter
  ad : Nat → Adapter
  nAd : Nat
  method : Nat → Slot            -- connection_made, connection_lost, data_received of each protocol
  write : Nat → Slot             -- write of each transport
  out : List Eff

/-- Nothing is observed. -/
def St.init : St := ⟨[], fun _ => ⟨0, none, none, none, []⟩, 0, .base, .base, []⟩

def upd {α} (f : Nat → α) (i : Nat) (x : α) : Nat → α := fun j => if j = i then x else f j

def St.emit (s : St) (e : Eff) : St := { s with out := s.out ++ [e] }

/-- `transportData` (Protocol.py:118-124). -/
def transportData (s : St) (a t : Nat) : St :=
  { s with ad := upd s.ad a { s.ad a with transport := some t, origWrite := some (s.write t) }, write := upd s.write t (.wrap a) }

/-- `self.transport.write = self.originalTransportWrite` when both are there (Protocol.py:130-131). -/
def restoreWrite (s : St) (a : Nat) : Nat → Slot := match (s.ad a).transport, (s.ad a).origWrite with
  | some t, some w => upd s.write t w
  | _, _ => s.write

/-- `protocol.connection_made = self.originalConnectionMade` etc. (Protocol.py:127-129); never done twice for an adapter. -/
def restoreMethod (s : St) (a p : Nat) : Nat → Slot := match (s.ad a).origM with
  | some m => upd s.method p m
  | none => s.method

/-- `restoreProtocol` (Protocol.py:126-139). -/
def restore (s : St) (a p : Nat) : St :=
  { s with
    method := restoreMethod s a p
    write := restoreWrite s a
    ad := upd s.ad a { s.ad a with origM := none, transport := none, origWrite := none }
    observed := s.observed.del p }

/-- The end of `protocolEvent`, after the listeners (Protocol.py:150-154). -/
def finish (s : St) (a p : Nat) : Kind → St
  | .made t => transportData s a t
  | .lost => restore s a p
  | _ => s

/-- `protocolEvent` after the method has returned (Protocol.py:144-155). -/
def report (s : St) (p : Nat) (k : Kind) : St := match s.observed.get p with
  | none => s
  | some a => finish { s with out := s.out ++ (s.ad a).listeners.map fun l => .notify l p k } a p k

/-- A call of a method of protocol `p`: what the slot holds is called. The wrappers are the lambdas of Protocol.py:162-172, which
look up the saved method when they are called. With `fuel` larger than the number of adapters, running out of it means that
the wrappers call each other in a circle. The result says whether the call returned. -/
def callMethod (p : Nat) (k : Kind) : Nat → Slot → St → St × Bool
  | 0, _, s => (s.emit .recursion, false)
  | _ + 1, .base b, s => (s.emit (.orig b k), true)
  | n + 1, .wrap a, s => match (s.ad a).origM with
    | none => (s.emit .typeError, false)
    | some m => match callMethod p k n m s with
      | (s1, true) => (report s1 (s.ad a).protocol k, true)
      | (s1, false) => (s1, false)

/-- A call of the `write` of a transport (wrapper: Protocol.py:121-124). -/
def callWrite (d : Bytes) : Nat → Slot → St → St × Bool
  | 0, _, s => (s.emit .recursion, false)
  | _ + 1, .base t, s => (s.emit (.sent t d), true)
  | n + 1, .wrap a, s => match (s.ad a).origWrite with
    | none => (s.emit .typeError, false)
    | some m => match callWrite d n m s with
      | (s1, true) => (report s1 (s.ad a).protocol (.sent d), true)
      | (s1, false) => (s1, false)

/-- `EnableProtocol` for a protocol that is not observed (Protocol.py:160-172). -/
def enable (s : St) (p : Nat) : St :=
  { s with
    ad := upd s.ad s.nAd ⟨p, some (s.method p), none, none, []⟩
    nAd := s.nAd + 1
    observed := s.observed.set p s.nAd
    method := upd s.method p (.wrap s.nAd) }

/-- `set.add`. -/
def addTo (l : List Nat) (x : Nat) : List Nat := if x ∈ l then l else l ++ [x]

def addListener (s : St) (a l : Nat) : St := { s with ad := upd s.ad a { s.ad a with listeners := addTo (s.ad a).listeners l } }

/-- `Listen` (Protocol.py:175-178). -/
def listen (s : St) (p l : Nat) : St := match s.observed.get p with
  | none => addListener (enable s p) s.nAd l
  | some a => addListener s a l

/-- `StopListening` (Protocol.py:180-187). -/
def stop (s : St) (p l : Nat) : St := match s.observed.get p with
  | none => s
  | some a =>
    if l ∈ (s.ad a).listeners then
      let s1 := { s with ad := upd s.ad a { s.ad a with listeners := (s.ad a).listeners.erase l } }
      if (s.ad a).listeners.erase l = [] then restore s1 a p else s1
    else s

inductive Ev where
  | listen (p l : Nat)
  | stop (p l : Nat)
  | made (p t : Nat)            -- connection_made of protocol `p` is called
  | lost (p : Nat)              -- connection_lost
  | data (p : Nat) (d : Bytes)  -- data_received
  | write (t : Nat) (d : Bytes) -- write of transport `t`
  deriving DecidableEq

def step (s : St) : Ev → St
  | .listen p l => listen s p l
  | .stop p l => stop s p l
  | .made p t => (callMethod p (.made t) (s.nAd + 1) (s.method p) s).1
  | .lost p => (callMethod p .lost (s.nAd + 1) (s.method p) s).1
  | .data p d => (callMethod p (.data d) (s.nAd + 1) (s.method p) s).1
  | .write t d => (callWrite d (s.nAd + 1) (s.write t) s).1

def exec (s : St) : List Ev → St
  | [] => s
  | e :: h => exec (step s e) h

end Verif.Obs
