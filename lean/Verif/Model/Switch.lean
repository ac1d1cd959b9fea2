import Verif.Model.Address
import Verif.Model.Dict
/-! # network/devices/switch/Switch.py and the switch side of network/protocols/switching.py

Links are identified by natural numbers (the identities of the `PlaygroundSwitchRxProtocol` objects). Python's
sets of links are lists without duplicates. The bytes-to-packets step (`FramedPacketType.Deserializer`) is
modelled elsewhere; here a chunk of data is the list of packets that become complete with it. -/
namespace Verif

/-- Exceptions. -/
inductive SwErr where
  | keyError         -- `self._addressToLinks[oldAddress]`, `.remove(protocol)`, `del`
  | invalidAddress   -- InvalidPlaygroundAddress from FromString
  | noTransport      -- AttributeError: None has no attribute write
  deriving DecidableEq, Repr

/-- `Switch` (Switch.py:12-18). -/
structure Switch where
  addressToLinks : Dict Str (List Nat)
  linkToAddress : Dict Nat Str
  deriving DecidableEq

namespace Switch

/-- `Switch()` (Switch.py:13-18). -/
def new : Switch := ⟨[], []⟩

/-- `unregisterLink` (Switch.py:20-25). -/
def unregisterLink (s : Switch) (p : Nat) : Except SwErr Switch :=
  match s.linkToAddress.get p with
  | none => .ok s
  | some old =>
    match s.addressToLinks.get old with
    | none => .error .keyError
    | some l =>
      if p ∈ l then .ok ⟨s.addressToLinks.set old (l.erase p), s.linkToAddress.del p⟩ else .error .keyError

/-- `set.add` (Switch.py:36). -/
def addTo (l : List Nat) (p : Nat) : List Nat := if p ∈ l then l else l ++ [p]

/-- `registerLink` after the check of the address (Switch.py:31-38). -/
def addLink (s : Switch) (a : Str) (p : Nat) : Switch :=
  match s.addressToLinks.get a with
  | none => ⟨s.addressToLinks.set a [p], s.linkToAddress.set p a⟩
  | some l => ⟨s.addressToLinks.set a (addTo l p), s.linkToAddress.set p a⟩

/-- `registerLink` (Switch.py:27-38). -/
def registerLink (s : Switch) (a : Str) (p : Nat) : Except SwErr Switch :=
  if Addr.isValidBlockString a then
    match s.unregisterLink p with
    | .error e => .error e
    | .ok s' => .ok (s'.addLink a p)
  else .ok s

/-- `set.update` (Switch.py:46). -/
def union (l : List Nat) : List Nat → List Nat
  | [] => l
  | x :: xs => union (addTo l x) xs

/-- The loop of `getOutboundLinks` (Switch.py:44-47), at most `fuel` turns. -/
def outLoop (s : Switch) : Nat → Addr → List Nat → List Nat
  | 0, _, acc => acc
  | n + 1, a, acc =>
    let acc' := union acc ((s.addressToLinks.get a.str).getD [])
    match a.getParentBlock with
    | none => acc'
    | some p => outLoop s n p acc'

/-- `getOutboundLinks` (Switch.py:40-48). The loop ends after at most five turns: see `C26_parent_is_parent`
(each turn removes one of at most four specified parts); `C27_fuel` shows that more fuel changes nothing. -/
def getOutboundLinks (s : Switch) (dst : Str) : Except SwErr (List Nat) :=
  if Addr.isValidBlockString dst then
    match Addr.blockFromString dst with
    | .error _ => .error .invalidAddress
    | .ok a => .ok (s.outLoop 5 a [])
  else .ok []

/-- What can be done to a switch. -/
inductive Op where
  | register (a : Str) (p : Nat)
  | unregister (p : Nat)
  deriving DecidableEq

def step (s : Switch) : Op → Except SwErr Switch
  | .register a p => s.registerLink a p
  | .unregister p => s.unregisterLink p

/-- A history; stops at the first exception. -/
def exec (s : Switch) : List Op → Except SwErr Switch
  | [] => .ok s
  | o :: h => match s.step o with
    | .error e => .error e
    | .ok s' => exec s' h

end Switch

/-! ## The protocol instances of a switch -/

/-- The packets of `switching_packets.py` a switch distinguishes (switching.py:42-54). `payload` stands for
the fields the switch does not look at. -/
inductive SPkt where
  | announce (address : Str)
  | wire (destination : Str) (payload : Nat)
  | other
  deriving DecidableEq

/-- A switch with its `PlaygroundSwitchRxProtocol` instances (switching.py:16-54). `up`: the instances whose
`transport` is not `None`; `pending`: the packets complete in the deserializer of an instance and not yet
taken from it; `out`: the packets written so far, with the instance on whose transport. -/
structure SwNet where
  switch : Switch
  up : List Nat
  pending : Nat → List SPkt
  out : List (Nat × SPkt)

namespace SwNet

/-- A new switch. -/
def new : SwNet := ⟨.new, [], fun _ => [], []⟩

/-- `for destinationProtocol in destinations: destinationProtocol.transport.write(...)` (switching.py:47-52);
the writes before an exception have happened. -/
def writeAll (n : SwNet) (p : SPkt) : List Nat → SwNet × Option SwErr
  | [] => (n, none)
  | d :: ds => if d ∈ n.up then writeAll { n with out := n.out ++ [(d, p)] } p ds else (n, some .noTransport)

/-- The body of the loop for a packet received by instance `l` (switching.py:42-54);
`handleExtensionPacket` does nothing (Switch.py:50-54). -/
def handle (n : SwNet) (l : Nat) : SPkt → SwNet × Option SwErr
  | .announce a => match n.switch.registerLink a l with
    | .error e => (n, some e)
    | .ok s => ({ n with switch := s }, none)
  | .wire d x => match n.switch.getOutboundLinks d with
    | .error e => (n, some e)
    | .ok ls => writeAll n (.wire d x) ls
  | .other => (n, none)

/-- Store the packets not yet taken. -/
def setPending (n : SwNet) (l : Nat) (q : List SPkt) : SwNet :=
  { n with pending := fun k => if k = l then q else n.pending k }

/-- `for packet in self._deserializer.nextPackets()` (switching.py:41-54): an exception ends the loop (it is
caught and logged by `data_received`, switching.py:33-37); the packet that raised it is gone, the others stay in the
deserializer. -/
def loop (n : SwNet) (l : Nat) : List SPkt → SwNet
  | [] => n.setPending l []
  | p :: ps => match n.handle l p with
    | (n', none) => loop n' l ps
    | (n', some _) => n'.setPending l ps

/-- The events of the protocol instances. -/
inductive Ev where
  | connectionMade (l : Nat)
  | connectionLost (l : Nat)
  | data (l : Nat) (ps : List SPkt)

/-- One event. `connection_lost` (switching.py:26-28): an exception of `unregisterLink` would propagate to the
event loop, with the switch unchanged. -/
def step (n : SwNet) : Ev → SwNet
  | .connectionMade l => { n with up := if l ∈ n.up then n.up else n.up ++ [l] }
  | .connectionLost l =>
    match n.switch.unregisterLink l with
    | .error _ => { n with up := n.up.erase l }
    | .ok s => { n with up := n.up.erase l, switch := s }
  | .data l ps => n.loop l (n.pending l ++ ps)

def exec (n : SwNet) : List Ev → SwNet
  | [] => n
  | e :: h => exec (n.step e) h

end SwNet
end Verif
