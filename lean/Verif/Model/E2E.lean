import Verif.Model.Vnic
import Verif.Model.LinkNet
/-! # VNICs on a switch (devices/vnic/VNIC.py, protocols/switching.py, entry_points/launch_vnic.py)

The VNICs of Model/Vnic.lean with the links and the switch of Model/LinkNet.lean: what a VNIC hands to its link is written there, and what the link
side gives to `demux` goes to the VNIC. VNICs and connections to the switch are numbered. As in launch_vnic.py:97-119, a VNIC opens a connection to
the switch only when it has none (at the start, and after its connection was lost); what happens if `switchConnectionFactory` is called while there is
one is in Model/Promiscuous.lean. -/
namespace Verif.E2E

/-- All VNICs, the switch and the connections; `link`: the connection of each VNIC whose link side has a transport (`_linkTx`, VNIC.py:100-104,
121-124); `used`: the connections that were opened so far. -/
structure World where
  net : Link.Net
  vnic : Nat → Vnic.St
  link : Nat → Option Nat
  used : List Nat

/-- VNICs with these addresses, and a switch without connections. -/
def World.init (addr : Nat → Str) : World := ⟨.init, fun v => .init (addr v), fun _ => none, []⟩

/-- `write(portKey.source, portKey.sourcePort, portKey.destination, portKey.destinationPort, data)` (VNIC.py:211). -/
def header (k : Vnic.Key) : Frag.Header := ⟨k.source, k.sourcePort, k.destination, k.destinationPort⟩

/-- `PortKey(source, sourcePort, destination, destinationPort)` of a received packet (VNIC.py:134, switching.py:158-160). -/
def key (h : Frag.Header) : Vnic.Key := ⟨h.source, h.sourcePort, h.destination, h.destinationPort⟩

/-- What happens in a VNIC without the switch: everything but `demux` and the events of the link. -/
def own : Vnic.Ev → Bool
  | .data _ _ => false
  | .linkUp => false
  | .linkDown => false
  | _ => true

/-- What is handed to the link (`VNIC.write`, VNIC.py:207-211). -/
def links : List Vnic.Eff → List (Vnic.Key × Bytes)
  | [] => []
  | .link k d :: l => (k, d) :: links l
  | _ :: l => links l

/-- What can happen. -/
inductive Ev where
  | accept (l : Nat)                                    -- connection_made at the switch
  | attach (v l : Nat)                                  -- connection_made at the link side of VNIC v
  | detach (v : Nat)                                    -- connection_lost there
  | announce (v : Nat) (address : Str)                  -- changeRegisteredAddress (promiscuous level)
  | own (v : Nat) (e : Vnic.Ev) (fragId : Nat)          -- an event in VNIC v; the random number, if one is drawn
  | toSwitch (l : Nat) (k : Nat)                        -- the next k bytes arrive at the switch
  | toHost (v : Nat) (k : Nat)                          -- the next k bytes arrive at the link side of VNIC v
  | timeout (l : Nat) (fragId : Nat)
  | lostSwitch (l : Nat)                                -- connection_lost at the switch

/-- What an event is for the connections and the switch: `connection_made` announces the VNIC's address (switching.py:100-103), data handed to the link
is written (VNIC.py:211). -/
def netEv (w : World) : Ev → List Link.Ev
  | .accept l => [.accept l]
  | .attach v l => if w.link v = none ∧ l ∉ w.used then [.connect l (w.vnic v).address] else []
  | .detach v => match w.link v with
    | none => []
    | some l => [.lostHost l]
  | .announce v a => match w.link v with
    | none => []
    | some l => [.announce l a]
  | .own v e id => match w.link v with
    | none => []
    | some l => if own e then (links ((Vnic.step (w.vnic v) e).out.drop (w.vnic v).out.length)).map fun x => .write l (header x.1) id x.2 else []
  | .toSwitch l k => [.toSwitch l k]
  | .toHost v k => match w.link v with
    | none => []
    | some l => [.toHost l k]
  | .timeout l i => [.timeout l i]
  | .lostSwitch l => [.lostSwitch l]

/-- The calls of `demux` caused by an event at the link side of connection `l` (switching.py:158-160). -/
def demuxed (c : Link.Classes) (n : Link.Net) (l : Nat) (e : List Link.Ev) : List Vnic.Ev :=
  (((n.exec c e).tx l).got.drop ((n.tx l).got).length).map fun d => .data (key d.1.header) d.2

/-- What an event is for VNIC `u`. -/
def vnicEv (c : Link.Classes) (w : World) (u : Nat) : Ev → List Vnic.Ev
  | .attach v l => if u = v ∧ w.link v = none ∧ l ∉ w.used then [.linkUp] else []
  | .detach v => if u = v ∧ w.link v ≠ none then [.linkDown] else []
  | .own v e _ => if u = v ∧ own e = true then [e] else []
  | .toHost v k => if u = v then (match w.link v with
    | none => []
    | some l => demuxed c w.net l [.toHost l k]) else []
  | _ => []

/-- `_linkTx` of VNIC `u` (VNIC.py:100-104, 121-124). -/
def linkEv (w : World) (u : Nat) : Ev → Option Nat
  | .attach v l => if u = v ∧ w.link v = none ∧ l ∉ w.used then some l else w.link u
  | .detach v => if u = v then none else w.link u
  | _ => w.link u

/-- The connections opened so far. -/
def usedEv (w : World) : Ev → List Nat
  | .attach v l => if w.link v = none ∧ l ∉ w.used then w.used ++ [l] else w.used
  | _ => w.used

/-- One event. -/
def World.step (c : Link.Classes) (w : World) (e : Ev) : World :=
  ⟨w.net.exec c (netEv w e), fun u => Vnic.exec (w.vnic u) (vnicEv c w u e), fun u => linkEv w u e, usedEv w e⟩

/-- A history. -/
def World.exec (c : Link.Classes) (w : World) : List Ev → World
  | [] => w
  | e :: h => World.exec c (w.step c e) h

end Verif.E2E
