import Verif.Model.E2E
import Verif.Model.Host
/-! # Applications on VNICs on a switch

The network of Model/E2E.lean with a process with a connector (Model/Host.lean) at each VNIC; other processes at a VNIC are events of Model/Host.lean. What the
connector gives to its VNIC, and what other processes do there, are the `own` events of Model/E2E.lean; what comes from the switch and from the link is `other` for
Model/Host.lean. -/
namespace Verif.Apps

structure World where
  net : E2E.World
  side : Nat → Host.Side

def World.init (addr : Nat → Str) : World := ⟨.init addr, fun _ => .init⟩

/-- The process and the VNIC `v`. -/
def World.host (w : World) (v : Nat) : Host.St := ⟨w.net.vnic v, w.side v⟩

inductive Ev where
  | net (e : E2E.Ev)                              -- on the connections to the switch
  | host (v : Nat) (e : Host.Ev) (fragId : Nat)   -- at VNIC v; the random number, if one is drawn

/-- What does not happen in a VNIC by itself, by its processes or on the connections to them. -/
def outer : E2E.Ev → Bool
  | .own _ _ _ => false
  | _ => true

/-- `demux` and the events of the link come from the network only. -/
def inner : Host.Ev → Bool
  | .other e => E2E.own e
  | _ => true

/-- What an event is for the network. -/
def netEv (w : World) : Ev → List E2E.Ev
  | .net e => if outer e then [e] else []
  | .host v e id => if inner e then (Host.vnicEv (w.net.vnic v) (w.side v) e).map fun x => .own v x id else []

/-- What an event is for the process and the VNIC `u`. -/
def hostEv (c : Link.Classes) (w : World) (u : Nat) : Ev → List Host.Ev
  | .net e => if outer e then (E2E.vnicEv c w.net u e).map .other else []
  | .host v e _ => if u = v ∧ inner e = true then [e] else []

/-- The process at VNIC `u` after an event; `want u i` are destination and port given to its call `i`. -/
def sideEv (want : Nat → Nat → Str × Nat) (w : World) (u : Nat) : Ev → Host.Side
  | .net _ => w.side u
  | .host v e _ => if u = v ∧ inner e = true then Host.sideStep (want u) (w.net.vnic u) (w.side u) e else w.side u

def World.step (c : Link.Classes) (want : Nat → Nat → Str × Nat) (w : World) (e : Ev) : World :=
  ⟨w.net.exec c (netEv w e), fun u => sideEv want w u e⟩

def World.exec (c : Link.Classes) (want : Nat → Nat → Str × Nat) (w : World) : List Ev → World
  | [] => w
  | e :: h => World.exec c want (w.step c want e) h

end Verif.Apps
