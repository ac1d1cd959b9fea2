import Verif.Model.Power
/-! # Specification of commands that start and stop devices -/
namespace Verif.Power
open Verif.Device

/-- The process of the device runs. -/
def Alive (s : St) (d : Nat) : Prop := (s.dev d).proc = .alive

/-- The device is an access point somewhere else. -/
def Remote (c : Cfg) (d : Nat) : Prop := c.kind d = .ap true

/-- The device is connected to `a`, which is in the file. -/
def Linked (f : File) (s : St) (d a : Nat) : Prop := (s.dev d).conn = some a ∧ a ∈ f.ds

/-- There is a process of this interface, but there is no access point for it: it is not connected, or what it is connected to is not in the file or
does not run. -/
def Stranded (c : Cfg) (f : File) (s : St) (d : Nat) : Prop :=
  d ∈ f.ds ∧ c.kind d = .iface ∧ Alive s d ∧ ¬ ∃ a, Linked f s d a ∧ (Remote c a ∨ Alive s a)

/-- The devices that are to run when the network is on: every local access point and every connected interface that is to be enabled automatically,
and the local access point of every such interface. -/
inductive Wanted (c : Cfg) (f : File) (s : St) : Nat → Prop
  | ap (d : Nat) (h : d ∈ f.ds) (ha : f.auto d = true) (hk : c.kind d = .ap false) : Wanted c f s d
  | iface (d a : Nat) (h : d ∈ f.ds) (ha : f.auto d = true) (hk : c.kind d = .iface) (hl : Linked f s d a) : Wanted c f s d
  | under (d a : Nat) (h : d ∈ f.ds) (ha : f.auto d = true) (hk : c.kind d = .iface) (hl : Linked f s d a) (hk' : c.kind a = .ap false) : Wanted c f s a

end Verif.Power
