import Verif.Model.Device
/-! # Specification of the device states -/
namespace Verif.Device

/-- The device counts as enabled: it is a remote access point, or its status says so. -/
def On (c : Cfg) (s : St) (d : Nat) : Prop := c.kind d = .ap true ∨ (s.dev d).status = .enabled

/-- The dependencies of a device are met: an interface is connected, and everything it depends on counts as enabled. -/
def Ready (c : Cfg) (s : St) (d : Nat) : Prop := (c.kind d = .iface → (s.dev d).conn ≠ none) ∧ ∀ a ∈ (s.dev d).deps, On c s a

end Verif.Device
