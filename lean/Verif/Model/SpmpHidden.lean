import Verif.Model.Spmp
/-! # `HiddenSPMPServerProtocol` (protocols/spmp.py:118-139): management requests on a connection of another protocol

The main protocol is an arbitrary function of the state of the device (`HiddenSPMPServerProtocol` is made with the VNIC's own control protocol, whose packets act on
the same VNIC, launch_vnic.py:72-75): what it does with data, and whether it raises. -/
namespace Verif.Spmp

/-- What the protocol beneath the management does with data. -/
abbrev Main (σ : Type) := σ → Bytes → σ × List Act × Bool

structure Hidden (σ : Type) where
  des : DState
  up : Bool
  w : σ

/-- `__init__` and `connection_made` (spmp.py:119-122, 133-135); `base` is `PacketType`. -/
def Hidden.init {σ : Type} (c : Cfg σ) (base : Cls) (w : σ) : Hidden σ := ⟨.init c.env c.depth base, true, w⟩

/-- The body of the loop (spmp.py:127-131); the last component tells whether it raises. -/
def hide {σ : Type} (c : Cfg σ) (main : Main σ) (up : Bool) (w : σ) (v : Val) : σ × List Act × Bool := match ofVal c.cls v with
  | some p => process c up w p
  | none => match serialize c.env 0 v with
    | .error _ => (w, [], true)
    | .ok b => main w b

/-- The loop of `data_received` (spmp.py:126-131); when a packet raises, the packets behind it stay in the deserializer. The fuel bounds the number of
iterations; it is never used up (`C51`). -/
def hideLoop {σ : Type} (c : Cfg σ) (main : Main σ) (base : Cls) : Nat → Hidden σ → Hidden σ × List Act
  | 0, s => (s, [])
  | n + 1, s => match s.des.iter c.env c.depth base with
    | (none, d) => ({ s with des := d }, [])
    | (some (.error _), d) => hideLoop c main base n { s with des := d }
    | (some (.packet v), d) => match hide c main s.up s.w v with
      | (w', acts, true) => ({ s with des := d, w := w' }, acts)
      | (w', acts, false) =>
        let r := hideLoop c main base n { s with des := d, w := w' }
        (r.1, acts ++ r.2)

/-- `data_received` (spmp.py:124-131). -/
def Hidden.data {σ : Type} (c : Cfg σ) (main : Main σ) (base : Cls) (s : Hidden σ) (b : Bytes) : Hidden σ × List Act :=
  hideLoop c main base ((s.des.buf ++ b).length + 1) { s with des := s.des.update b }

def Hidden.recv {σ : Type} (c : Cfg σ) (main : Main σ) (base : Cls) (s : Hidden σ) : List Bytes → Hidden σ × List Act
  | [] => (s, [])
  | b :: bs =>
    let r := s.data c main base b
    let r' := Hidden.recv c main base r.1 bs
    (r'.1, r.2 ++ r'.2)

end Verif.Spmp
