import Verif.Model.LevelNet
import Verif.Spec.Promiscuous
import Verif.Spec.Control
/-! # Specification vocabulary for C111 -/
namespace Verif.LevelNet

/-- The definition belongs to the class. -/
structure Cfg.Ok (c : Cfg) : Prop where
  registered : c.env.Registered
  levelIs : c.env.classDef c.levelC = some levelDef
  subs : c.env.isSub c.levelC c.packetType = true ∧ c.env.isSub c.levelC c.levelC = true
  depth : 0 < c.depth

/-- What happens at the VNIC otherwise. -/
def nets : List Ev → List Prom.Ev
  | [] => []
  | .net e :: h => e :: nets h
  | _ :: h => nets h

/-- The level fits into a packet. -/
def Fits : Option Int → Prop
  | none => True
  | some l => 0 ≤ l ∧ l < 256

instance (l : Option Int) : Decidable (Fits l) := by cases l <;> unfold Fits <;> infer_instance

/-- The level of the VNIC after a request. -/
def levelAfter (old : Nat) : Option Int → Nat
  | none => old
  | some l => (min (max l 0) 4).toNat

/-- The world after a history, the VNIC having the address `a`. -/
def run (c : Cfg) (a : Addr) (h : List Ev) : World := exec c (World.init c a) h

/-- The level of the VNIC after a history. -/
def vnicLevel (c : Cfg) (a : Addr) (h : List Ev) : Nat := Prom.promiscuousLevel (run c a h).vnic

/-- The client of connection `i` has the argument `l`. -/
def Opened (h : List Ev) (i : Nat) (l : Option Int) : Prop := ∃ h1 h2, h = h1 ++ .open i l :: h2 ∧ ∀ m, .open i m ∉ h1

/-- At some chunk of the connection's bytes, after the client came, the VNIC has taken its request, and `k` is the level that it had then. -/
def Answered (c : Cfg) (a : Addr) (h : List Ev) (i : Nat) (l : Option Int) (k : Nat) : Prop :=
  ∃ h1 n h2, h = h1 ++ .toVnic i n :: h2 ∧ Opened h1 i l ∧ k = levelAfter (vnicLevel c a h1) l ∧ vnicLevel c a (h1 ++ [.toVnic i n]) = k

end Verif.LevelNet
