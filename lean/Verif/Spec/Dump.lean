import Verif.Model.Vnic
/-! # Specification of dumping (C92) -/
namespace Verif.Vnic

/-- The packets that were copied to the control connection `p`. -/
def dumpsOf (p : Nat) (l : List Eff) : List (Key × Bytes) := l.filterMap fun e => match e with
  | .dump q k d => if q = p then some (k, d) else none
  | _ => none

/-- The packets that arrived from the network while the control connection `p` was dumping. `up`: it is connected; `on`: it is dumping. -/
def seen (p : Nat) : Bool → Bool → List Ev → List (Key × Bytes)
  | _, _, [] => []
  | up, on, .ctlMade q :: h => seen p (up || decide (q = p)) on h
  | up, on, .ctlLost q :: h => if q = p then seen p false false h else seen p up on h
  | up, on, .startDump q :: h => if q = p then seen p up up h else seen p up on h
  | up, on, .stopDump q :: h => if q = p then seen p up false h else seen p up on h
  | up, on, .data k d :: h => if on then (k, d) :: seen p up on h else seen p up on h
  | up, on, _ :: h => seen p up on h

def isDump : Eff → Bool
  | .dump _ _ _ => true
  | _ => false

def dumpEv : Ev → Bool
  | .startDump _ => true
  | .stopDump _ => true
  | _ => false

end Verif.Vnic
