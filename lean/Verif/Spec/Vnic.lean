import Verif.Model.Vnic
/-! # Vocabulary for the properties of the VNIC -/
namespace Verif.Vnic

/-- `c` is an open socket on port `p`. -/
def OpenOn (s : St) (c p : Nat) : Prop := (s.ctl c).closed = false ∧ (s.ctl c).port = some p

/-- An open socket listens on port `p`. -/
def Listening (s : St) (p : Nat) : Prop := ∃ c, OpenOn s c p ∧ (s.ctl c).listener = true

/-- The callback connection of some connection of socket `c` is still being opened. -/
def Opening (s : St) (c : Nat) : Prop := ∃ n, n < s.nSpawn ∧ (s.spawn n).control = c ∧ (s.spawn n).stage ≠ .finished

/-- Everything written to callback transport `t`. -/
def written : List Eff → Nat → Bytes
  | [], _ => []
  | .write t' d :: l, t => if t' = t then d ++ written l t else written l t
  | _ :: l, t => written l t

/-- The data that arrives for connection object `i` in a history: the packets whose key, seen from this side, is that of
the connection at that time, in the order of arrival. -/
def arrived (i : Nat) : St → List Ev → Bytes
  | _, [] => []
  | s, .data k d :: h =>
    (if (step s (.data k d)).conns.get k.inverse = some i then d else []) ++ arrived i (step s (.data k d)) h
  | s, e :: h => arrived i (step s e) h

/-- Whether control connection `p` exists after a history (given backwards: the last event first). -/
def isUp : List Ev → Nat → Bool
  | [], _ => false
  | .ctlMade q :: past, p => q = p || isUp past p
  | .ctlLost q :: past, p => q ≠ p && isUp past p
  | _ :: past, p => isUp past p

/-- Whether the connection id `i` is in use on control connection `p` after a history (given backwards): it was used to open a
socket (connect or listen, successful or not) and neither closed nor was the control connection lost since. -/
def idUsed : List Ev → Nat → Nat → Bool
  | [], _, _ => false
  | .openSocket q j r :: past, p, i => (q = p && j = i && isUp past p && decide (r ≠ .other)) || idUsed past p i
  | .closeSocket q j :: past, p, i => !(q = p && j = i && isUp past p) && idUsed past p i
  | .ctlLost q :: past, p, i => !(q = p && isUp past p) && idUsed past p i
  | _ :: past, p, i => idUsed past p i

end Verif.Vnic
