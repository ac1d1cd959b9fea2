import Verif.Model.Callback
/-! # Vocabulary for the callback service -/
namespace Verif.Callback

/-- Number of connections made in a history. -/
def made : List Ev → Nat
  | [] => 0
  | .conn _ :: h => made h + 1
  | _ :: h => made h

/-- The data received on connection `n` in a history (the `n`-th connection made, from 0), up to its loss; `c`: connections made
before, `l`: lost before. -/
def receivedFrom (n : Nat) : Nat → Bool → List Ev → List Bytes
  | _, _, [] => []
  | c, l, .conn _ :: h => receivedFrom n (c + 1) l h
  | c, l, .announce _ _ _ _ :: h => receivedFrom n c l h
  | c, l, .data m d :: h => if m = n ∧ n < c ∧ l = false then d :: receivedFrom n c l h else receivedFrom n c l h
  | c, l, .lost m :: h => receivedFrom n c (l || (decide (m = n) && decide (n < c))) h

def received (n : Nat) (h : List Ev) : List Bytes := receivedFrom n 0 false h

/-- The effects on connection `n`. -/
def Eff.on : Eff → Nat
  | .built n _ _ => n
  | .push n _ => n
  | .closed n => n
  | .raised n => n

def effectsOn (n : Nat) (l : List Eff) : List Eff := l.filter fun e => e.on = n

/-- The data on connection `n` in a piece of history. -/
def dataOf (n : Nat) : List Ev → List Bytes
  | [] => []
  | .data m d :: h => if m = n then d :: dataOf n h else dataOf n h
  | _ :: h => dataOf n h

/-- The event uses TCP port `p`. -/
def Ev.usesPort (p : Nat) : Ev → Prop
  | .conn q => q = p
  | .announce _ _ _ q => q = p
  | _ => False

end Verif.Callback
