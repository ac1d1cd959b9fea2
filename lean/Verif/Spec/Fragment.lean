import Verif.Model.Fragment
/-! # Specification of fragmentation -/
namespace Verif.Frag

/-- The packet is a fragment of the message with this identifier. -/
def OfMsg (id : Nat) (w : Wire) : Prop := ∃ i, w.frag = some i ∧ i.fragId = id

instance (id : Nat) (w : Wire) : Decidable (OfMsg id w) :=
  match h : w.frag with
  | none => .isFalse (by rintro ⟨i, hi, _⟩; rw [h] at hi; cases hi)
  | some i => if e : i.fragId = id then .isTrue ⟨i, h, e⟩ else .isFalse (by
      rintro ⟨j, hj, he⟩; rw [h] at hj; cases hj; exact e he)

/-- All packets of a history, in order. -/
def packets : List Ev → List Wire
  | [] => []
  | .data ws :: h => ws ++ packets h
  | .timeout _ :: h => packets h

/-- Every chunk of data completes at most one packet. -/
def OneByOne (h : List Ev) : Prop := ∀ ws, .data ws ∈ h → ws.length ≤ 1

end Verif.Frag

namespace Verif.Frag

/-- What each packet of a chunk by itself gives to deliver: its data, the reassembled message it completes, or
nothing. -/
def results (st : State) : List Wire → List (Option Bytes)
  | [] => []
  | w :: ws => (absorb st w).2 :: results (absorb st w).1 ws

/-- In every chunk, no fragment that leaves its message incomplete comes after a packet that gives something to
deliver. -/
def NoneAfterSome (rs : List (Option Bytes)) : Prop :=
  ∀ (i j : Nat) (d : Bytes), i < j → rs[i]? = some (some d) → rs[j]? ≠ some none

def Settled (st : State) : List Ev → Prop
  | [] => True
  | .data ws :: h => NoneAfterSome (results st ws) ∧ Settled (step st (.data ws)).1 h
  | .timeout i :: h => Settled (step st (.timeout i)).1 h

/-- Packets and timeouts, forgetting how packets were put into chunks. -/
inductive Item where
  | packet (w : Wire)
  | timeout (fragId : Nat)

def items : List Ev → List Item
  | [] => []
  | .data ws :: h => ws.map .packet ++ items h
  | .timeout i :: h => .timeout i :: items h

/-- Delivery as it should be: every packet delivers what it gives by itself. -/
def ideal (st : State) : List Item → State × List Delivery
  | [] => (st, [])
  | .packet w :: l => ((ideal (absorb st w).1 l).1, deliver w (absorb st w).2 ++ (ideal (absorb st w).1 l).2)
  | .timeout i :: l => ideal (step st (.timeout i)).1 l

/-- The part of the input that concerns one fragment identifier. -/
def concerns (id : Nat) : Item → Bool
  | .packet w => decide (OfMsg id w)
  | .timeout i => i == id

end Verif.Frag
