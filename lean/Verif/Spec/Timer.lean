import Verif.Model.Timer
/-! # Specification of the timer -/
namespace Verif.Timer

/-- When a timer with deadline `D` and extension `e` so far (0: none) fires, if it is extended at the times and by the amounts in the
list: an extension made before the deadline counts from the deadline, and the last one made counts. -/
def fireAt (D e : Nat) : List (Nat × Nat) → Nat
  | [] => D + e
  | (x, e') :: r =>
    if x < D then fireAt D e' r
    else if e = 0 then D
    else if x < D + e then fireAt (D + e) e' r
    else D + e

/-- A schedule of extensions `(t, e)`, in order of time, from time `now` on. -/
def Ordered (now : Nat) : List (Nat × Nat) → Prop
  | [] => True
  | (x, _) :: r => now ≤ x ∧ Ordered x r

/-- The schedule carried out with a loop that is never late, and then time `t` awaited. -/
def carry (s : St) : List (Nat × Nat) → Nat → St
  | [], t => wait (t - s.now) s
  | (x, e) :: r, t => carry (extend (wait (x - s.now) s) e) r t

def isStart : Ev → Bool
  | .start => true
  | _ => false

def isExpire : Ev → Bool
  | .expire => true
  | _ => false

def isExtend : Ev → Bool
  | .extend _ => true
  | _ => false

/-- The time that passed. -/
def elapsed : List Ev → Nat
  | [] => 0
  | .tick n :: h => n + elapsed h
  | _ :: h => elapsed h

end Verif.Timer
