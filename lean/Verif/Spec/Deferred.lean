import Verif.Model.Deferred
/-! # Specification vocabulary for C95 -/
namespace Verif.Deferred

/-- The first `callback`, `errback` or cancellation of a history decides. -/
def decision : List Ev → Fut
  | [] => .pending
  | .callback v :: _ => .result v
  | .errback v :: _ => .exception v
  | .cancel :: _ => .cancelled
  | _ :: h => decision h

/-- The functions added with `addCallback` (`addErrback`), in order. -/
def added (k : Kind) : List Ev → List Nat
  | [] => []
  | .add k' f :: h => if k' = k then f :: added k h else added k h
  | _ :: h => added k h

/-- The calls that the functions should get: those of `addCallback` the result, those of `addErrback` the exception. -/
def owed (h : List Ev) : List (Nat × Val) := match decision h with
  | .result v => (added .callback h).map fun f => (f, v)
  | .exception v => (added .errback h).map fun f => (f, v)
  | _ => []

/-- The calls made. -/
def calls : List Eff → List (Nat × Val)
  | [] => []
  | .called f v :: l => (f, v) :: calls l
  | .invalidState :: l => calls l

/-- How often `callback` or `errback` raised. -/
def refused : List Eff → Nat
  | [] => 0
  | .invalidState :: l => refused l + 1
  | _ :: l => refused l

/-- The number of `callback` and `errback` calls. -/
def settles : List Ev → Nat
  | [] => 0
  | .callback _ :: h => settles h + 1
  | .errback _ :: h => settles h + 1
  | _ :: h => settles h

/-- The decision is not a false value. -/
def Truthy : Fut → Prop
  | .result v => v.truthy = true
  | .exception v => v.truthy = true
  | _ => True

/-- Whether `callback` or `errback` has been accepted. -/
def accepted : Fut → Nat
  | .result _ => 1
  | .exception _ => 1
  | _ => 0

end Verif.Deferred
