import Verif.Model.Bijection
/-! # Specification of a bijection: a set of pairs -/
namespace Verif
variable {α : Type} [DecidableEq α]

/-- Is this a chain of `inverseMutable()` calls only (so that mutation is allowed)? -/
def Mutable (p : List BStep) : Bool := p.all (· == .inverseMutable)

/-- Does the chain turn the direction? -/
def turned (p : List BStep) : Bool := p.length % 2 == 1

/-- The pairs after an assignment: the pairs of `k` and the pairs of `v` go, `(k, v)` comes. -/
def assignPair (l : List (α × α)) (k v : α) : List (α × α) := (k, v) :: l.filter fun e => e.1 ≠ k && e.2 ≠ v

/-- The pairs after one operation. -/
def pairsStep (l : List (α × α)) (p : List BStep) : BOp α → List (α × α)
  | .set k v => if Mutable p then (if turned p then assignPair l v k else assignPair l k v) else l
  | .del k => if Mutable p then (if turned p then l.filter (·.2 ≠ k) else l.filter (·.1 ≠ k)) else l

/-- The pairs after a history. -/
def pairs (l : List (α × α)) : List (List BStep × BOp α) → List (α × α)
  | [] => l
  | (p, op) :: ops => pairs (pairsStep l p op) ops

end Verif
