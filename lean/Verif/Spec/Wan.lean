import Verif.Model.Wan
/-! # Specification of the WAN: a graph -/
namespace Verif.Wan
variable {P : Type} [DecidableEq P]

/-- The prefixes registered and the direct connections, as the callers see them. `ok`: no call of `setDirectConnections` failed half
way since the last one that succeeded. -/
structure Graph (P : Type) where
  nodes : List P
  edge : P → P → Prop
  ok : Prop

/-- Nothing registered. -/
def Graph.empty : Graph P := ⟨[], fun _ _ => False, True⟩

/-- The connections of `r` are replaced by those to `ds`, in both directions. -/
def Graph.replace (g : Graph P) (r : P) (ds : List P) (ok : Prop) : Graph P :=
  ⟨g.nodes, fun u v => (g.edge u v ∧ u ≠ r ∧ v ≠ r) ∨ (u = r ∧ v ∈ ds) ∨ (v = r ∧ u ∈ ds), ok⟩

/-- The effect of a call: for a prefix that is not registered nothing, else the connections of that prefix are replaced; when there is
an unknown prefix in the list, only those before it are connected. -/
def Graph.step (g : Graph P) : Ev P → Graph P
  | .register p => if p ∈ g.nodes then g else { g with nodes := g.nodes ++ [p] }
  | .connect r ds => if r ∈ g.nodes then g.replace r (ds.takeWhile (decide <| · ∈ g.nodes)) (∀ d ∈ ds, d ∈ g.nodes) else g

def Graph.after (g : Graph P) : List (Ev P) → Graph P
  | [] => g
  | e :: h => (g.step e).after h

/-- The graph after a history. -/
def graph (h : List (Ev P)) : Graph P := Graph.empty.after h

/-- `Walk E u [x₁, …, xₙ] v`: `u – x₁ – … – xₙ` are direct connections and `xₙ` (for `n = 0`, `u`) is `v`. -/
def Walk (E : P → P → Prop) : P → List P → P → Prop
  | u, [], v => u = v
  | u, x :: l, v => E u x ∧ Walk E x l v

/-- `n` hops from `u` towards `d`, each to the next hop. -/
def follow (t : Table P) (d : P) : Nat → P → Option P
  | 0, u => some u
  | n + 1, u => match nextHop t u d with
    | none => none
    | some x => follow t d n x

end Verif.Wan
