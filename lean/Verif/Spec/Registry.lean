import Verif.Model.Registry
/-! # Specification: what is registered after a history -/
namespace Verif
variable {D : Type}

/-- The definition last registered for `(identifier, version)` since `identifier` was last
unregistered. -/
def registered (m : Str → Ver → Option D) : List (ROp D) → Str → Ver → Option D
  | [] => m
  | .register i v d :: ops => registered (fun i' v' => if i' = i ∧ v' = v then some d else m i' v') ops
  | .unregister i :: ops => registered (fun i' v' => if i' = i then none else m i' v') ops

/-- All versions in the history are non-negative. -/
def NonNeg (ops : List (ROp D)) : Prop := ∀ i v d, ROp.register i v d ∈ ops → 0 ≤ v.major ∧ 0 ≤ v.minor

/-- The order of versions. -/
def Ver.le (v w : Ver) : Prop := v.major < w.major ∨ (v.major = w.major ∧ v.minor ≤ w.minor)

/-- Outcome of the class definitions of a list, in order, given the classes defined already: the first
class with an identifier is accepted; the same version again is a duplicate; another version raises
`NameError`. -/
def outcomes (seen : List (Str × Ver)) : List (Str × Ver × D) → List (Except RErr Unit)
  | [] => []
  | (i, v, _) :: l =>
    match seen.find? (·.1 = i) with
    | none => .ok () :: outcomes (seen ++ [(i, v)]) l
    | some e => .error (if e.2 = v then .dup else .name) :: outcomes seen l

mutual
/-- Names given explicitly to the silos of a program. -/
def Stmt.names : Stmt D → List Str
  | .define _ _ _ _ => []
  | .withSilo name _ body => name.toList ++ Stmt.namesAll body
  | .attempt body => Stmt.namesAll body
  | .raise => []
def Stmt.namesAll : List (Stmt D) → List Str
  | [] => []
  | st :: l => st.names ++ Stmt.namesAll l
end

end Verif
