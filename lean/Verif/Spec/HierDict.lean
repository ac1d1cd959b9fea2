import Verif.Model.HierDict
/-! # Specification: an ordinary (flat) dictionary as a function of its history -/
namespace Verif
variable {V : Type}

/-- A flat dictionary with string keys: a partial function. -/
def flatStep (m : Str → Option V) : HOp V → Bool × (Str → Option V)
  | .set k v => (true, fun x => if x = k then some v else m x)
  | .del k => ((m k).isSome, fun x => if x = k then none else m x)

def flatRun (m : Str → Option V) : List (HOp V) → List Bool × (Str → Option V)
  | [] => ([], m)
  | op :: ops => ((flatStep m op).1 :: (flatRun (flatStep m op).2 ops).1, (flatRun (flatStep m op).2 ops).2)

end Verif
