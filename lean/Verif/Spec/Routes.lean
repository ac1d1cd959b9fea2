import Verif.Model.Routes
import Verif.Spec.Address
/-! # Specification of the routes -/
namespace Verif.Routes

/-- The network of an abstract configuration: the routes in the order in which they were added, with their devices, and the default. -/
structure Net where
  routes : List (Str × Str)
  default : Option Str
  deriving DecidableEq

/-- An abstract configuration in memory and the one that a new process will find. -/
structure World where
  mem : Net
  disk : Net
  deriving DecidableEq

def World.init : World := ⟨⟨[], none⟩, ⟨[], none⟩⟩

/-- What the operations mean. A route that exists already cannot be added; only its own device can remove a route. Removing a route
does not reach the disk until something else is written. -/
def World.step (w : World) : Ev → World
  | .add dev r => if r ∈ w.mem.routes.map (·.1) then w
      else let m := { w.mem with routes := w.mem.routes ++ [(r, dev)] }; ⟨m, m⟩
  | .remove dev r => { w with mem := { w.mem with routes := w.mem.routes.filter (· ≠ (r, dev)) } }
  | .setDefault dev => let m := { w.mem with default := some dev }; ⟨m, m⟩
  | .unsetDefault dev => if w.mem.default = some dev then let m := { w.mem with default := none }; ⟨m, m⟩ else w
  | .destroyed dev =>
      let m : Net := ⟨w.mem.routes.filter (·.2 ≠ dev), if w.mem.default = some dev then none else w.mem.default⟩
      ⟨m, m⟩
  | .reload => { w with mem := w.disk }

def World.exec (w : World) : List Ev → World
  | [] => w
  | e :: h => World.exec (w.step e) h

/-- A route as it can be typed: an address block, in lower case and not the word for the default. -/
def Plain (r : Str) : Prop := norm r = r ∧ r ≠ defaultKey

def Ev.Plain : Ev → Prop
  | .add _ r => Routes.Plain r
  | .remove _ r => Routes.Plain r
  | _ => True

/-- The string denotes a block that covers the address, part by part. -/
def Matches (r : Str) (a : Addr) : Prop := ∃ b, Addr.blockFromString r = .ok b ∧ ∀ k : Fin 4, b.at k = .star ∨ b.at k = a.at k

/-- The device of the first route that matches, else the default. -/
inductive Best (n : Net) (a : Addr) : Option Str → Prop where
  | route (l1 l2 : List (Str × Str)) (r dev : Str) : n.routes = l1 ++ (r, dev) :: l2 → Matches r a → (∀ x ∈ l1, ¬ Matches x.1 a) → Best n a (some dev)
  | default : (∀ x ∈ n.routes, ¬ Matches x.1 a) → Best n a n.default

end Verif.Routes
