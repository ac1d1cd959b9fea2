import Verif.Model.Choose
import Verif.Spec.Pnms
/-! # Vocabulary for the choice of an interface -/
namespace Verif.Choose
open Verif.Pnms (Net Cmd Happen outcomes Mgr)

/-- The commands `cs` have made the network `n`, and `m` is the manager of a service that is made afterwards. -/
structure Made (cs : List Cmd) (n : Net) (m : Mgr) : Prop where
  plain : ∀ c ∈ cs, c.Plain
  net : Happen .init cs (outcomes none cs) n
  service : m = service (Pnms.exec none cs)

/-- Where an interface can be reached: on the local machine, at the port that its process has written to its status file; nowhere if it is not
enabled; and a file that is not there, or has no number, is an error. -/
inductive At (w : World) (k : Str) : Except Err Loc → Prop where
  | up (l : Str) (p : Int) : w.enabled k = true → w.line k = some l → pyInt l = some p → At w k (.ok ⟨some "127.0.0.1".toList, some p⟩)
  | down : w.enabled k = false → At w k (.ok .nowhere)
  | noFile : w.enabled k = true → w.line k = none → At w k (.error .file)
  | noNumber (l : Str) : w.enabled k = true → w.line k = some l → pyInt l = none → At w k (.error .file)

/-- The call uses the interface, or fails because its location is not found. -/
def Uses (w : World) (k : Str) (a : Option Addr) (r : Except Err Choice) : Prop := ∃ x, At w k x ∧
  r = match x with
    | .ok l => .ok ⟨a, k, l⟩
    | .error e => .error e

/-- Servers check the location: an interface that is not enabled (or has port 0) is an error. -/
def Serves (w : World) (k : Str) (a : Option Addr) (r : Except Err Choice) : Prop := ∃ x, At w k x ∧
  r = match x with
    | .ok l => if l = .nowhere ∨ l.port = some 0 then .error .invalid else .ok ⟨a, k, l⟩
    | .error e => .error e

/-- Where an access point can be reached, as it was set up: a managed one like an interface; a remote one at its host and port, a public one at a port without
host, a local one on this machine; a port that is no number is an error. -/
inductive ApAt (w : World) (k : Str) : Pnms.Place → Except Err Loc → Prop where
  | managed (r) : At w k r → ApAt w k .managed r
  | loc (t : Str) (p : Int) : pyInt t = some p → ApAt w k (.loc t) (.ok ⟨some "127.0.0.1".toList, some p⟩)
  | pub (t : Str) (p : Int) : pyInt t = some p → ApAt w k (.pub t) (.ok ⟨none, some p⟩)
  | remote (h t : Str) (p : Int) : pyInt t = some p → ApAt w k (.remote h t) (.ok ⟨some h, some p⟩)
  | bad (pl : Pnms.Place) (t : Str) : pl.port = some t → pyInt t = none → ApAt w k pl (.error .option)

end Verif.Choose
