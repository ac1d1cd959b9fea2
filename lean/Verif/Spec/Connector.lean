import Verif.Model.Connector
/-! # Vocabulary for `create_connection` and `create_server` -/
namespace Verif.Connect
open Verif.Cli (Kind)

/-- Call `i` has returned the application on callback connection `n`. -/
def Returned (s : St) (i n : Nat) : Prop := i < s.nCall ∧ (s.call i).stage = .returned n

/-- The application on callback connection `n` was made by the factory given to call `f`. -/
def RunsFor (s : St) (n f : Nat) : Prop := ∃ k, Callback.Eff.built n k f ∈ s.cb.out

/-- Call `i` asked the VNIC over control connection `c` with connection id `id`. -/
def Asked (s : St) (i c id : Nat) : Prop := i < s.nCall ∧ (s.call i).via = some (c, id)

/-- Call `i` has got an answer and waits for the callback connection with the id. -/
def Waits (s : St) (i id : Nat) : Prop := i < s.nCall ∧ (s.call i).stage = .waiting id

/-- No call over another control connection has used the connection id of call `i`. -/
def OwnId (s : St) (i : Nat) : Prop := ∀ c id j c', Asked s i c id → Asked s j c' id → c' = c

/-- Control connections made in a history (at most). -/
def dials : List Ev → Nat
  | [] => 0
  | .dialOk _ :: h => dials h + 1
  | _ :: h => dials h

/-- At no time do two calls wait for their callback connections. -/
def Alone (h : List Ev) : Prop := ∀ a b, h = a ++ b → ∀ i j id id',
  Waits (exec .init a) i id → Waits (exec .init a) j id' → i = j

/-- The event may bring a new connection of an application. -/
def Ev.brings : Ev → Bool
  | .spawned _ _ _ _ => true
  | .callback _ => true
  | _ => false

end Verif.Connect
