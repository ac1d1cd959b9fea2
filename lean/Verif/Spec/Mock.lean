import Verif.Model.Mock
/-! # What tests rely on (C78), in terms of what happens (the log) -/
namespace Verif.Mock

/-- The writes on transport `i` while it is open, with their times. -/
def writes (log : List Ev) (i : Bool) : List (Bytes × Int) := log.filterMap fun
  | .wrote j d now => if j = i then some (d, now) else none
  | _ => none

/-- What protocol `i` receives, with the times. -/
def received (log : List Ev) (i : Bool) : List (Bytes × Int) := log.filterMap fun
  | .got j d now => if j = i then some (d, now) else none
  | _ => none

/-- What is written to the stream of transport `i`. -/
def storedData (log : List Ev) (i : Bool) : List Bytes := log.filterMap fun
  | .stored j d => if j = i then some d else none
  | _ => none

/-- How often protocol `i` is told that the connection is lost. -/
def losses (log : List Ev) (i : Bool) : Nat := log.count (.lost i)

/-- Writes and data. -/
def Ev.isData : Ev → Bool
  | .wrote .. | .stored .. | .got .. | .gotInt .. => true
  | _ => false

/-- The functions given to the loop: number and time. -/
def calledOf (log : List Ev) : List (Nat × Int) := log.filterMap fun
  | .called n due => some (n, due)
  | _ => none

/-- The functions that the loop has run: number and time. -/
def ranOf (log : List Ev) : List (Nat × Int) := log.filterMap fun
  | .ran n now => some (n, now)
  | _ => none

/-- The loop still has to run function `n`, for time `due`. -/
def Waiting (log : List Ev) (n : Nat) (due : Int) : Prop := (n, due) ∈ calledOf log ∧ n ∉ (ranOf log).map (·.1)

/-- Whenever the loop runs a function, it is waiting, its time has come, and it is the first one: no other one that is waiting has an earlier time, or the same time and was given
to the loop earlier. -/
def Ordered (log : List Ev) : Prop := ∀ l1 n now l2, log = l1 ++ .ran n now :: l2 →
  ∃ due, Waiting l1 n due ∧ due ≤ now ∧ ∀ m due', Waiting l1 m due' → due < due' ∨ (due = due' ∧ n ≤ m)

/-- The test leaves the transports' settings as they are and never turns the clock back. -/
def Act.plain : Act → Bool
  | .cmd _ => true
  | .advance dt _ => decide (0 ≤ dt)
  | .runOnce _ => true
  | _ => false

/-- Neither delays nor protocols are set. -/
def Act.steady : Act → Bool
  | .setDelay .. | .setProto _ => false
  | _ => true

/-- No delay is set. -/
def Act.direct : Act → Bool
  | .setDelay .. => false
  | _ => true

/-- A pair of transports between two protocols, with delays. -/
def delayed {σ} (app : σ) (delay : Bool → Int) : St σ := ⟨fun i => ⟨true, false, 0, true, delay i, .remote⟩, app, 0, [], 0, []⟩

/-- The second list has the data of the first in the same order, and nothing came before its time. -/
def Delivered : List (Bytes × Int) → List (Bytes × Int) → Prop
  | [], [] => True
  | (d, due) :: ws, (d', now) :: rs => d' = d ∧ due ≤ now ∧ Delivered ws rs
  | _, _ => False

/-- When the writes on transport `i` are due on the other side. -/
def dues (log : List Ev) (i : Bool) (delay : Int) : List (Bytes × Int) := (writes log i).map fun p => (p.1, p.2 + delay)

/-- How one action may end in a test whose protocols and functions raise nothing and that is not too deep. -/
def Out.ok : Out → Bool
  | .raised _ => false
  | _ => true

end Verif.Mock
