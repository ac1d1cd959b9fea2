import Verif.Model.Query
/-! # Specification of `query` (C88) -/
namespace Verif.Spmp.Ask

/-- The requests that were written, with their ids. -/
def sents (l : List Obs) : List (Nat × Nat) := l.filterMap fun o => match o with | .sent i id => some (i, id) | .came _ _ => none
/-- The ids of the responses that came. -/
def cames (l : List Obs) : List (Option Int) := l.filterMap fun o => match o with | .came id _ => some id | .sent _ _ => none

/-- The peer answers the requests in the order in which they came, each at most once, and no two requests have the same id. -/
structure InOrder (log : List Obs) : Prop where
  different : ((sents log).map (·.2)).Nodup
  order : ∀ l1 l2, log = l1 ++ l2 → cames l1 <+: (sents l1).map fun x => some (x.2 : Int)

/-- Nothing is left to do for the event loop: no task to notify, no woken call. -/
def Idle (s : St) : Prop := s.notes = 0 ∧ s.woken = []

/-- The steps of the event loop that need nothing from outside. -/
def Ev.own : Ev → Prop
  | .notify => True
  | .resume _ => True
  | _ => False

/-- The response to the call is there. -/
def Answered (s : St) (i : Nat) : Prop := s.cli.answer (s.key i) ≠ none

end Verif.Spmp.Ask
