import Verif.Model.Launch
import Verif.Spec.Promiscuous
/-! # What the user of the VNIC daemon sees -/
namespace Verif.Launch

/-- What the daemon is at, judged by what could be seen of it. -/
inductive Mode where
  | waiting (since : Nat)    -- the last attempt failed or the link was lost at this time
  | trying                   -- an attempt has begun
  | linked (tx : Nat)        -- a link is established
  deriving DecidableEq

/-- The histories that may be seen: a first attempt; an attempt fails or gives a link; a link is at some time lost; a new attempt begins at
least 30 seconds after that. Never two attempts or links at a time. -/
inductive Trace : List (Nat × Out) → Mode → Prop where
  | first (t : Nat) : Trace [(t, .dial)] .trying
  | refused {l : List (Nat × Out)} (t : Nat) : Trace l .trying → Trace (l ++ [(t, .refused)]) (.waiting t)
  | up {l : List (Nat × Out)} (t tx : Nat) : Trace l .trying → Trace (l ++ [(t, .up tx)]) (.linked tx)
  | down {l : List (Nat × Out)} (t tx : Nat) : Trace l (.linked tx) → Trace (l ++ [(t, .down tx)]) (.waiting t)
  | dial {l : List (Nat × Out)} (t t0 : Nat) : Trace l (.waiting t0) → t0 + 30 ≤ t → Trace (l ++ [(t, .dial)]) .trying

/-- Task `k` has still to bring a link or an exception. -/
def Trying (s : St) (k : Nat) : Prop := s.task k = some .dialing ∨ s.task k = some .failed ∨ ∃ tx, s.task k = some (.opening tx)

/-- A timer is set, there is no attempt and no link. -/
def OnlyTimer (s : St) (due : Nat) : Prop := s.timers = [due] ∧ (∀ k, ¬ Trying s k) ∧ s.links = []

/-- There is one attempt, no timer and no link. -/
def OnlyTask (s : St) (k : Nat) : Prop := s.timers = [] ∧ (∀ j, Trying s j ↔ j = k) ∧ s.links = []

/-- There is one link, no timer and no attempt. -/
def OnlyLink (s : St) (tx : Nat) : Prop := s.timers = [] ∧ (∀ k, ¬ Trying s k) ∧ s.links = [tx]

/-- Nothing. -/
def Dead (s : St) : Prop := s.timers = [] ∧ (∀ k, ¬ Trying s k) ∧ s.links = []

/-- The loss of a link is alerted to the reconnecting listener: it comes first, or writing the status file succeeds when a link is lost. -/
def Safe (c : Cfg) (h : List Ev) : Prop := c.statusFirst = false ∨ ∀ tx w, Ev.lost tx w ∈ h → w = .ok

/-- Nothing goes wrong. -/
def Friendly (h : List Ev) : Prop := ∀ e ∈ h, match e with
  | .lost _ _ | .refuse _ => False
  | _ => True

/-- The time that passes. -/
def waits : List Ev → Nat
  | [] => 0
  | .wait n :: h => n + waits h
  | _ :: h => waits h

/-- The level that was last asked for. -/
def levelAfter (h : List Ev) : Nat := Prom.level (h.filterMap fun
  | .setLevel l => some (.setLevel l)
  | _ => none)

/-- The present content of the status file. -/
def file (s : St) : Str := s.files.getLast?.getD []

/-- The status file as the documentation has it: port, address of the switch, status. -/
def fileText (c : Cfg) (up : Bool) : Str :=
  natStr c.port ++ ['\n'] ++ c.switchIp ++ [':'] ++ natStr c.switchPort ++ ['\n'] ++
    (if up then "Connected".toList else "Disconnected".toList)

/-- Every write of the status file succeeds. -/
def WritesOk (h : List Ev) : Prop := ∀ e ∈ h, match e with
  | .made _ w | .lost _ w => w = .ok
  | _ => True

/-- No write of the status file fails after it has begun. -/
def NeverCut (h : List Ev) : Prop := ∀ e ∈ h, match e with
  | .made _ (.cut _) | .lost _ (.cut _) => False
  | _ => True

/-- `word` is a piece of `t`. -/
def Occurs (word t : Str) : Prop := ∃ a b, t = a ++ word ++ b

end Verif.Launch
