import Verif.Model.LogHandlers
import Verif.Spec.Logging
/-! # What a handler is set to

Vocabulary of C113. Histories have their last call at their head. -/
namespace Verif.Logging

/-- The level of the last `enableLogging`. -/
def rootSetting : List Call → Option Nat
  | [] => none
  | .root level _ :: _ => some level
  | _ :: past => rootSetting past

/-- The modules added by the last `enableLogging` that added some. -/
def addedBy : List Call → List Str
  | [] => []
  | .root _ (m :: ms) :: _ => m :: ms
  | _ :: past => addedBy past

/-- What handler `h` is set to, if it is enabled: its level, its modules, its tags. The last call that concerns it says it. -/
def setting (h : Nat) : List Call → Option (Nat × List Str × Tags)
  | [] => none
  | .root _ _ :: past => setting h past
  | .enable k level specific tags :: past => if k = h then some (level, specific.getD ["playground".toList] ++ addedBy past, tags) else setting h past
  | .disable k :: past => if k = h then none else setting h past
  | .clear :: _ => none

/-- All handlers were never cleared while `h` was enabled. -/
def NotCleared (h : Nat) : List Call → Prop
  | [] => True
  | .clear :: past => setting h past = none ∧ NotCleared h past
  | _ :: past => NotCleared h past

/-- The tag of the logger, if it has one, is let through. -/
def TagOk (tags : Tags) (name : Str) : Prop := ∀ t, HasTag name t → match tags with
  | .all => True
  | .only l => t ∈ l

/-- A message is for a handler that is set to this: its level is high enough (or it has none), the logger is below one of the modules (or there are none), and its tag is let through. -/
def For (x : Nat × List Str × Tags) (name : Str) (level : Nat) : Prop :=
  (level = 0 ∨ x.1 ≤ level) ∧ (x.2.1 = [] ∨ ∃ m ∈ x.2.1, Under m name) ∧ TagOk x.2.2 name

end Verif.Logging
