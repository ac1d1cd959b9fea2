import Verif.Model.Promiscuous
import Verif.Spec.Switch
/-! # Specification of the promiscuous level -/
namespace Verif.Prom

/-- The address `z.n.d.i` with the last `l` components replaced by wild cards. -/
def wild (z n d i : Nat) : Nat → Str
  | 0 => dotted (dec z) (dec n) (dec d) (dec i)
  | 1 => dotted (dec z) (dec n) (dec d) ['*']
  | 2 => dotted (dec z) (dec n) ['*'] ['*']
  | 3 => dotted (dec z) ['*'] ['*'] ['*']
  | _ => dotted ['*'] ['*'] ['*'] ['*']

/-- The level a caller asked for: none and negative numbers are 0, and 4 is the largest. -/
def asked : Option Int → Nat
  | none => 0
  | some l => (min (max l 0) 4).toNat

/-- The level after a history: what was asked for last, 0 at the beginning. -/
def levelFrom (l : Nat) : List Ev → Nat
  | [] => l
  | .setLevel x :: h => levelFrom (asked x) h
  | _ :: h => levelFrom l h

def level (h : List Ev) : Nat := levelFrom 0 h

/-- State of the connection to the switch. -/
inductive Phase where
  | idle                -- no connection
  | opening (n : Nat)   -- the factory was called, `n` is the new link
  | up (n : Nat)
  deriving DecidableEq

/-- How the phase changes; `none`: this is not how `ConnectToSwitchTask` (launch_vnic.py:94-118) uses the VNIC, which opens a new
connection only when there is none. -/
def nextPhase (count : Nat) : Phase → Ev → Option Phase
  | p, .setLevel _ => some p
  | .idle, .factory => some (.opening count)
  | .opening _, .factory => some (.opening count)
  | .opening n, .made m => if m = n then some (.up n) else none
  | .up n, .lost m => if m = n then some .idle else none
  | _, _ => none

/-- The phase after a history, `count` links having been created before it. -/
def phaseFrom (count : Nat) (p : Phase) : List Ev → Option Phase
  | [] => some p
  | e :: h => match nextPhase count p e with
    | none => none
    | some p' => phaseFrom (if e = .factory then count + 1 else count) p' h

def phase (h : List Ev) : Option Phase := phaseFrom 0 .idle h

/-- The announcements made on a link. -/
def announced (n : Nat) (out : List Eff) : List Str := out.filterMap fun
  | .announce m a => if m = n then some a else none
  | _ => none

/-- Two addresses agree in all but their last `l` components. -/
def sameBlock (l : Nat) (z n d i z' n' d' i' : Nat) : Prop :=
  (l < 4 → z = z') ∧ (l < 3 → n = n') ∧ (l < 2 → d = d') ∧ (l < 1 → i = i')

end Verif.Prom
