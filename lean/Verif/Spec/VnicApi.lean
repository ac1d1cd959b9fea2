import Verif.Model.VnicApi
import Verif.Spec.Launch
import Verif.Spec.Logging
/-! # Specification of a VNIC under its management API

Everything is said in terms of the history alone. -/
namespace Verif.VnicApi

/-- The levels that were asked for, by management requests, by packets on control connections and by the program itself. -/
def levelsAsked (h : List Ev) : List Int := h.flatMap fun
  | .request v [a] => if v = "set-promiscuity-level".toList then (pyInt a).toList else []
  | .packet (some l) => [l]
  | .env (.setLevel l) => [l.getD 0]
  | _ => []

/-- The level in force: the last that was asked for, brought into the range from 0 to 4; 0 before any was. -/
def promLevel (h : List Ev) : Nat := (min (max ((levelsAsked h).getLastD 0) 0) 4).toNat

/-- The arguments of `set-log-level`. -/
def logRequests (h : List Ev) : List Str := h.flatMap fun
  | .request v [a] => if v = "set-log-level".toList then [a] else []
  | _ => []

/-- A log level that logging can be set to: NONE and TEST need no log file. -/
def Settable (file : Bool) (l : Str) : Prop :=
  l ∈ ["NONE".toList, "TEST".toList] ∨ (l ∈ ["MINIMAL".toList, "QUIET".toList, "VERBOSE".toList, "DEBUG".toList, "MAX".toList] ∧ file = true)

instance (file : Bool) (l : Str) : Decidable (Settable file l) := by unfold Settable; exact inferInstance

/-- Those of the log levels (numbered from `n` as calls of `EnablePresetLogging`) that could be set. -/
def goodFrom (ok : Nat → Bool) : Nat → List Str → List Str
  | _, [] => []
  | n, l :: ls => if Settable (ok n) l then l :: goodFrom ok (n + 1) ls else goodFrom ok (n + 1) ls

/-- The log level that was last set with success; call 0 was that of the start. -/
def logLevel (c : Cfg) (h : List Ev) : Str := (goodFrom c.fileOk 1 (logRequests h)).getLastD "NONE".toList

/-- The same history without management and control connections, for the daemon of `C68`. -/
def daemonEvents (h : List Ev) : List Launch.Ev := h.flatMap fun
  | .env e => [e]
  | .packet (some l) => [.setLevel (some l)]
  | .request v [a] => if v = "set-promiscuity-level".toList then ((pyInt a).toList.map fun l => .setLevel (some l)) else []
  | _ => []

/-- What the log levels promise (comments at logging.py:207-213 and in `EnablePresetLogging`): the least level of a message that goes to stderr, and to the log
file. -/
def meanings : List (Str × Option Nat × Option Nat) :=
  [("NONE".toList, none, none), ("MINIMAL".toList, none, some 40), ("QUIET".toList, none, some 20), ("VERBOSE".toList, some 40, some 10),
   ("DEBUG".toList, some 0, some 0), ("TEST".toList, some 0, none), ("MAX".toList, some 0, some 10)]

/-- Where a message of level `l` of logger `name` goes (0 is stderr, the others log files). -/
def logged (s : St) (name : Str) (l : Nat) : List Nat := Logging.writers s.log name l

end Verif.VnicApi
