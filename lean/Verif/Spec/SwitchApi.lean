import Verif.Model.SwitchApi
import Verif.Spec.Unreliable
import Verif.Spec.Switch
/-! # Specification of a switch under its management API

Everything is said in terms of the history alone. -/
namespace Verif.SwitchApi

/-- The pairs of integers that were set with `set-error-rate`, on an unreliable switch. -/
def errorsSet (c : Cfg) (h : List Ev) : List (Int × Int) := h.flatMap fun
  | .request v [a, b] => if c.unreliable ∧ v = "set-error-rate".toList then
      (match pyInt a, pyInt b with
        | some e, some n => [(e, n)]
        | _, _ => [])
    else []
  | _ => []

/-- The rates and delays that were set with `set-delay-rate`. -/
def delaysSet (c : Cfg) (h : List Ev) : List (Rate × Str) := h.flatMap fun
  | .request v [a, b] => if c.unreliable ∧ v = "set-delay-rate".toList then
      (match pyInt a, c.float b with
        | some r, some d => [(.int r, d)]
        | _, _ => [])
    else []
  | _ => []

/-- The log levels that were set with `set-log-level`. -/
def levelsSet (c : Cfg) (h : List Ev) : List Str := h.flatMap fun
  | .request v [a] => if v = "set-log-level".toList ∧ c.levelOk a then [a] else []
  | _ => []

/-- Errors per bytes: what was set last. -/
def errorRate (c : Cfg) (h : List Ev) : Int × Int := (errorsSet c h).getLastD (1, 102400)

/-- The rate of delayed packets, and their delay: what was set last. -/
def delayRate (c : Cfg) (h : List Ev) : Rate × Str := (delaysSet c h).getLastD (.hundredth, "1.0".toList)

def logLevel (c : Cfg) (h : List Ev) : Str := (levelsSet c h).getLastD "NONE".toList

/-- The life of a connection. -/
def phase (h : List Ev) (i : Nat) : Phase := h.foldl (fun p e =>
  if e = .connect i ∧ p = .fresh then .up else if e = .lost i ∧ p = .up then .gone else p) .fresh

/-- The error rate makes no sense: errors in less than no bytes. -/
def Spoiled (c : Cfg) (h : List Ev) : Prop := c.unreliable = true ∧ 0 < (errorRate c h).1 ∧ (errorRate c h).2 < 0

instance (c : Cfg) (h : List Ev) : Decidable (Spoiled c h) := by unfold Spoiled; exact inferInstance

/-- What an event after the history `h` means for the table of the switch: links that announce an address, and links that are lost. -/
def opsOf (c : Cfg) (h : List Ev) : Ev → List Switch.Op
  | .announce i a => if phase h i = .up ∧ ¬ Spoiled c h then [.register a i] else []
  | .lost i => if phase h i = .up then [.unregister i] else []
  | _ => []

/-- The registrations and unregistrations of the events `es` after the history `h`. -/
def opsFrom (c : Cfg) (h : List Ev) : List Ev → List Switch.Op
  | [] => []
  | e :: es => opsOf c h e ++ opsFrom c (h ++ [e]) es

def ops (c : Cfg) (h : List Ev) : List Switch.Op := opsFrom c [] h

/-- The number of times link `j` was registered. -/
def announcements (r : List Switch.Op) (j : Nat) : Nat := (r.filter fun o => match o with
  | .register _ i => decide (i = j)
  | _ => false).length

/-- The links that a packet to `d` goes to after the registrations (`C27` is about them). -/
def receivers (r : List Switch.Op) (d : Str) : List Nat := match Switch.new.exec r with
  | .error _ => []
  | .ok s => match s.getOutboundLinks d with
    | .error _ => []
    | .ok ls => ls

/-- The packets for link `j` that an event after the history `h` brings. -/
def forLink (c : Cfg) (h : List Ev) (j : Nat) : Ev → List Bytes
  | .send i d data => if phase h i = .up ∧ j ∈ receivers (ops c h) d then [data] else []
  | _ => []

/-- The packets for link `j` in the events `es` after the history `h`. -/
def packetsFrom (c : Cfg) (j : Nat) (h : List Ev) : List Ev → List Bytes
  | [] => []
  | e :: es => forLink c h j e ++ packetsFrom c j (h ++ [e]) es

/-- All packets for link `j`. -/
def packets (c : Cfg) (j : Nat) (h : List Ev) : List Bytes := packetsFrom c j [] h

/-- The packets on a link that wait for a timer. -/
def waiting (l : Link) : List Bytes := l.stack.flatMap fun y => y.pending.map (·.2)

end Verif.SwitchApi
