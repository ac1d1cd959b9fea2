import Verif.Model.Proc
/-! # Specification vocabulary for C101 -/
namespace Verif.Proc

/-- `ps` prints a header that begins with PID, and one line, that is not blank, for a process. -/
structure Usual (ps : Ps) : Prop where
  oneLine : '\n' ∉ ps.header
  header : ∃ ws rest, (∀ c ∈ ws, isWs c = true) ∧ ps.header = ws ++ "PID".toList ++ rest
  line : ∀ p, '\n' ∉ ps.line p
  text : ∀ p, ∃ c ∈ ps.line p, isWs c = false

/-- The world after `n` seconds of sleep. -/
def after (e : Env) : Nat → OS → OS
  | 0, o => o
  | n + 1, o => after e n (sleep e o)

/-- Others leave the run files alone. -/
structure Keeps (e : Env) : Prop where
  tick : ∀ o, (e.tick o).status = o.status ∧ (e.tick o).pid = o.pid ∧ (e.tick o).lock = o.lock
  term : ∀ p o, (e.term p o).status = o.status ∧ (e.term p o).pid = o.pid ∧ (e.term p o).lock = o.lock

/-- The state of the device in C50: no run files; there is the number of a process that is dead; all run files are there, with the number of a process that is alive. -/
def Shows (o : OS) : Device.Proc → Prop
  | .gone => o.status = false ∧ o.pid = none ∧ o.lock = false
  | .dead => ∃ t p, o.pid = some t ∧ pyInt t = some p ∧ p ≠ 0 ∧ live o p = false
  | .alive => o.status = true ∧ o.lock = true ∧ ∃ t p, o.pid = some t ∧ pyInt t = some p ∧ p ≠ 0 ∧ live o p = true

/-- What comes of the start of a process, in terms of C50, when `cmd` is what the command does: the device is seen to run in time; it is not, and there is nothing to end, or it
ends in time; it is not, and there is the pid file of a process that is dead. -/
def Outcome (e : Env) (ps : Ps) (cmd : OS → OS) (timeout limit : Nat) (o : OS) : Device.Launch → Prop
  | .up => ∃ k, k ≤ timeout ∧ Shows (after e k (cmd o)) .alive ∧ ∀ j, j < k → running ps (after e j (cmd o)) = .ok false
  | .down => (∀ k, k ≤ timeout → running ps (after e k (cmd o)) = .ok false) ∧
      ((after e timeout (cmd o)).pid = none ∨ ∃ t p, (after e timeout (cmd o)).pid = some t ∧ pyInt t = some p ∧
        (p = 0 ∨ live (after e timeout (cmd o)) p = true ∧ ∃ k, k ≤ limit ∧ live (after e k (signal e p (after e timeout (cmd o)))) p = false))
  | .raises true => (∀ k, k ≤ timeout → running ps (after e k (cmd o)) = .ok false) ∧ Shows (after e timeout (cmd o)) .dead
  | .raises false => False

end Verif.Proc
