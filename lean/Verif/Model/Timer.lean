/-! # common/Timer.py: `Timer`

One timer and the event loop. Times are natural numbers (of any unit); the loop's clock only moves forward. `call_later(d, f)` gives a
handle that the loop may run as soon as its time has come, in one of its later turns; handles are numbered. -/
namespace Verif.Timer

structure St where
  now : Nat
  delay : Nat                       -- _delay
  task : Option Nat                 -- _task
  handles : List (Nat × Nat)        -- handles neither run nor cancelled, with their times
  next : Nat                        -- number of the next handle
  calls : List Nat                  -- the times at which the callback was called
  err : Bool                        -- AttributeError: 'NoneType' object has no attribute 'cancel'
  deriving DecidableEq

/-- `Timer(period, callback)` created at time `now` (Timer.py:23-28). -/
def St.init (now period : Nat) : St := ⟨now, period, none, [], 0, [], false⟩

/-- `start` (Timer.py:46-49). -/
def start (s : St) : St :=
  { s with delay := 0, task := some s.next, handles := s.handles ++ [(s.next, s.now + s.delay)], next := s.next + 1 }

/-- `self._callback(*self._callbackArgs)`. -/
def callback (s : St) : St := { s with calls := s.calls ++ [s.now] }

/-- `_fireCallback` (Timer.py:30-38). -/
def fireCallback (s : St) : St := if s.delay ≠ 0 then start s else callback s

/-- `extend` (Timer.py:40-41). -/
def extend (s : St) (e : Nat) : St := { s with delay := e }

/-- `self._task.cancel()`: the loop will not run the handle. -/
def cancelTask (s : St) (i : Nat) : St := { s with handles := s.handles.filter (·.1 ≠ i) }

/-- `cancel` (Timer.py:43-44). -/
def cancel (s : St) : St := match s.task with
  | none => { s with err := true }
  | some i => cancelTask s i

/-- `expire` (Timer.py:51-53). -/
def expire (s : St) : St := match s.task with
  | none => { s with err := true }
  | some i => callback (cancelTask s i)

inductive Ev where
  | start
  | extend (e : Nat)
  | cancel
  | expire
  | tick (n : Nat)      -- time passes
  | run (i : Nat)       -- the loop runs handle `i` (if it is there and its time has come)
  deriving DecidableEq

/-- The loop runs a handle. -/
def runHandle (s : St) (i : Nat) : St := match s.handles.find? (·.1 = i) with
  | none => s
  | some (_, w) => if w ≤ s.now then fireCallback (cancelTask s i) else s

def step (s : St) : Ev → St
  | .start => start s
  | .extend e => extend s e
  | .cancel => cancel s
  | .expire => expire s
  | .tick n => { s with now := s.now + n }
  | .run i => runHandle s i

def exec (s : St) : List Ev → St
  | [] => s
  | e :: h => exec (step s e) h

/-- A loop that is never late: one unit of time passes, and then the handle of the timer is run if its time has come. -/
def prompt (s : St) : St :=
  let s1 := { s with now := s.now + 1 }
  match s1.task with
  | none => s1
  | some i => runHandle s1 i

/-- `n` units of time with a loop that is never late. -/
def wait : Nat → St → St
  | 0, s => s
  | n + 1, s => wait n (prompt s)

end Verif.Timer
