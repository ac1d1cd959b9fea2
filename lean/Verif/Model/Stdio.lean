import Verif.Model.PyStr
/-! # The terminal of the shell (common/io/ui/CLIShell.py: `AdvancedStdio` 12-128)

Two threads: the event loop, and the one of `AdvancedStdio.loop` in the executor (CLIShell.py:43), which reads lines. A step of the second is the code between two points where the other thread
can be seen; `call_soon_threadsafe` puts a job at the end of the queue of the event loop, which runs them in order. What the user types, what `line_received` returns, when futures are done,
when the transport is closed and when the event loop starts and stops are events, so the theorems are about every schedule. Simplifications: `line_received` returns a pair and does not raise
(that of `CLIShell` does not, CLIShell.py:581-587); the event loop is not closed while the thread runs; the waits of one second are polls at any time; `write`, `refreshDisplay` and `incompleteShutdown`
(output only) are not here. -/
namespace Verif.Stdio

/-- The second part of what `line_received` returns (CLIShell.py:91-95): nothing (None or false), a future, or a true value without `add_done_callback`. -/
inductive Outcome where
  | plain
  | fut (n : Nat)
  | other
  deriving DecidableEq

/-- Jobs of the event loop: `make_connection` (CLIShell.py:111), `__protocolProcessLine` (126), the done callback of a future (93), `connection_lost` (128). -/
inductive Job where
  | conn
  | line (l : Str)
  | next
  | lost
  deriving DecidableEq

/-- Where the thread is in `loop` (CLIShell.py:99-128). -/
inductive Phase where
  | boot                 -- before the loop (100-113)
  | top                  -- `while not self.shouldQuit()` (114)
  | reading              -- in `input` (116-117)
  | got (l : Str)        -- line read
  | cleared (l : Str)    -- `__getLine = False` (124-125)
  | waiting              -- `__waitUntilReadyForInput` (84-87)
  | ended
  deriving DecidableEq

inductive Eff where
  | prompt                             -- `input(prompt)` is called
  | typed (l : Str)                    -- and returns
  | conn                               -- `make_connection` of the protocol
  | fed (l : Str) (o : Outcome)        -- `line_received(l)` of the protocol returned
  | futDone (n : Nat)                  -- a future is done
  | closed                             -- `close` or `lose_connection`
  | lost                               -- `connection_lost` of the protocol
  deriving DecidableEq

structure St where
  running : Bool                       -- `__asyncLoop.is_running()`
  getLine : Bool
  quit : Bool
  phase : Phase
  queue : List Job
  pend : List Nat                      -- futures with our done callback (93)
  done : List Nat                      -- futures that are done
  out : List Eff
  deriving DecidableEq

def emit (s : St) (e : Eff) : St := { s with out := s.out ++ [e] }

def post (s : St) (j : Job) : St := { s with queue := s.queue ++ [j] }

/-- `AdvancedStdio.__init__` (CLIShell.py:24-43), with the event loop running or not. -/
def St.init (running : Bool) : St := ⟨running, false, false, .boot, [], [], [], []⟩

/-- `shouldQuit` (CLIShell.py:79-82). -/
def shouldQuit (s : St) : Bool := !s.running || s.quit

/-- `getNextInput` (CLIShell.py:61-64). -/
def getNextInput (s : St) : St := { s with getLine := true }

/-- The end of `loop` (CLIShell.py:128). -/
def finish (s : St) : St := post { s with phase := .ended } .lost

/-- A step of the thread (CLIShell.py:84-87, 99-128). -/
def thread (s : St) : St := match s.phase with
  | .boot => { post s .conn with getLine := true, phase := .top }
  | .top => if shouldQuit s then finish s else emit { s with phase := .reading } .prompt
  | .reading => s
  | .got l => { s with getLine := false, phase := .cleared l }
  | .cleared l => { post s (.line l) with phase := .waiting }
  | .waiting => if s.getLine || shouldQuit s then { s with phase := .top } else s
  | .ended => s

/-- `input` returns (CLIShell.py:117). -/
def typeLine (s : St) (l : Str) : St := match s.phase with
  | .reading => emit { s with phase := .got l } (.typed l)
  | _ => s

/-- `input` raises, at the end of the input (CLIShell.py:118-120). -/
def eof (s : St) : St := match s.phase with
  | .reading => finish s
  | _ => s

/-- `__protocolProcessLine` (CLIShell.py:89-97), after `line_received`. A future that is done already gets its callback called soon (asyncio). For a true value without
`add_done_callback` there is an `AttributeError`, which is printed. -/
def processed (s : St) : Outcome → St
  | .plain => getNextInput s
  | .fut n => if n ∈ s.done then post s .next else { s with pend := s.pend ++ [n] }
  | .other => s

/-- A job of the event loop (CLIShell.py:61-64, 89-97, 111, 128). -/
def runJob (s : St) (o : Outcome) : Job → St
  | .conn => emit s .conn
  | .line l => processed (emit s (.fed l o)) o
  | .next => getNextInput s
  | .lost => emit s .lost

/-- The event loop takes the next job (CLIShell.py:111, 126, 128: `call_soon_threadsafe`). -/
def loopStep (s : St) (o : Outcome) : St :=
  if s.running then match s.queue with
    | [] => s
    | j :: q => runJob { s with queue := q } o j
  else s

/-- A future is done: its callbacks are called soon (CLIShell.py:93; asyncio). -/
def futDone (s : St) (n : Nat) : St :=
  if n ∈ s.done then s
  else emit { s with done := s.done ++ [n], queue := s.queue ++ (s.pend.filter (· = n)).map (fun _ => .next), pend := s.pend.filter (· ≠ n) } (.futDone n)

inductive Ev where
  | thread
  | type (l : Str)
  | eof
  | loop (o : Outcome)
  | done (n : Nat)
  | close                 -- `close`, `lose_connection` (CLIShell.py:66-72)
  | start
  | stop
  deriving DecidableEq

def step (s : St) : Ev → St
  | .thread => thread s
  | .type l => typeLine s l
  | .eof => eof s
  | .loop o => loopStep s o
  | .done n => futDone s n
  | .close => emit { s with quit := true } .closed
  | .start => { s with running := true }
  | .stop => { s with running := false }

def exec (s : St) : List Ev → St
  | [] => s
  | e :: h => exec (step s e) h

end Verif.Stdio
