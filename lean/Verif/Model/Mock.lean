import Verif.Model.Bytes
/-! # network/testing/mock.py and asyncio_lib/testing/TestLoopEx.py: transports and an event loop for tests

Two transports, each the remote of the other or with a stream behind it, and a loop. The protocols and the functions of the test are arbitrary: their
code is a list of instructions that is chosen when they are called, and each instruction may change the state of the test (all of it) and then call a
transport or the loop; so they may write and close while they receive. They do not catch exceptions. Times are integers (of any unit).

`depth` is Python's recursion limit, where a call of one of the methods below counts one. -/
namespace Verif.Mock

/-- The arguments of `data_received`, and `connection_lost`. -/
inductive Input where
  | data (d : Bytes)
  | int (n : Nat)        -- an integer in place of data
  | lost
  deriving DecidableEq

/-- What code of the test can call. -/
inductive Cmd where
  | write (i : Bool) (d : Bytes)
  | close (i : Bool)
  | later (delay : Int) (k : Nat)      -- `call_later(delay, f)`, `call_soon(f)` for delay 0
  | raise (k : Nat)
  deriving DecidableEq

inductive Err where
  | noRemote         -- "Write failed! No remote destination configured yet"
  | remoteClosed     -- "Write failed! Remote protocol already appears closed"
  | typeError        -- wrong number or type of the arguments
  | noLoop           -- None has no attribute call_later
  | own (k : Nat)    -- raised by code of the test
  | recursion        -- RecursionError
  deriving DecidableEq

/-- What a transport writes to. -/
inductive Sink where
  | missing      -- None
  | remote       -- the other transport
  | stream       -- a stream (`MockTransportToStorageStream`)
  deriving DecidableEq

/-- `MockTransportBase` (mock.py:4-11). `None` as delay is 0: only its truth is used. -/
structure Tr where
  proto : Bool      -- whether there is a protocol
  closed : Bool
  count : Nat       -- writeCount
  loop : Bool
  delay : Int
  sink : Sink
  deriving DecidableEq

inductive Task where
  | write (i : Bool) (d : Bytes)
  | close (i : Bool)
  | user (k : Nat)
  deriving DecidableEq

structure Entry where
  due : Int
  num : Nat
  task : Task
  deriving DecidableEq

/-- What happens, with the loop's time. -/
inductive Ev where
  | wrote (i : Bool) (d : Bytes) (now : Int)     -- `write` on an open transport
  | stored (i : Bool) (d : Bytes)                -- a stream was written to
  | got (i : Bool) (d : Bytes) (now : Int)       -- `data_received`
  | gotInt (i : Bool) (n : Nat)                  -- `data_received` with an integer
  | closing (i : Bool)                           -- `close` on an open transport
  | lost (i : Bool)                              -- `connection_lost`
  | called (num : Nat) (due : Int)               -- `call_later`
  | ran (num : Nat) (now : Int)                  -- the loop runs the function
  deriving DecidableEq

structure St (σ : Type) where
  t : Bool → Tr
  app : σ                  -- the protocols and the test
  clock : Int
  sched : List Entry       -- _schedule
  next : Nat
  log : List Ev

abbrev Code (σ : Type) := List (σ → σ × Option Cmd)

structure Cfg (σ : Type) where
  /-- The `call_later` of `TestLoopEx` takes the arguments as one sequence (TestLoopEx.py:38-42), asyncio's takes them one by one. -/
  splat : Bool
  depth : Nat
  recv : Bool → Input → σ → Code σ       -- the protocols
  task : Nat → σ → Code σ                -- the functions given to `call_later`

def St.setT {σ} (s : St σ) (i : Bool) (x : Tr) : St σ := { s with t := fun j => if j = i then x else s.t j }
def St.add {σ} (s : St σ) (e : Ev) : St σ := { s with log := s.log ++ [e] }

/-- One step of a stable sort by time. -/
def insertEntry (x : Entry) : List Entry → List Entry
  | [] => [x]
  | y :: l => if x.due < y.due then x :: y :: l else y :: insertEntry x l

/-- `self._schedule.sort(key=...)` (TestLoopEx.py:42), which is stable. -/
def sortEntries (l : List Entry) : List Entry := l.foldl (fun acc x => insertEntry x acc) []

/-- `call_later` (TestLoopEx.py:38-42). -/
def St.callLater {σ} (s : St σ) (delay : Int) (k : Task) : St σ :=
  { s with sched := sortEntries (s.sched ++ [⟨s.clock + delay, s.next, k⟩]), next := s.next + 1, log := s.log ++ [.called s.next (s.clock + delay)] }

inductive Call where
  | write (i : Bool) (d : Bytes)         -- write
  | rawWrite (i : Bool) (inp : Input)    -- _write
  | close (i : Bool)                     -- close
  | rawClose (i : Bool)                  -- _close
  | ownClose (i : Bool)                  -- MockTransportBase._close
  | recv (i : Bool) (inp : Input)        -- a method of the protocol
  | later (delay : Int) (k : Nat)
  | raise (k : Nat)

def Cmd.call : Cmd → Call
  | .write i d => .write i d
  | .close i => .close i
  | .later dt k => .later dt k
  | .raise k => .raise k

abbrev Rec (σ : Type) := St σ → Call → St σ × Option Err

/-- The instructions, until one raises an exception. -/
def runCode {σ} (rec : Rec σ) : St σ → Code σ → St σ × Option Err
  | s, [] => (s, none)
  | s, ins :: code => match ins s.app with
    | (a, none) => runCode rec { s with app := a } code
    | (a, some cmd) => match rec { s with app := a } cmd.call with
      | (s', some e) => (s', some e)
      | (s', none) => runCode rec s' code

/-- `self.loop.call_later(self.delay, ...)` (mock.py:36, 44). -/
def schedule {σ} (s : St σ) (i : Bool) (k : Task) : St σ × Option Err :=
  if (s.t i).loop then (s.callLater (s.t i).delay k, none) else (s, some .noLoop)

def inputEv (i : Bool) (now : Int) : Input → Ev
  | .data d => .got i d now
  | .int n => .gotInt i n
  | .lost => .lost i

/-- `write` (mock.py:32-38). -/
def writeBody {σ} (rec : Rec σ) (s : St σ) (i : Bool) (d : Bytes) : St σ × Option Err :=
  if (s.t i).closed then (s, none)
  else
    let s1 := (s.setT i { s.t i with count := (s.t i).count + 1 }).add (.wrote i d s.clock)
    if (s1.t i).delay ≠ 0 then schedule s1 i (.write i d) else rec s1 (.rawWrite i (.data d))

/-- `_write` (mock.py:63-69, 80-81). A `BytesIO` refuses an integer. -/
def rawWriteBody {σ} (rec : Rec σ) (s : St σ) (i : Bool) (inp : Input) : St σ × Option Err :=
  match (s.t i).sink with
  | .missing => (s, some .noRemote)
  | .remote => if (s.t !i).proto then rec s (.recv (!i) inp) else (s, some .remoteClosed)
  | .stream => match inp with
    | .data d => (s.add (.stored i d), none)
    | _ => (s, some .typeError)

/-- `close` (mock.py:40-46). -/
def closeBody {σ} (rec : Rec σ) (s : St σ) (i : Bool) : St σ × Option Err :=
  if (s.t i).closed then (s, none)
  else
    let s1 := (s.setT i { s.t i with closed := true }).add (.closing i)
    if (s1.t i).delay ≠ 0 then schedule s1 i (.close i) else rec s1 (.rawClose i)

/-- `_close` (mock.py:71-73; the base class's for a stream). -/
def rawCloseBody {σ} (rec : Rec σ) (s : St σ) (i : Bool) : St σ × Option Err :=
  match (s.t i).sink with
  | .remote => match rec s (.close !i) with
    | (s', some e) => (s', some e)
    | (s', none) => rec s' (.ownClose i)
  | _ => rec s (.ownClose i)

/-- `MockTransportBase._close` (mock.py:24-27). -/
def ownCloseBody {σ} (rec : Rec σ) (s : St σ) (i : Bool) : St σ × Option Err :=
  if (s.t i).proto then
    match rec s (.recv i .lost) with
    | (s', some e) => (s', some e)
    | (s', none) => (s'.setT i { s'.t i with proto := false }, none)
  else (s, none)

def body {σ} (c : Cfg σ) (rec : Rec σ) (s : St σ) : Call → St σ × Option Err
  | .write i d => writeBody rec s i d
  | .rawWrite i inp => rawWriteBody rec s i inp
  | .close i => closeBody rec s i
  | .rawClose i => rawCloseBody rec s i
  | .ownClose i => ownCloseBody rec s i
  | .recv i inp => runCode rec (s.add (inputEv i s.clock inp)) (c.recv i inp s.app)
  | .later dt k => (s.callLater dt (.user k), none)
  | .raise k => (s, some (.own k))

/-- A call with the given number of frames left. -/
def run {σ} (c : Cfg σ) : Nat → Rec σ
  | 0, s, _ => (s, some .recursion)
  | f + 1, s, k => body c (run c f) s k

/-! ## The loop -/

/-- `self._write(*data)` for a delayed write (mock.py:36, TestLoopEx.py:41): `_write` gets the bytes as its arguments, one by one. -/
def runWrite {σ} (c : Cfg σ) (s : St σ) (i : Bool) (d : Bytes) : St σ × Option Err :=
  if c.splat then match d with
    | [b] => run c c.depth s (.rawWrite i (.int b.toNat))
    | _ => (s, some .typeError)
  else run c c.depth s (.rawWrite i (.data d))

/-- `event_task()` (TestLoopEx.py:21): `f(*args)`. -/
def runTask {σ} (c : Cfg σ) (s : St σ) : Task → St σ × Option Err
  | .user k => runCode (run c c.depth) s (c.task k s.app)
  | .close i => run c c.depth s (.rawClose i)
  | .write i d => runWrite c s i d

inductive Out where
  | done
  | raised (e : Err)
  | running        -- still at it after the given number of rounds
  deriving DecidableEq

/-- The first entry is taken off the schedule (TestLoopEx.py:20). -/
def St.pop {σ} (s : St σ) (e : Entry) (rest : List Entry) : St σ := { s with sched := rest, log := s.log ++ [.ran e.num s.clock] }

/-- `_test_run_once` (TestLoopEx.py:18-21), `n` rounds of it. -/
def runOnce {σ} (c : Cfg σ) : Nat → St σ → St σ × Out
  | 0, s => (s, .running)
  | n + 1, s => match s.sched with
    | [] => (s, .done)
    | e :: rest =>
      if e.due ≤ s.clock then
        match runTask c (s.pop e rest) e.task with
        | (s', some x) => (s', .raised x)
        | (s', none) => runOnce c n s'
      else (s, .done)

/-- What the test does. -/
inductive Act where
  | cmd (k : Cmd)
  | advance (dt : Int) (n : Nat)                -- `_test_advance_time` (TestLoopEx.py:14-16)
  | runOnce (n : Nat)
  | setClock (now : Int)                        -- `_test_set_clock` (TestLoopEx.py:11-12)
  | setDelay (i loop : Bool) (delay : Int)      -- `setWriteDelay` (mock.py:16-22)
  | setProto (i : Bool)                         -- `setMyProtocol` (mock.py:13-14)
  deriving DecidableEq

def outOf : Option Err → Out
  | none => .done
  | some e => .raised e

/-- `setWriteDelay` (mock.py:16-22). -/
def setDelay (x : Tr) (loop : Bool) (delay : Int) : Tr :=
  if loop = false ∧ delay > 0 then { x with loop := false, delay := 0 } else { x with loop := loop, delay := delay }

def act {σ} (c : Cfg σ) (s : St σ) : Act → St σ × Out
  | .cmd k => ((run c c.depth s k.call).1, outOf (run c c.depth s k.call).2)
  | .advance dt n => runOnce c n { s with clock := s.clock + dt }
  | .runOnce n => runOnce c n s
  | .setClock now => ({ s with clock := now }, .done)
  | .setDelay i loop delay => (s.setT i (setDelay (s.t i) loop delay), .done)
  | .setProto i => (s.setT i { s.t i with proto := true }, .done)

/-- A test: the final state, and what its actions ended with. -/
def exec {σ} (c : Cfg σ) : St σ → List Act → St σ × List Out
  | s, [] => (s, [])
  | s, a :: h => ((exec c (act c s a).1 h).1, (act c s a).2 :: (exec c (act c s a).1 h).2)

/-- A transport as it is created (mock.py:4-11). -/
def Tr.new (proto : Bool) (sink : Sink) : Tr := ⟨proto, false, 0, false, 0, sink⟩

/-- `CreateTransportPair` (mock.py:52-58), `TestLoopEx()` (TestLoopEx.py:5-9). -/
def St.pair {σ} (app : σ) (proto : Bool → Bool) : St σ := ⟨fun i => .new (proto i) .remote, app, 0, [], 0, []⟩

/-- Two transports with a stream each (mock.py:75-78). -/
def St.streams {σ} (app : σ) (proto : Bool → Bool) : St σ := ⟨fun i => .new (proto i) .stream, app, 0, [], 0, []⟩

end Verif.Mock
