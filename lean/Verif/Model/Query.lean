import Verif.Model.Spmp
/-! # `SPMPClientProtocol.query`: calls that wait for their responses (protocols/spmp.py:33-68, asyncio_lib/SimpleCondition.py)

Several calls of `query` may wait on one protocol object. The event loop is an arbitrary interleaving of the arrival of data, the `awaitNotify` tasks
and the calls that go on. The lock of the condition is never held across a suspension, so it is always free. Without a security policy, as
`NetworkAccessPointDevice.query` makes it. -/
namespace Verif.Spmp.Ask

/-- Where a call of `query` is. -/
inductive Stage where
  | waiting
  | returned (a : Option Str × Option Str)
  | raised
  | cancelled
  deriving DecidableEq

/-- What went over the connection: requests that were written (by which call, with which id), and the responses that came (id, result and error). -/
inductive Obs where
  | sent (i id : Nat)
  | came (id : Option Int) (a : Option Str × Option Str)
  deriving DecidableEq

/-- The protocol object, the calls of `query` (by number), the waiters of the condition in order, those that were woken and did not go on yet, and the
number of `awaitNotify` tasks that did not run yet. `log` is not part of the program. -/
structure St where
  cli : Client
  up : Bool
  nCall : Nat
  key : Nat → Nat
  stage : Nat → Stage
  queue : List Nat
  woken : List Nat
  notes : Nat
  out : List Bytes
  log : List Obs

def St.init (env : Env) (depth : Nat) (cls : Cls) : St := ⟨.init env depth cls, true, 0, fun _ => 0, fun _ => .raised, [], [], 0, [], []⟩

def setStage (s : St) (i : Nat) (x : Stage) : St := { s with stage := fun j => if j = i then x else s.stage j }

/-- `awaitCondition` up to its first suspension (spmp.py:67, SimpleCondition.py:7-13): the call returns at once if there is a response with this id, else it waits. -/
def await (s : St) (i : Nat) : St := match s.cli.answer (s.key i) with
  | some a => setStage s i (.returned a)
  | none => { setStage s i .waiting with queue := s.queue ++ [i] }

/-- A call of `query(cmd, *args)` (spmp.py:57-68) for which `random.randint` gives `id`. It raises if the request cannot be serialized, or if the transport is `None`. -/
def query (env : Env) (cls : Cls) (s : St) (id : Nat) (cmd : Str) (args : List Str) : St :=
  let i := s.nCall
  let s1 := { s with nCall := i + 1, key := fun j => if j = i then id else s.key j }
  match serialize env 0 ((request id cmd args).val cls) with
  | .error _ => setStage s1 i .raised
  | .ok b => if s.up then await { s1 with out := s.out ++ [b], log := s.log ++ [.sent i id] } i else setStage s1 i .raised

/-- The response that an event of the deserializer is: `_responses[requestId] = (result, error)` (spmp.py:51-54). -/
def response (cls : Cls) : Event → Option Obs
  | .error _ => none
  | .packet v => (ofVal cls v).map fun p => .came p.requestId (p.result, p.error)

/-- The responses in a chunk. -/
def responses (env : Env) (depth : Nat) (cls : Cls) (c : Client) (b : Bytes) : List Obs :=
  (((c.des.update b).next env depth cls).1).filterMap (response cls)

/-- `data_received` (spmp.py:48-55): each response makes one `awaitNotify` task (SimpleCondition.py:19-20). -/
def data (env : Env) (depth : Nat) (cls : Cls) (s : St) (b : Bytes) : St :=
  { s with cli := s.cli.data env depth cls b, notes := s.notes + (responses env depth cls s.cli b).length,
           log := s.log ++ responses env depth cls s.cli b }

/-- An `awaitNotify` task runs (SimpleCondition.py:15-17): `asyncio.Condition.notify` wakes the first waiter that is not woken. -/
def notify (s : St) : St := match s.notes, s.queue with
  | 0, _ => s
  | k + 1, [] => { s with notes := k }
  | k + 1, i :: q => { s with notes := k, queue := q, woken := s.woken ++ [i] }

/-- A woken call goes on (SimpleCondition.py:10-12, spmp.py:68): it looks again, and waits again if its response is not there. -/
def resume (s : St) (i : Nat) : St :=
  if i ∈ s.woken then await { s with woken := s.woken.erase i } i else s

/-- A waiting call is cancelled, for example by a timeout of the caller. A notification that had woken it is lost, as in `asyncio.Condition` before Python 3.13. -/
def cancel (s : St) (i : Nat) : St :=
  if s.stage i = .waiting then { setStage s i .cancelled with queue := s.queue.erase i, woken := s.woken.erase i } else s

inductive Ev where
  | query (id : Nat) (cmd : Str) (args : List Str)
  | data (b : Bytes)
  | notify
  | resume (i : Nat)
  | cancel (i : Nat)
  | lost              -- `connection_lost` (spmp.py:45-46)

def step (env : Env) (depth : Nat) (cls : Cls) (s : St) : Ev → St
  | .query id cmd args => query env cls s id cmd args
  | .data b => data env depth cls s b
  | .notify => notify s
  | .resume i => resume s i
  | .cancel i => cancel s i
  | .lost => { s with up := false }

def exec (env : Env) (depth : Nat) (cls : Cls) (s : St) (h : List Ev) : St := h.foldl (step env depth cls) s

end Verif.Spmp.Ask
