/-! # Deferred (common/io/ui/AsyncIODeferred.py)

A `Deferred` with its `asyncio.Future` and the event loop that runs the done callbacks. Not modelled: what the functions themselves do (asyncio logs an exception of a
done callback and goes on), values of `set_exception` that it refuses. -/
namespace Verif.Deferred

/-- A result or an exception: which one, and its truth value. -/
structure Val where
  name : Nat
  truthy : Bool
  deriving DecidableEq

/-- State of the future. -/
inductive Fut where
  | pending
  | result (v : Val)
  | exception (v : Val)
  | cancelled
  deriving DecidableEq

/-- Whether a function was added with `addCallback` or with `addErrback`. -/
inductive Kind where
  | callback
  | errback
  deriving DecidableEq

/-- What can be seen: a function is called; `InvalidStateError` in `callback` or `errback`. -/
inductive Eff where
  | called (f : Nat) (v : Val)
  | invalidState
  deriving DecidableEq

structure St where
  fut : Fut
  waiting : List (Kind × Nat)       -- done callbacks of the future
  ready : List (Kind × Nat)         -- scheduled in the event loop
  out : List Eff

/-- `Deferred()` (AsyncIODeferred.py:6-7). -/
def St.init : St := ⟨.pending, [], [], []⟩

/-- `__cb` and `__eb` (AsyncIODeferred.py:9-14, 23-28) of a future that is done: `fut.result()` raises for an exception, both raise for a cancelled future;
`fut.exception()` is `None` for a result. -/
def fire (fut : Fut) : Kind × Nat → List Eff
  | (.callback, f) => match fut with
    | .result v => if v.truthy then [.called f v] else []
    | _ => []
  | (.errback, f) => match fut with
    | .exception v => if v.truthy then [.called f v] else []
    | _ => []

/-- The future is done: its callbacks are scheduled (asyncio.Future). -/
def settle (s : St) (x : Fut) : St := { s with fut := x, ready := s.ready ++ s.waiting, waiting := [] }

inductive Ev where
  | add (k : Kind) (f : Nat)        -- `addCallback`, `addErrback`
  | callback (v : Val)
  | errback (v : Val)
  | cancel                          -- somebody cancels the future that `callback` returns
  | run                             -- the loop runs one scheduled function
  deriving DecidableEq

/-- One event (AsyncIODeferred.py:16-21, 30-35). -/
def step (s : St) : Ev → St
  | .add k f => match s.fut with
    | .pending => { s with waiting := s.waiting ++ [(k, f)] }
    | _ => { s with ready := s.ready ++ [(k, f)] }
  | .callback v => match s.fut with
    | .pending => settle s (.result v)
    | _ => { s with out := s.out ++ [.invalidState] }
  | .errback v => match s.fut with
    | .pending => settle s (.exception v)
    | _ => { s with out := s.out ++ [.invalidState] }
  | .cancel => match s.fut with
    | .pending => settle s .cancelled
    | _ => s
  | .run => match s.ready with
    | [] => s
    | c :: l => { s with ready := l, out := s.out ++ fire s.fut c }

/-- A history. -/
def exec (s : St) : List Ev → St
  | [] => s
  | e :: h => exec (step s e) h

end Verif.Deferred
