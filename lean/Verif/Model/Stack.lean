import Verif.Model.StreamIO
/-! # Protocol stacks: network/common/Protocol.py (StackingProtocolFactory, StackingProtocol, StackingTransport), and the use of a
stack in devices/vnic/connect.py:99-125 and protocols/vsockets.py:389-402

Protocols are numbered in the order of their creation. What the layers of a stack do with the data is up to their authors: a layer
of kind `k` is given by two functions `up` and `down`, from a state and a chunk of data to a new state and the chunks passed on to
the next higher protocol (in `data_received`) or to the lower transport (in the `write` of the transport it gives to the higher
protocol). A layer passes on `connection_made` to its higher protocol with a transport of its own. The two directions of a layer have
separate states here, and a layer is not called while it is passing on data. -/
namespace Verif.Stack

/-- A protocol or transport that a layer may refer to. -/
inductive Tgt where
  | nobody             -- None
  | obj (n : Nat)      -- a layer (as higher protocol, or the transport it made)
  | app                -- the application protocol
  | wire               -- the transport of the callback connection
  deriving DecidableEq

structure Heap where
  n : Nat                 -- number of objects
  kind : Nat → Nat
  higher : Nat → Tgt      -- _higherProtocol
  lower : Nat → Tgt       -- transport

/-- What the factories produce (Protocol.py:21-33): a layer, or a stack. -/
inductive Factory where
  | layer (k : Nat)
  | stack (fs : List Factory)

inductive Err where
  | unbound        -- UnboundLocalError: the stack has no factories
  | attribute      -- None has no attribute
  deriving DecidableEq

def upd {α} (f : Nat → α) (i : Nat) (x : α) : Nat → α := fun j => if j = i then x else f j

/-- Calling the factory of a layer: `StackingProtocol.__init__` (Protocol.py:45-47). -/
def Heap.new (H : Heap) (k : Nat) : Heap :=
  ⟨H.n + 1, upd H.kind H.n k, upd H.higher H.n .nobody, upd H.lower H.n .nobody⟩

/-- `setHigherProtocol` (Protocol.py:52-53). -/
def Heap.setHigher (H : Heap) (p : Nat) (t : Tgt) : Heap := { H with higher := upd H.higher p t }

mutual
/-- A call of a factory; for a stack `StackingProtocolFactory.__call__` (Protocol.py:35-41). -/
def call : Factory → Heap → Except Err (Nat × Heap)
  | .layer k, H => .ok (H.n, H.new k)
  | .stack fs, H => match callRest fs H with
    | .error e => .error e
    | .ok (.obj p, H1) => .ok (p, H1)
    | .ok (_, _) => .error .unbound
/-- The loop (Protocol.py:37-40), which goes from the last factory to the first: for the factories `f :: fs` it has done `fs` when it
comes to `f`. Returns `topProtocol`. -/
def callRest : List Factory → Heap → Except Err (Tgt × Heap)
  | [], H => .ok (.nobody, H)
  | f :: fs, H => match callRest fs H with
    | .error e => .error e
    | .ok (top, H1) => match call f H1 with
      | .error e => .error e
      | .ok (p, H2) => .ok (.obj p, H2.setHigher p top)
end

/-- `while p.higherProtocol(): p = p.higherProtocol()` (vsockets.py:394-396). -/
def top (H : Heap) : Nat → Nat → Nat
  | 0, p => p
  | f + 1, p => match H.higher p with
    | .obj q => top H f q
    | _ => p

/-- `connection_made` going up from protocol `t`, its transport being `low`. The result includes the transport that the application
gets. -/
def connect : Nat → Heap → Tgt → Tgt → Heap × Tgt
  | 0, H, _, low => (H, low)
  | f + 1, H, .obj p, low => connect f { H with lower := upd H.lower p low } (H.higher p) (.obj p)
  | _ + 1, H, _, low => (H, low)

/-- `stackFactory and stackFactory() or None` (connect.py:104). -/
def makeStack (H : Heap) : Option Factory → Except Err (Tgt × Heap)
  | none => .ok (.nobody, H)
  | some f => match call f H with
    | .error e => .error e
    | .ok (p, H1) => .ok (.obj p, H1)

/-- `buildStack` (connect.py:104) and `setPlaygroundConnectionInfo` (vsockets.py:389-398) for the callback protocol `cb`. The result
includes the transport of the application. -/
def attach (H : Heap) (cb : Nat) (f : Option Factory) : Except Err (Heap × Tgt) :=
  match makeStack H f with
  | .error e => .error e
  | .ok (st, H1) =>
    let H2 := H1.setHigher cb st
    let H3 := H2.setHigher (top H2 H2.n cb) .app
    .ok (connect H3.n H3 (H3.higher cb) .wire)

/-- Chunks one after the other. -/
def passList {α : Type} (step : α → Bytes → Option (α × List Bytes)) : α → List Bytes → Option (α × List Bytes)
  | st, [] => some (st, [])
  | st, c :: cs => match step st c with
    | none => none
    | some (st1, o1) => match passList step st1 cs with
      | none => none
      | some (st2, o2) => some (st2, o1 ++ o2)

/-- One chunk of data given to `t`: `f` is what the layers do, `next` the next one in the direction of travel (`higher` for received
data, `lower` for written data). The result is the new states and the chunks that come out at the end; `none` when a layer passes data
to nobody. -/
def pass {σ : Type} (f : Nat → σ → Bytes → σ × List Bytes) (kind : Nat → Nat) (next : Nat → Tgt) :
    Nat → Tgt → (Nat → σ) → Bytes → Option ((Nat → σ) × List Bytes)
  | 0, _, _, _ => none
  | fuel + 1, .obj n, st, d =>
    passList (pass f kind next fuel (next n)) (upd st n (f (kind n) (st n) d).1) (f (kind n) (st n) d).2
  | _ + 1, .app, st, d => some (st, [d])
  | _ + 1, .wire, st, d => some (st, [d])
  | _ + 1, .nobody, _, _ => none

end Verif.Stack
