import Verif.Model.Stack
/-! # Running a protocol stack: network/common/Protocol.py (StackingProtocol, StackingTransport), protocols/vsockets.py:389-424

The stack is one that has been put on a callback connection (`Stack.attach`). What the layers and the application do is up to their authors:
their code is a program that may change their own state, call the higher protocol and the lower transport at any point, and go on depending on
the outcome of the call (it may catch exceptions). So a protocol may be called while it is itself calling; both directions share its state.
Timers of the protocols are calls from outside.

A transport is identified with the protocol that made it: `write` on the transport made by layer `o` is a call of `o`. -/
namespace Verif.StackRun
open Stack (Tgt Heap)

/-- Calls of a protocol from below. -/
inductive Up where
  | made               -- connection_made
  | data (d : Bytes)   -- data_received
  | lost               -- connection_lost
  deriving DecidableEq

/-- Calls of a transport from above. -/
inductive Dn where
  | write (d : Bytes)
  | close
  | abort
  deriving DecidableEq

inductive Msg where
  | up (u : Up)
  | dn (m : Dn)
  | tick (k : Nat)     -- the event loop calls a method of the protocol
  deriving DecidableEq

/-- What a protocol can call: a method of `self.higherProtocol()` or of `self.transport`. -/
inductive Cmd where
  | up (u : Up)
  | down (m : Dn)
  deriving DecidableEq

inductive Err where
  | attribute      -- AttributeError: None has no attribute
  | recursion      -- RecursionError
  | own (k : Nat)  -- raised by a protocol
  deriving DecidableEq

/-- The code of a protocol: `ret r` returns (or raises an exception), `ins f k` changes the state, makes the call if there is one, and goes on
with `k`, which is given the exception that the call raised, if any, and the state then. -/
inductive Prog (σ : Type) where
  | ret (r : Option Err)
  | ins (f : σ → σ × Option Cmd) (k : Option Err → σ → Prog σ)

/-- A call of the lower transport, whose exceptions are not caught. -/
def Prog.down {σ} (m : Dn) (k : Prog σ) : Prog σ := .ins (fun s => (s, some (.down m))) fun e _ => match e with
  | none => k
  | some e => .ret (some e)

/-- A call of the higher protocol, whose exceptions are not caught. -/
def Prog.up {σ} (u : Up) (k : Prog σ) : Prog σ := .ins (fun s => (s, some (.up u))) fun e _ => match e with
  | none => k
  | some e => .ret (some e)

/-- `StackingTransport.close`, `abort`, `write` (Protocol.py:72-83), when the layer does not redefine them. -/
def delegate {σ} (m : Dn) : Prog σ := .down m (.ret none)

/-- `transport.writelines(ds)` (Protocol.py:85-87) in the code of the protocol above. -/
def writelines {σ} (k : Prog σ) : List Bytes → Prog σ
  | [] => k
  | d :: ds => .down (.write d) (writelines k ds)

/-- What happens: `inp src dst m` the call arrives at `dst`, `outp t c` protocol `t` calls, `back t r` its call comes back, `done t r` the call that
arrived at `t` ends. -/
inductive Ev where
  | inp (src dst : Tgt) (m : Msg)
  | outp (t : Tgt) (c : Cmd)
  | back (t : Tgt) (r : Option Err)
  | done (t : Tgt) (r : Option Err)
  deriving DecidableEq

structure Cfg (σ : Type) where
  layer : Nat → Msg → σ → Prog σ     -- the code of the layers of a kind
  app : Msg → σ → Prog σ             -- the application protocol
  depth : Nat                        -- the recursion limit, in calls of protocols

structure St (σ : Type) where
  st : Tgt → σ              -- the protocols
  lower : Tgt → Tgt         -- `self.transport`
  log : List Ev

def St.set {σ} (s : St σ) (t : Tgt) (x : σ) : St σ := { s with st := fun t' => if t' = t then x else s.st t' }
def St.add {σ} (s : St σ) (e : Ev) : St σ := { s with log := s.log ++ [e] }

abbrev Rec (σ : Type) := St σ → Tgt → Tgt → Msg → St σ × Option Err

/-- `self.higherProtocol().…` and `self.transport.…` in protocol `t`. -/
def send {σ} (H : Heap) (rec : Rec σ) (s : St σ) : Tgt → Cmd → St σ × Option Err
  | .obj o, .up u => rec s (.obj o) (H.higher o) (.up u)
  | t, .up u => rec s t .nobody (.up u)
  | t, .down m => rec s t (s.lower t) (.dn m)

/-- The code of protocol `t`. -/
def exec {σ} (H : Heap) (rec : Rec σ) (t : Tgt) : Prog σ → St σ → St σ × Option Err
  | .ret r, s => (s, r)
  | .ins f k, s => match f (s.st t) with
    | (x, none) => exec H rec t (k none x) (s.set t x)
    | (x, some cmd) =>
      let p := send H rec ((s.set t x).add (.outp t cmd)) t cmd
      exec H rec t (k p.2 (p.1.st t)) (p.1.add (.back t p.2))

/-- `self.transport = transport` in `connection_made`: the caller's transport. -/
def arrive {σ} (s : St σ) (src dst : Tgt) : Msg → St σ
  | .up .made => { s with lower := fun t => if t = dst then src else s.lower t }
  | _ => s

def finish {σ} (t : Tgt) (p : St σ × Option Err) : St σ × Option Err := (p.1.add (.done t p.2), p.2)

/-- A call. What is written to the transport of the callback connection is taken from there by the event loop. -/
def body {σ} (H : Heap) (c : Cfg σ) (rec : Rec σ) (s : St σ) (src : Tgt) : Tgt → Msg → St σ × Option Err
  | .obj o, m => finish (.obj o) (exec H rec (.obj o) (c.layer (H.kind o) m (s.st (.obj o))) ((arrive s src (.obj o) m).add (.inp src (.obj o) m)))
  | .app, m => finish .app (exec H rec .app (c.app m (s.st .app)) ((arrive s src .app m).add (.inp src .app m)))
  | .wire, m => (s.add (.inp src .wire m), none)
  | .nobody, _ => (s, some .attribute)

/-- A call with the given number of frames left. -/
def run {σ} (H : Heap) (c : Cfg σ) : Nat → Rec σ
  | 0, s, _, _, _ => (s, some .recursion)
  | f + 1, s, src, dst, m => body H c (run H c f) s src dst m

/-- What the event loop does. -/
inductive Act where
  | wire (u : Up)              -- something arrives on the callback connection
  | tick (o : Tgt) (k : Nat)   -- a timer of a protocol, or the user of the application
  deriving DecidableEq

/-- `setPlaygroundConnectionInfo` from line 399 on, `connection_lost` and `data_received` of the callback protocol `cb` (vsockets.py:399-424), and
calls from the loop. Exceptions end there: `data_received` catches them, the loop logs them. That data which arrives before the stack is built waits in
`_backlog` is left out here (see Model/Callback.lean). -/
def act {σ} (H : Heap) (c : Cfg σ) (cb : Nat) (s : St σ) : Act → St σ
  | .wire u => (run H c (c.depth + 1) s .wire (H.higher cb) (.up u)).1
  | .tick t k => (run H c (c.depth + 1) s .nobody t (.tick k)).1

def acts {σ} (H : Heap) (c : Cfg σ) (cb : Nat) (s : St σ) (h : List Act) : St σ := h.foldl (act H c cb) s

/-- Before `connection_made` (Protocol.py:45-47): no protocol has a transport. -/
def St.start {σ} (init : Tgt → σ) : St σ := ⟨init, fun _ => .nobody, []⟩

end Verif.StackRun
