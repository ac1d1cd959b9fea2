import Verif.Model.Dict
/-! # network/protocols/vsockets.py: `VNICSocketControlClientProtocol`

Futures and application factories are numbered (futures in the order of their creation). Each packet is one event. What the
callback service does is modelled in `Model/Callback.lean`; here only the call is recorded. A future can be cancelled by its
owner at any time, as `asyncio.wait_for` does after its timeout (devices/vnic/connect.py:275). -/
namespace Verif.Cli

/-- The first part of the values of `_futures` (vsockets.py:305, 321). -/
inductive Kind where
  | connect
  | listen
  deriving DecidableEq

/-- State of an `asyncio.Future`. -/
inductive Fut where
  | pending
  | result (id port : Nat)
  | error (code : Nat)
  | cancelled
  deriving DecidableEq

inductive Eff where
  | request (id : Nat) (k : Kind)                             -- VNICSocketOpenPacket written
  | complete (id : Nat) (k : Kind) (factory tcpPort : Nat)    -- completeCallback called
  | keyError                                                  -- `self._connections[id]` raised
  | invalidState                                              -- the future was already done or cancelled
  deriving DecidableEq

structure St where
  count : Nat                        -- _connectionId
  apps : Dict Nat Nat                -- _connections
  futures : Dict Nat (Kind × Nat)    -- _futures
  fut : Nat → Fut
  nFut : Nat
  out : List Eff

/-- `__init__` (vsockets.py:281-287). -/
def St.init : St := ⟨0, [], [], fun _ => .pending, 0, []⟩

def St.emit (s : St) (e : Eff) : St := { s with out := s.out ++ [e] }

/-- `connect` (vsockets.py:289-306) and `listen` (308-322), which differ only in the kind and the data of the packet. -/
def request (s : St) (k : Kind) (factory : Nat) : St :=
  let id := s.count + 1
  { s with count := id, apps := s.apps.set id factory, futures := s.futures.set id (k, s.nFut),
           fut := (fun n => if n = s.nFut then .pending else s.fut n), nFut := s.nFut + 1, out := s.out ++ [.request id k] }

/-- `future.set_result`, `future.set_exception`: `InvalidStateError` unless the future is pending. -/
def resolve (s : St) (n : Nat) (v : Fut) : St :=
  match s.fut n with
  | .pending => { s with fut := fun m => if m = n then v else s.fut m }
  | _ => s.emit .invalidState

/-- An open response (vsocket_packets.py:52-63): the port, or the error code of a failure. -/
inductive Resp where
  | port (p : Nat)
  | failure (code : Nat)
  deriving DecidableEq

/-- `data_received`, open response (vsockets.py:335-350). -/
def response (s : St) (id : Nat) (r : Resp) : St :=
  match s.futures.get id with
  | none => s
  | some (k, n) =>
    match r, k with
    | .failure c, _ => resolve { s with futures := s.futures.del id } n (.error c)
    | .port p, .listen => resolve { s with futures := s.futures.del id } n (.result id p)
    | .port _, .connect => s

/-- `data_received`, connection spawned (vsockets.py:352-369). -/
def spawned (s : St) (id tcpPort sourcePort : Nat) : St :=
  match s.apps.get id with
  | none => s.emit .keyError
  | some f =>
    match s.futures.get id with
    | some (.connect, n) =>
      resolve { s.emit (.complete id .connect f tcpPort) with futures := s.futures.del id } n (.result id sourcePort)
    | some (.listen, _) => s.emit (.complete id .listen f tcpPort)
    | none => s.emit (.complete id .listen f tcpPort)

inductive Ev where
  | request (k : Kind) (factory : Nat)
  | response (id : Nat) (r : Resp)
  | spawned (id tcpPort sourcePort : Nat)
  | cancel (n : Nat)                          -- the owner cancels future `n`
  deriving DecidableEq

def step (s : St) : Ev → St
  | .request k f => request s k f
  | .response id r => response s id r
  | .spawned id t p => spawned s id t p
  | .cancel n => match s.fut n with
    | .pending => if n < s.nFut then { s with fut := fun m => if m = n then .cancelled else s.fut m } else s
    | _ => s

def exec (s : St) : List Ev → St
  | [] => s
  | e :: h => exec (step s e) h

end Verif.Cli
