import Verif.Model.Dict
import Verif.Model.StreamIO
import Verif.Model.VnicClient
/-! # devices/vnic/connect.py: `CallbackService`, and vsockets.py: `VNICCallbackProtocol`

Callback protocols are numbered in the order in which their connections are made. The protocol stack and the application are one
thing here (Model/Stack.lean has the stack): building records which application and which kind of stack it got. They are assumed
not to raise and not to call back into the service. Waiting for connections (`waitForConnections`) is not modelled. -/
namespace Verif.Callback
open Verif.Cli (Kind)

/-- `VNICCallbackProtocol` (vsockets.py:374-381). -/
structure Proto where
  port : Nat              -- _spawnPort
  made : Bool             -- _higherConnectionMade
  backlog : List Bytes
  lost : Bool
  deriving DecidableEq

inductive Eff where
  | built (n : Nat) (k : Kind) (app : Nat)     -- the stack of kind `k` was put on protocol `n` and got connection_made
  | push (n : Nat) (d : Bytes)                 -- data_received of the stack
  | closed (n : Nat)                           -- connection_lost of the stack
  | raised (n : Nat)                           -- exception in connection_lost of protocol `n`
  deriving DecidableEq

structure St where
  dataProtocols : Dict Nat Nat
  connectionData : Dict Nat (Nat × Kind × Nat)
  spawn : Dict Nat (List Nat)
  backptr : Dict Nat Nat
  proto : Nat → Proto
  nProto : Nat
  out : List Eff

/-- `__init__` (connect.py:65-72). -/
def St.init : St := ⟨[], [], [], [], fun _ => ⟨0, false, [], true⟩, 0, []⟩

def setP (s : St) (n : Nat) (x : Proto) : St := { s with proto := fun m => if m = n then x else s.proto m }

/-- `setPlaygroundConnectionInfo` (vsockets.py:389-402). -/
def setInfo (s : St) (n : Nat) (k : Kind) (app : Nat) : St :=
  { setP s n { s.proto n with made := true, backlog := [] } with
    out := s.out ++ .built n k app :: (s.proto n).backlog.map (.push n) }

/-- `self._connectionSpawn.get(connectionId, [])`. -/
def conns (s : St) (cid : Nat) : List Nat := (s.spawn.get cid).getD []

/-- `buildStack` (connect.py:99-125). -/
def build (s : St) (p n cid : Nat) (k : Kind) (app : Nat) : St :=
  { setInfo s n k app with
    spawn := s.spawn.set cid (conns s cid ++ [n])
    backptr := s.backptr.set n cid
    dataProtocols := s.dataProtocols.del p
    connectionData := s.connectionData.del p }

/-- `tryToBuildStack` (connect.py:80-87); the kind chooses the stack factory. -/
def tryBuild (s : St) (p : Nat) : St :=
  match s.connectionData.get p, s.dataProtocols.get p with
  | some (cid, k, app), some n => build s p n cid k app
  | _, _ => s

/-- `newDataConnection` (connect.py:89-92), called from `connection_made` (vsockets.py:383-387). -/
def newConn (s : St) (p : Nat) : St :=
  tryBuild { setP s s.nProto ⟨p, false, [], false⟩ with
    nProto := s.nProto + 1, dataProtocols := s.dataProtocols.set p s.nProto } p

/-- `completeCallback` (connect.py:94-97). -/
def complete (s : St) (cid : Nat) (k : Kind) (app p : Nat) : St :=
  tryBuild { s with connectionData := s.connectionData.set p (cid, k, app) } p

/-- `VNICCallbackProtocol.data_received` (vsockets.py:414-423). -/
def data (s : St) (n : Nat) (d : Bytes) : St :=
  if (s.proto n).made then { s with out := s.out ++ [.push n d] }
  else setP s n { s.proto n with backlog := (s.proto n).backlog ++ [d] }

/-- `dataConnectionClosed` (connect.py:127-138). -/
def dataClosed (s : St) (n p : Nat) : St :=
  let s1 := { s with dataProtocols := s.dataProtocols.del p, connectionData := s.connectionData.del p }
  match s.backptr.get n with
  | none => s1
  | some cid => { s1 with backptr := s.backptr.del n, spawn := s.spawn.set cid ((conns s cid).erase n) }

/-- `VNICCallbackProtocol.connection_lost` (vsockets.py:404-412): without a higher protocol it raises at 408. -/
def lost (s : St) (n : Nat) : St :=
  let s1 := setP s n { s.proto n with lost := true }
  if (s.proto n).made then dataClosed { s1 with out := s1.out ++ [.closed n] } n (s.proto n).port
  else { s1 with out := s1.out ++ [.raised n] }

inductive Ev where
  | conn (p : Nat)                                  -- a callback connection from TCP port `p` is made
  | announce (cid : Nat) (k : Kind) (app p : Nat)   -- completeCallback
  | data (n : Nat) (d : Bytes)
  | lost (n : Nat)
  deriving DecidableEq

/-- One event. Events on a connection that does not exist or is lost cannot occur. -/
def step (s : St) : Ev → St
  | .conn p => newConn s p
  | .announce cid k app p => complete s cid k app p
  | .data n d => if n < s.nProto ∧ (s.proto n).lost = false then data s n d else s
  | .lost n => if n < s.nProto ∧ (s.proto n).lost = false then lost s n else s

def exec (s : St) : List Ev → St
  | [] => s
  | e :: h => exec (step s e) h

end Verif.Callback
