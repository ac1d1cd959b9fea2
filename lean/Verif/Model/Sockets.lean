import Verif.Model.Connector
/-! # devices/vnic/connect.py: `PlaygroundServer.sockets` and `FakePlaygroundSocket` -/
namespace Verif.Connect

/-- What is given as `explicitName` to a `FakePlaygroundSocket`: the address pair of the server (connect.py:171), or the callback
protocol object of a connection (connect.py:196). Both count as true. -/
inductive SockName where
  | pair (address port : Nat)
  | protocol (n : Nat)
  deriving DecidableEq

/-- What a call on such a socket gives. -/
inductive SockOut where
  | name (x : SockName)
  | address (a : Nat)
  | noPeer                -- `("", 0)`
  | typeError
  deriving DecidableEq

/-- `getsockname` (connect.py:163-165); line 165 is not reached, as the name is never missing. -/
def getsockname (x : SockName) : SockOut := .name x

/-- `getpeername` (connect.py:161-162). -/
def getpeername (_ : SockName) : SockOut := .noPeer

/-- `gethostname` (connect.py:166-167): element 0 of the name; a protocol object has no elements. -/
def gethostname : SockName → SockOut
  | .pair a _ => .address a
  | .protocol _ => .typeError

/-- `server.sockets` (connect.py:191-197) for the server that call `i` returned, with the address and port it was made for
(connect.py:356-357). Also after `close`. -/
def sockets (s : St) (i address port : Nat) : List SockName := match (s.call i).stage with
  | .serving _ id _ => .pair address port :: (Callback.conns s.cb id).map .protocol
  | _ => []

end Verif.Connect
