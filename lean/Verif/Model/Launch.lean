import Verif.Model.Promiscuous
import Verif.Model.Routes
/-! # The VNIC daemon: one link to the switch, redialled, and its status file (entry_points/launch_vnic.py:18-162)

`StatusVnic`, `StatusManager` and `ConnectToSwitchTask` around the VNIC of `Verif.Model.Promiscuous`. The event loop is the environment:
`connect` only creates a task, and when its connection attempt, the calls of `connection_made`/`connection_lost` and the done callback run
is the order of the events. As in asyncio the protocol factory is called after the TCP connection is established, then `connection_made`
(whatever it raises is only logged, the task does not see it), and the task ends; a connection that cannot be established ends the task with
an exception, before the factory is called.

Simplifications: seconds are natural numbers; the log (`logger`) and the management calls other than `switch-live` and
`set-promiscuity-level` are left out; the event loop does not cancel tasks. -/
namespace Verif.Launch

/-- What happens to the file when the status is written. -/
inductive Write where
  | ok
  | noOpen          -- `open` raises
  | cut (n : Nat)   -- the file is emptied by `open`, `n` characters are written, then an exception
  deriving DecidableEq

structure Cfg where
  port : Nat               -- servingPort (launch_vnic.py:147-148)
  switchIp : Str
  switchPort : Nat
  statusFirst : Bool       -- the order of the two elements of the set `listeners` (launch_vnic.py:33-38)
  deriving DecidableEq

inductive Task where
  | dialing
  | failed                 -- ended with an exception, `_connectFinished` is to be called
  | opening (tx : Nat)     -- the factory was called
  | made (tx : Nat)        -- `connection_made` was called, `_connectFinished` is to be called
  deriving DecidableEq

/-- What can be seen from outside, in the order in which it happened. -/
inductive Out where
  | dial                   -- an attempt to connect to the switch begins
  | refused                -- it failed
  | up (tx : Nat)          -- a link is established
  | down (tx : Nat)        -- it is lost
  deriving DecidableEq

structure St where
  net : Prom.St                 -- the VNIC
  now : Nat                     -- the clock of the event loop
  timers : List Nat             -- when the `call_later`s of `connect` are due
  task : Nat → Option Task      -- the tasks that have not run their done callback, numbered in the order of their creation
  nTask : Nat
  links : List Nat              -- links with `connection_made` and no `connection_lost`
  live : Str                    -- _spmp_connection_status
  files : List Str              -- the contents that the status file had, the last is the present one
  out : List (Nat × Out)

/-- The text that `writeStatus` writes (launch_vnic.py:91-94). -/
def render (c : Cfg) (status : Str) : Str :=
  natStr c.port ++ '\n' :: (joinWith ':' [c.switchIp, natStr c.switchPort] ++ '\n' :: status)

def connectedStr : Str := "Connected".toList
def disconnectedStr : Str := "Disconnected".toList
def notConnectedStr : Str := "Not Connected".toList

/-- `StatusManager.writeStatus` (launch_vnic.py:91-94); the flag says whether it raises. -/
def writeStatus (c : Cfg) (w : Write) (s : St) (status : Str) : St × Bool := match w with
  | .ok => ({ s with files := s.files ++ [[], render c status] }, false)
  | .noOpen => (s, true)
  | .cut n => ({ s with files := s.files ++ [[], (render c status).take n] }, true)

/-- `RECONNECT_DELAY` (launch_vnic.py:98). -/
def reconnectDelay : Nat := 30

/-- `call_later(self.RECONNECT_DELAY, self.connect)` (launch_vnic.py:106, 117). -/
def callLater (s : St) : St := { s with timers := s.timers ++ [s.now + reconnectDelay] }

/-- `ConnectToSwitchTask.connect` (launch_vnic.py:108-111). -/
def connect (s : St) : St :=
  { s with task := fun k => if k = s.nTask then some .dialing else s.task k, nTask := s.nTask + 1, out := s.out ++ [(s.now, .dial)] }

/-- The methods that the listeners are alerted about. -/
inductive Alert where
  | connectionMade
  | connectionLost
  deriving DecidableEq

/-- `StatusManager.alert` (launch_vnic.py:85-89). -/
def statusAlert (c : Cfg) (w : Write) (s : St) : Alert → St × Bool
  | .connectionMade => writeStatus c w s connectedStr
  | .connectionLost => writeStatus c w s disconnectedStr

/-- `ConnectToSwitchTask.alert` (launch_vnic.py:104-106). -/
def connectAlert (s : St) : Alert → St × Bool
  | .connectionMade => (s, false)
  | .connectionLost => (callLater s, false)

/-- `VnicStatusListeners.alert` (launch_vnic.py:33-35): an exception of a listener ends the loop. -/
def alert (c : Cfg) (w : Write) (s : St) (a : Alert) : St × Bool :=
  if c.statusFirst then
    match statusAlert c w s a with
    | (s1, true) => (s1, true)
    | (s1, false) => connectAlert s1 a
  else
    match connectAlert s a with
    | (s1, true) => (s1, true)
    | (s1, false) => statusAlert c w s1 a

/-- Whether the VNIC raised between two states. -/
def raised (a b : Prom.St) : Bool := decide (Prom.Eff.raised ∈ b.out.drop a.out.length)

/-- `PlaygroundSwitchTxProtocol.connection_made` of link `tx` (switching.py:100-103) with `StatusVnic.connectionMade`
(launch_vnic.py:61-64): when the VNIC raises, the rest is not done. -/
def connectionMade (c : Cfg) (w : Write) (s : St) (tx : Nat) : St × Bool :=
  let net := Prom.made s.net tx
  let s1 : St := { s with net := net, links := s.links ++ [tx], out := s.out ++ [(s.now, .up tx)] }
  if raised s.net net then (s1, true)
  else alert c w { s1 with live := connectedStr } .connectionMade

/-- `PlaygroundSwitchTxProtocol.connection_lost` of link `tx` (switching.py:162-164) with `StatusVnic.connectionLost`
(launch_vnic.py:66-69). -/
def connectionLost (c : Cfg) (w : Write) (s : St) (tx : Nat) : St × Bool :=
  let s1 : St := { s with net := Prom.lost s.net tx, links := s.links.filter (· ≠ tx), out := s.out ++ [(s.now, .down tx)] }
  alert c w { s1 with live := notConnectedStr } .connectionLost

/-- `ConnectToSwitchTask._connectFinished` (launch_vnic.py:113-119). -/
def connectFinished (s : St) (exception : Bool) : St := if exception then callLater s else s

/-- `runVnic` up to `run_forever` (launch_vnic.py:140-159); `none`: the first `writeStatus` raises and the process ends. -/
def start (c : Cfg) (a : Addr) (old : Str) (w : Write) : Option St :=
  match writeStatus c w ⟨.init a, 0, [], fun _ => none, 0, [], notConnectedStr, [old], []⟩ disconnectedStr with
  | (_, true) => none
  | (s, false) => some (connect s)

/-- The task `k` goes on to `t`; `none`: its done callback is run. -/
def setTask (s : St) (k : Nat) (t : Option Task) : St := { s with task := fun j => if j = k then t else s.task j }

inductive Ev where
  | wait (n : Nat)                   -- time passes
  | fire (due : Nat)                 -- the event loop runs a timer
  | refuse (k : Nat)                 -- the attempt of task `k` fails
  | accept (k : Nat)                 -- it succeeds: the factory is called
  | made (k : Nat) (w : Write)       -- `connection_made`
  | lost (tx : Nat) (w : Write)      -- `connection_lost`
  | finish (k : Nat)                 -- the done callback
  | setLevel (l : Option Int)        -- set-promiscuity-level
  deriving DecidableEq

/-- One step of the event loop. An event that cannot happen (a timer that is not due, an attempt that is not open) changes nothing. -/
def step (c : Cfg) (s : St) : Ev → St
  | .wait n => { s with now := s.now + n }
  | .fire due => if due ∈ s.timers ∧ due ≤ s.now then connect { s with timers := s.timers.erase due } else s
  | .refuse k => if s.task k = some .dialing then { setTask s k (some .failed) with out := s.out ++ [(s.now, .refused)] } else s
  | .accept k => if s.task k = some .dialing then setTask { s with net := Prom.factory s.net } k (some (.opening s.net.nTx)) else s
  | .made k w => match s.task k with
    | some (.opening tx) => (connectionMade c w (setTask s k (some (.made tx))) tx).1
    | _ => s
  | .lost tx w => if tx ∈ s.links then (connectionLost c w s tx).1 else s
  | .finish k => match s.task k with
    | some .failed => connectFinished (setTask s k none) true
    | some (.made _) => connectFinished (setTask s k none) false
    | _ => s
  | .setLevel l => { s with net := Prom.setLevel s.net l }

def exec (c : Cfg) (s : St) : List Ev → St
  | [] => s
  | e :: h => exec c (step c s e) h

/-- `InterfaceDevice.tcpLocation` of an enabled device: the port (InterfaceDevice.py:84-86); `none`: ValueError. -/
def readPort (file : Str) : Option Int := pyInt (strip (file.takeWhile (· ≠ '\n')))

/-- `word in text`. -/
def contains (word : Str) : Str → Bool
  | [] => word.isPrefixOf []
  | x :: t => word.isPrefixOf (x :: t) || contains word t

/-- `InterfaceDevice.connectionStatus` of an enabled device (InterfaceDevice.py:109-117). `lower` is modelled on ASCII; no other character
becomes a piece of the two words in a way that matters. -/
def connectionStatus (file : Str) : Str :=
  if contains "disconnected".toList (Routes.norm file) then "Failed".toList
  else if contains "connected".toList (Routes.norm file) then "Live".toList
  else "Unknown".toList

end Verif.Launch
