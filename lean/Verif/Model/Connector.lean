import Verif.Model.VnicClient
import Verif.Model.Callback
/-! # devices/vnic/connect.py: `PlaygroundConnector`, with its control connections, callback service and conditions

One connector in one process. The calls of `create_playground_connection` and `create_playground_server` are numbered in their order,
control protocols (`VNICSocketControlClientProtocol`, Model/VnicClient.lean) in the order in which they are connected, callback
protocols and the applications on them as in Model/Callback.lean. The factory given to call `i` is factory `i`, and makes a new
application each time. A coroutine runs from one `await` that suspends to the next in one event. The TCP location that the VNIC
service finds for a call, if any, is part of the call (`StandardVnicService`, connect.py:379-425, is Model/Choose.lean; the lookups of
the network are Model/Pnms.lean). Packets of the VNIC arrive one by one (Model/Framed.lean has the bytes) and are arbitrary. When an
application gets `connection_made` is up to its stack (Model/Stack.lean), hence an event of its own. -/
namespace Verif.Connect
open Verif.Cli (Kind)

/-- Why a call raises. -/
inductive Err where
  | noVnic | service | dial | refused | timeout | unexpected | key
  deriving DecidableEq

/-- Where the coroutine of a call stands. -/
inductive Stage where
  | service                              -- awaits `create_callback_service` (connect.py:242, 309)
  | dialing                              -- awaits the TCP connection to the VNIC (261, 337)
  | polling                              -- sleeps while another call makes that connection (264-267, 340-343)
  | opening (c fut : Nat)                -- awaits future `fut` of control protocol `c` (275, 351)
  | waiting (id : Nat)                   -- in `waitForConnections` (283)
  | making (n : Nat)                     -- awaits the `connection_made` of the application on `n` (294-296)
  | returned (n : Nat)                   -- has returned the application on callback protocol `n` (305)
  | serving (c id : Nat) (closed : Bool) -- has returned a `PlaygroundServer` with the id (356-357)
  | raised (e : Err)
  deriving DecidableEq

structure Call where
  kind : Kind                   -- connect: create_playground_connection; listen: create_playground_server
  loc : Option Nat              -- the TCP location of the VNIC
  stage : Stage
  via : Option (Nat × Nat)      -- control protocol and connection id of its request; only for statements
  deriving DecidableEq

inductive Eff where
  | closePacket (c id : Nat)    -- VNICSocketClosePacket
  | close (n : Nat)             -- transport of callback protocol `n` closed
  deriving DecidableEq

structure St where
  ready : Bool                        -- _ready
  ctl : Dict Nat (Option Nat)         -- _vnicConnections; `none` is "CONNECTING"
  cli : Nat → Cli.St                  -- the control protocols
  up : Nat → Bool                     -- their TCP connection is there
  nCli : Nat
  cb : Callback.St                    -- _callbackService
  obs : Dict Nat Bool                 -- connectionMadeObserver.protocols, by callback protocol; `true` is "connected"
  notes : Nat                         -- `awaitNotify` tasks of _conditionConnections that have not run
  queue : List Nat                    -- calls waiting in _conditionConnections, not woken
  woken : List Nat                    -- woken, but not yet resumed
  call : Nat → Call
  nCall : Nat
  out : List Eff

/-- `__init__` (connect.py:201-218, 65-75, 23-24). -/
def St.init : St :=
  ⟨false, [], fun _ => .init, fun _ => false, 0, .init, [], 0, [], [], fun _ => ⟨.connect, none, .service, none⟩, 0, []⟩

def setCall (s : St) (i : Nat) (x : Call) : St := { s with call := fun j => if j = i then x else s.call j }

def setStage (s : St) (i : Nat) (g : Stage) : St := setCall s i { s.call i with stage := g }

def setCli (s : St) (c : Nat) (x : Cli.St) : St := { s with cli := fun d => if d = c then x else s.cli d }

/-- `connect` or `listen` of the control protocol, then the `await` of the future (connect.py:271-275, 346-351). -/
def openVia (s : St) (i c : Nat) : St :=
  setCall (setCli s c (Cli.step (s.cli c) (.request (s.call i).kind i))) i
    { s.call i with stage := .opening c (s.cli c).nFut, via := some (c, (s.cli c).count + 1) }

/-- The loop around the sleep (connect.py:264-271, 340-346): go on if there is a control protocol. -/
def enter (s : St) (i l : Nat) : St := match s.ctl.get l with
  | none => setStage s i (.raised .key)
  | some none => setStage s i .polling
  | some (some c) => openVia s i c

/-- After the callback service (connect.py:243-261 and 312-337). Only `create_playground_connection` marks the location. -/
def start (s : St) (i : Nat) : St := match (s.call i).loc with
  | none => setStage s i (.raised .noVnic)
  | some l => match s.ctl.get l with
    | none => match (s.call i).kind with
      | .connect => setStage { s with ctl := s.ctl.set l none } i .dialing
      | .listen => setStage s i .dialing
    | some _ => enter s i l

/-- A call is made (connect.py:237-242, 307-309). -/
def newCall (s : St) (k : Kind) (loc : Option Nat) : St :=
  let s1 := setCall { s with nCall := s.nCall + 1 } s.nCall ⟨k, loc, .service, none⟩
  if s.ready then start s1 s.nCall else s1

/-- `create_callback_service` succeeded (connect.py:229-235). -/
def serviceOk (s : St) (i : Nat) : St := match (s.call i).stage with
  | .service => start { s with ready := true } i
  | _ => s

/-- The TCP connection to the VNIC is made (connect.py:259-263, 335-339); then the loop. -/
def dialed (s : St) (i l : Nat) : St :=
  enter { setCli s s.nCli .init with
    nCli := s.nCli + 1, up := fun d => if d = s.nCli then true else s.up d, ctl := s.ctl.set l (some s.nCli) } i l

def dialOk (s : St) (i : Nat) : St := match (s.call i).stage, (s.call i).loc with
  | .dialing, some l => dialed s i l
  | _, _ => s

/-- The sleep ends (connect.py:264-267, 340-343). -/
def poll (s : St) (i : Nat) : St := match (s.call i).stage, (s.call i).loc with
  | .polling, some l => enter s i l
  | _, _ => s

def built : Callback.Eff → Option Nat
  | .built n _ _ => some n
  | _ => none

/-- An event of the callback service. For each stack it builds, `buildStack` calls `connectionMadeObserver.watch` and
`_conditionConnections.notify` (connect.py:102, 125, 26-32). -/
def absorb (s : St) (e : Callback.Ev) : St :=
  let cb := Callback.step s.cb e
  let new := (cb.out.drop s.cb.out.length).filterMap built
  { s with cb := cb, obs := new.foldl (fun d n => d.set n false) s.obs, notes := s.notes + new.length }

def announcement : Cli.Eff → Option Callback.Ev
  | .complete id k f t => some (.announce id k f t)
  | _ => none

/-- A packet of the VNIC at control protocol `c` (vsockets.py:332-369); its calls of `completeCallback` go to the service. -/
def packet (s : St) (c : Nat) (e : Cli.Ev) : St :=
  if c < s.nCli ∧ s.up c = true then
    let x := Cli.step (s.cli c) e
    ((x.out.drop (s.cli c).out.length).filterMap announcement).foldl absorb (setCli s c x)
  else s

/-- After `waitForConnections` (connect.py:284-296). -/
def proceed (s : St) (i id : Nat) : St := match Callback.conns s.cb id with
  | [n] => setStage s i (.making n)
  | _ => setStage s i (.raised .unexpected)

/-- `waitForConnections` up to its first suspension (connect.py:140-148, SimpleCondition.py:7-13). The lock of the condition is
never held across a suspension, so it is always free. -/
def arrive (s : St) (i id : Nat) : St :=
  let s1 := { s with cb := { s.cb with spawn := if s.cb.spawn.has id then s.cb.spawn else s.cb.spawn.set id [] } }
  if Callback.conns s.cb id = [] then { setStage s1 i (.waiting id) with queue := s.queue ++ [i] } else proceed s1 i id

/-- The future of a call is decided and its coroutine goes on (connect.py:275-283, 351-357). -/
def opened (s : St) (i : Nat) : St := match (s.call i).stage with
  | .opening c f => match (s.cli c).fut f, (s.call i).kind with
    | .result id _, .connect => arrive s i id
    | .result id _, .listen => setStage s i (.serving c id false)
    | .error _, _ => setStage s i (.raised .refused)
    | _, _ => s
  | _ => s

/-- The timeout of an `asyncio.wait_for`: it cancels the future if that is still pending (connect.py:275-278, 351-354), or closes the
connection (296-303). -/
def timeout (s : St) (i : Nat) : St := match (s.call i).stage with
  | .opening c f => if (s.cli c).fut f = .pending then setStage (setCli s c (Cli.step (s.cli c) (.cancel f))) i (.raised .timeout) else s
  | .making n => { setStage s i (.raised .timeout) with out := s.out ++ [.close n] }
  | _ => s

/-- An `awaitNotify` task runs (SimpleCondition.py:15-17): `asyncio.Condition.notify` wakes the first waiter that is not woken. -/
def notify (s : St) : St := match s.notes, s.queue with
  | 0, _ => s
  | k + 1, [] => { s with notes := k }
  | k + 1, i :: q => { s with notes := k, queue := q, woken := s.woken ++ [i] }

/-- A woken call goes on (SimpleCondition.py:10-12): it looks again, and waits again if there is no connection. -/
def resume (s : St) (i : Nat) : St := match (s.call i).stage with
  | .waiting id =>
    if i ∈ s.woken then
      if Callback.conns s.cb id = [] then { s with woken := s.woken.erase i, queue := s.queue ++ [i] }
      else proceed { s with woken := s.woken.erase i } i id
    else s
  | _ => s

/-- `ConnectionMadeObserver.__call__` for the `connection_made` of the application on `n` (connect.py:42-49). -/
def made (s : St) (n : Nat) : St := if s.obs.get n = some false then { s with obs := s.obs.set n true } else s

/-- `awaitConnection` looks at its protocol (connect.py:51-61): released if connected, `KeyError` if it is not watched. (Two calls can
await the same protocol only when connection ids are used twice; then the code may leave the second one waiting where this raises.) -/
def madeResume (s : St) (i : Nat) : St := match (s.call i).stage with
  | .making n => match s.obs.get n with
    | some true => setStage { s with obs := s.obs.del n } i (.returned n)
    | some false => s
    | none => setStage s i (.raised .key)
  | _ => s

/-- `PlaygroundServer.close` (connect.py:177-185). -/
def closeServer (s : St) (i : Nat) : St := match (s.call i).stage with
  | .serving c id false => { setStage s i (.serving c id true) with
      out := s.out ++ .closePacket c id :: (Callback.conns s.cb id).map .close }
  | _ => s

inductive Ev where
  | call (k : Kind) (loc : Option Nat)
  | serviceOk (i : Nat)
  | serviceFail (i : Nat)
  | dialOk (i : Nat)
  | dialFail (i : Nat)
  | poll (i : Nat)
  | response (c id : Nat) (r : Cli.Resp)
  | spawned (c id tcpPort sourcePort : Nat)
  | opened (i : Nat)
  | timeout (i : Nat)
  | callback (p : Nat)                  -- a callback connection from TCP port `p`
  | data (n : Nat) (d : Bytes)
  | lost (n : Nat)
  | made (n : Nat)
  | notify
  | resume (i : Nat)
  | madeResume (i : Nat)
  | ctlLost (c : Nat)                   -- `connection_lost` of the control protocol (vsockets.py:371-372): only a log entry
  | closeServer (i : Nat)
  deriving DecidableEq

/-- The exception of the callback service or of the TCP connection ends the call; nothing is undone (connect.py:232, 261, 337). -/
def fail (s : St) (i : Nat) (at' : Stage) (e : Err) : St := if (s.call i).stage = at' then setStage s i (.raised e) else s

def act (s : St) : Ev → St
  | .call k loc => newCall s k loc
  | .serviceOk i => serviceOk s i
  | .serviceFail i => fail s i .service .service
  | .dialOk i => dialOk s i
  | .dialFail i => fail s i .dialing .dial
  | .poll i => poll s i
  | .response c id r => packet s c (.response id r)
  | .spawned c id t p => packet s c (.spawned id t p)
  | .opened i => opened s i
  | .timeout i => timeout s i
  | .callback p => absorb s (.conn p)
  | .data n d => absorb s (.data n d)
  | .lost n => absorb s (.lost n)
  | .made n => made s n
  | .notify => notify s
  | .resume i => resume s i
  | .madeResume i => madeResume s i
  | .ctlLost c => { s with up := fun d => if d = c then false else s.up d }
  | .closeServer i => closeServer s i

/-- The call an event is about. -/
def Ev.subject : Ev → Option Nat
  | .serviceOk i | .serviceFail i | .dialOk i | .dialFail i | .poll i | .opened i | .timeout i | .resume i | .madeResume i
  | .closeServer i => some i
  | _ => none

/-- One event. Events about calls that were not made cannot occur. -/
def step (s : St) (e : Ev) : St := match e.subject with
  | some i => if i < s.nCall then act s e else s
  | none => act s e

def exec (s : St) : List Ev → St
  | [] => s
  | e :: h => exec (step s e) h

end Verif.Connect
