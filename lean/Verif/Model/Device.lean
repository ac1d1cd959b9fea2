/-! # network/devices/pnms: the devices and their state machine

`PNMSDevice.py`, with `NetworkAccessPoint.py`/`SwitchDevice.py` (access points: no dependencies, possibly remote) and
`InterfaceDevice.py`/`VnicDevice.py` (interfaces: connected to access points, which are their dependencies). Devices are numbers; the device
to which an interface is connected exists. What the operating system does is given by `Cfg`: the result of the n-th launch and of the n-th attempt to
terminate a process. The set of dependencies of a device is a list in the order of insertion here. -/
namespace Verif.Device

inductive Status where
  | disabled | waiting | abnormal | enabled
  deriving DecidableEq, Repr

/-- The run files of a device and its process: no files; files and the process is dead; files and the process is alive. -/
inductive Proc where
  | gone | dead | alive
  deriving DecidableEq, Repr

inductive Kind where
  | ap (remote : Bool)
  | iface
  deriving DecidableEq, Repr

/-- Result of starting the process: it runs; it does not and the files are removed; an exception, after
which there may be files of a process that has died. (When the process that is started does not get ready in time and does not end within the time allowed either, there is
an exception, too, and it goes on; this is not modelled here, see Model/Proc.lean.) -/
inductive Launch where
  | up | down | raises (died : Bool)
  deriving DecidableEq, Repr

structure Cfg where
  kind : Nat → Kind
  launch : Nat → Launch     -- the n-th launch
  kill : Nat → Bool         -- the n-th SIGTERM: the process ends within the time allowed

structure Dev where
  status : Status           -- _enableStatus
  toggle : Bool             -- _enableToggle
  proc : Proc
  deps : List Nat           -- _deviceDependencies
  conn : Option Nat         -- its entry in the section `connections`
  deriving DecidableEq, Repr

structure St where
  dev : Nat → Dev
  launches : Nat
  kills : Nat

/-- A device that was just added. -/
def Dev.new : Dev := ⟨.disabled, false, .gone, [], none⟩

def St.init : St := ⟨fun _ => .new, 0, 0⟩

def St.upd (s : St) (d : Nat) (f : Dev → Dev) : St := { s with dev := fun k => if k = d then f (s.dev k) else s.dev k }

/-- `_cleanupFiles` (PNMSDevice.py:71-76): the constants other than `STATUS_ENABLED` are false. -/
def cleanup (s : St) (d : Nat) : St := s.upd d fun x => if x.status = .enabled then x else { x with proc := .gone }

/-- `enabled()` (PNMSDevice.py:127-129, NetworkAccessPoint.py:52-57); the constants other than `STATUS_ENABLED` are false. -/
def enabled (c : Cfg) (s : St) (d : Nat) : St × Bool :=
  if c.kind d = .ap true then (s, true) else (cleanup s d, decide ((s.dev d).status = .enabled))

/-- The loop of `dependenciesEnabled` (PNMSDevice.py:98-101). -/
def depsLoop (c : Cfg) (s : St) : List Nat → St × Bool
  | [] => (s, true)
  | d :: ds => match enabled c s d with
    | (s', true) => depsLoop c s' ds
    | (s', false) => (s', false)

/-- `dependenciesEnabled` (PNMSDevice.py:98-101, InterfaceDevice.py:42-49). -/
def dependenciesEnabled (c : Cfg) (s : St) (d : Nat) : St × Bool :=
  if c.kind d = .iface ∧ (s.dev d).conn = none then (s, false) else depsLoop c s (s.dev d).deps

/-- `_running` (PNMSDevice.py:152-157). -/
def running (s : St) (d : Nat) : Bool := decide ((s.dev d).proc = .alive)

/-- `_shutdown` (PNMSDevice.py:223-234): `true` when it raises. `os.kill` raises for a process that is dead. -/
def shutdown (c : Cfg) (s : St) (d : Nat) : St × Bool := match (s.dev d).proc with
  | .gone => (s, false)
  | .dead => (s, true)
  | .alive => if c.kill s.kills then ({ s with kills := s.kills + 1 }.upd d fun x => { x with proc := .gone }, false)
    else ({ s with kills := s.kills + 1 }, true)

/-- The start of the process. -/
def spawn (c : Cfg) (s : St) (d : Nat) : St × Bool := match c.launch s.launches with
  | .up => ({ s with launches := s.launches + 1 }.upd d fun x => { x with proc := .alive }, false)
  | .down => ({ s with launches := s.launches + 1 }.upd d fun x => { x with proc := .gone }, false)
  | .raises died => ({ s with launches := s.launches + 1 }.upd d fun x => if died then { x with proc := .dead } else x, true)

/-- `_launch` (SwitchDevice.py:13-36, VnicDevice.py:61-89): `true` when it raises. -/
def launch (c : Cfg) (s : St) (d : Nat) : St × Bool := match dependenciesEnabled c s d with
  | (s', false) => (s', false)
  | (s', true) => match c.kind d with
    | .ap true => (s', true)
    | .ap false => spawn c s' d
    | .iface => match (s'.dev d).conn with
      | none => (s', true)
      | some a => match enabled c s' a with
        | (s'', true) => spawn c s'' d
        | (s'', false) => (s'', true)

/-- The alerts are identified by methods of the device that posts them. -/
inductive Alert where
  | enable | enabled | destroy
  deriving DecidableEq

/-- Whether a device runs its state machine because of an alert of device `d` (PNMSDevice.py:106-109; InterfaceDevice.py:66-70 compares the
device with a name, which is never true). -/
def reacts (s : St) (me d : Nat) (a : Alert) : Bool := decide (d ∈ (s.dev me).deps) && decide (a = .enabled)

/-- The alert posted at the end of the state machine (PNMSDevice.py:221). Nobody reacts to it, so that it does not appear below. -/
def posted : Alert := .enable

/-- The end of the state machine (PNMSDevice.py:218-221). -/
def finish (s : St) (d : Nat) (st : Status) : St × Bool := (s.upd d fun x => { x with status := st, toggle := false }, false)

/-- `if self._running(): newStatus = STATUS_ENABLED else: STATUS_ABNORMAL_SHUTDOWN`, after `_launch`. -/
def afterLaunch (d : Nat) : St × Bool → St × Bool
  | (s, true) => (s, true)
  | (s, false) => finish s d (if running s d then .enabled else .abnormal)

/-- `self._shutdown()` and the new status. -/
def andThen (d : Nat) (st : Status) : St × Bool → St × Bool
  | (s, true) => (s, true)
  | (s, false) => finish s d st

/-- The branches of the state machine (PNMSDevice.py:172-217). -/
def branches (c : Cfg) (s : St) (d : Nat) : St × Bool := match (s.dev d).status with
  | .enabled =>
    if (s.dev d).toggle then andThen d .disabled (shutdown c s d)
    else if !running s d then finish s d .disabled
    else match dependenciesEnabled c s d with
      | (s', true) => finish s' d .enabled
      | (s', false) => andThen d .waiting (shutdown c s' d)
  | .waiting =>
    if (s.dev d).toggle then finish s d .disabled
    else match dependenciesEnabled c s d with
      | (s', true) => afterLaunch d (launch c s' d)
      | (s', false) => finish s' d .waiting
  | _ =>
    if running s d then match dependenciesEnabled c s d with
      | (s', true) => finish s' d .enabled
      | (s', false) => andThen d .waiting (shutdown c s' d)
    else if (s.dev d).toggle then match dependenciesEnabled c s d with
      | (s', true) => afterLaunch d (launch c s' d)
      | (s', false) => finish s' d .waiting
    else finish s d .disabled

/-- `for device in self._deviceDependencies: if not device.enabled(): device.enable()` (PNMSDevice.py:167-170); `en` is `enable`. -/
def enableDeps (c : Cfg) (en : St → Nat → St × Bool) (s : St) : List Nat → St × Bool
  | [] => (s, false)
  | d :: ds => match enabled c s d with
    | (s', true) => enableDeps c en s' ds
    | (s', false) => match en s' d with
      | (s'', true) => (s'', true)
      | (s'', false) => enableDeps c en s'' ds

/-- `_runEnableStatusStateMachine` (PNMSDevice.py:159-221). -/
def machine (c : Cfg) (en : St → Nat → St × Bool) (s : St) (d : Nat) : St × Bool :=
  if (s.dev d).status ≠ .enabled ∧ (s.dev d).toggle then match enableDeps c en s (s.dev d).deps with
    | (s', true) => (s', true)
    | (s', false) => branches c s' d
  else branches c s d

/-- `enable` (PNMSDevice.py:117-120) of a device; `en` is `enable` for its dependencies. -/
def enableWith (c : Cfg) (en : St → Nat → St × Bool) (s : St) (d : Nat) : St × Bool := match enabled c s d with
  | (s', true) => (s', false)
  | (s', false) => machine c en (s'.upd d fun x => { x with toggle := true }) d

/-- `enable` of an access point (NetworkAccessPoint.py:63-65); it has no dependencies. -/
def enableAp (c : Cfg) (s : St) (d : Nat) : St × Bool :=
  if c.kind d = .ap true then (s, false) else enableWith c (fun s _ => (s, false)) s d

/-- `enable`. -/
def enable (c : Cfg) (s : St) (d : Nat) : St × Bool := match c.kind d with
  | .ap _ => enableAp c s d
  | .iface => enableWith c (enableAp c) s d

/-- `disable` (PNMSDevice.py:122-125, NetworkAccessPoint.py:59-61). The state machine does not enable dependencies, because the status is
`STATUS_ENABLED`. -/
def disable (c : Cfg) (s : St) (d : Nat) : St × Bool :=
  if c.kind d = .ap true then (s, false)
  else match enabled c s d with
    | (s', false) => (s', false)
    | (s', true) => machine c (enableAp c) (s'.upd d fun x => { x with toggle := true }) d

/-- `_connect` (InterfaceDevice.py:123-129); only interfaces, and only to access points (`ConnectionPermitted`). -/
def connect (c : Cfg) (s : St) (i a : Nat) : St × Bool :=
  if c.kind i = .iface ∧ c.kind a ≠ .iface then
    (s.upd i fun x => { x with conn := some a, deps := if a ∈ x.deps then x.deps else x.deps ++ [a] }, false)
  else (s, true)

/-- `_disconnect` (InterfaceDevice.py:131-136); the dependency stays. -/
def disconnect (s : St) (i : Nat) : St × Bool := (s.upd i fun x => { x with conn := none }, false)

/-- `installToNetwork` (PNMSDevice.py:81-87) of a new object for the device; `_reloadRuntimeData` (InterfaceDevice.py:30-39). -/
def install (c : Cfg) (s : St) (d : Nat) : St × Bool :=
  machine c (enableAp c) (s.upd d fun x => { x with status := .disabled, toggle := false, deps := x.conn.toList }) d

/-- The loop of `_loadDevices` (NetworkManager.py:357-361). -/
def installAll (c : Cfg) (s : St) : List Nat → St × Bool
  | [] => (s, false)
  | d :: ds => match install c s d with
    | (s', true) => (s', true)
    | (s', false) => installAll c s' ds

inductive Ev where
  | enable (d : Nat)
  | disable (d : Nat)
  | connect (i a : Nat)
  | disconnect (i : Nat)
  | died (d : Nat)              -- the process of the device ends
  | restart (aps ifs : List Nat) -- a new manager loads all devices; an interface loads its access point first
  deriving DecidableEq

def step (c : Cfg) (s : St) : Ev → St × Bool
  | .enable d => enable c s d
  | .disable d => disable c s d
  | .connect i a => connect c s i a
  | .disconnect i => disconnect s i
  | .died d => (s.upd d fun x => if x.proc = .alive then { x with proc := .dead } else x, false)
  | .restart aps ifs => installAll c s (aps ++ ifs)

def exec (c : Cfg) (s : St) : List Ev → St
  | [] => s
  | e :: h => exec c (step c s e).1 h

end Verif.Device
