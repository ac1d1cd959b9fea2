import Verif.Model.Device
/-! # network/devices/pnms/pnetworking.py: commands that start and stop devices

Every command is a process of its own. It makes a new manager, which loads all devices of the file (an object per device, whose state machine runs
once), does what the command says and ends; what is left are the processes and run files of the devices and the file. The state of
Model/Device.lean is used for this: `status`, `toggle` and `deps` of a device are what they were in the last manager that has loaded it, and loading
sets them anew. Devices are numbers; a device of another kind with the name of a removed one is not modelled. Processes end only
between commands, or when a command ends them. -/
namespace Verif.Power
open Verif.Device

/-- What the file says about devices, without the connections (which are in the state): the devices in the order of the file, and which of
them have `auto_enable = true` (PNMSDevice.py:103-104). -/
structure File where
  ds : List Nat
  auto : Nat → Bool

/-- A manager: the state of the devices and the keys of `_devices` in their order. -/
structure Mgr where
  s : St
  objs : List Nat

/-- `getDevice` (NetworkManager.py:249-270) of an access point or of an interface whose connection is settled: `self._devices[deviceName]` is set before
`installToNetwork` is called. `true` when it raises. -/
def getOne (c : Cfg) (m : Mgr) (d : Nat) : Mgr × Bool :=
  if d ∈ m.objs then (m, false) else (⟨(install c m.s d).1, m.objs ++ [d]⟩, (install c m.s d).2)

/-- `installToNetwork` (PNMSDevice.py:81-87) of a device that is already in `_devices`. -/
def finishInstall (c : Cfg) (d : Nat) : Mgr × Bool → Mgr × Bool
  | (m, true) => (m, true)
  | (m, false) => (⟨(install c m.s d).1, m.objs⟩, (install c m.s d).2)

/-- `getDevice` (NetworkManager.py:249-270) with `_reloadRuntimeData` (InterfaceDevice.py:30-39): an interface first gets the device to which it
is connected; when this does not exist, the connection is removed. -/
def getDevice (c : Cfg) (f : File) (m : Mgr) (d : Nat) : Mgr × Bool :=
  if d ∈ m.objs then (m, false)
  else match c.kind d, (m.s.dev d).conn with
    | .iface, some a =>
      if a ∈ f.ds then finishInstall c d (getOne c ⟨m.s, m.objs ++ [d]⟩ a)
      else finishInstall c d (⟨(disconnect m.s d).1, m.objs ++ [d]⟩, false)
    | _, _ => finishInstall c d (⟨m.s, m.objs ++ [d]⟩, false)

/-- The loop of `_loadDevices` (NetworkManager.py:357-361). -/
def loadLoop (c : Cfg) (f : File) (m : Mgr) : List Nat → Mgr × Bool
  | [] => (m, false)
  | d :: ds => match getDevice c f m d with
    | (m', true) => (m', true)
    | (m', false) => loadLoop c f m' ds

/-- `loadConfiguration` (NetworkManager.py:217-219) of a new manager. -/
def load (c : Cfg) (f : File) (s : St) : Mgr × Bool := loadLoop c f ⟨s, []⟩ f.ds

/-- `on` (NetworkManager.py:234-242): `true` when a call raises; the devices that follow are not looked at. -/
def on (c : Cfg) (f : File) (s : St) : List Nat → St × Bool
  | [] => (s, false)
  | d :: ds =>
    if f.auto d then match enabled c s d with
      | (s', true) => on c f s' ds
      | (s', false) => match enable c s' d with
        | (s'', true) => (s'', true)
        | (s'', false) => on c f s'' ds
    else on c f s ds

/-- `off` (NetworkManager.py:244-247). -/
def off (c : Cfg) (s : St) : List Nat → St × Bool
  | [] => (s, false)
  | d :: ds => match enabled c s d with
    | (s', false) => off c s' ds
    | (s', true) => match disable c s' d with
      | (s'', true) => (s'', true)
      | (s'', false) => off c s'' ds

/-- What a command tells the user. -/
inductive Msg where
  | enabled | failedAbnormally | unmetDependencies | couldNotLaunch
  | done        -- nothing
  | loadFailed  -- Could not load the network manager.
  | unknown     -- Unknown device
  | error       -- Error executing pnetworking
  deriving DecidableEq, Repr

/-- The message after `device.enable()` (pnetworking.py:157-164); every comparison calls `enabled()`. -/
def enableMsg (c : Cfg) (s : St) (d : Nat) : St × Msg :=
  if c.kind d = .ap true then (s, .enabled)
  else match (s.dev d).status with
    | .enabled => (cleanup s d, .enabled)
    | .abnormal => (cleanup s d, .failedAbnormally)
    | .waiting => (cleanup s d, .unmetDependencies)
    | .disabled => (cleanup s d, .couldNotLaunch)

inductive Act where
  | on
  | off
  | enable (d : Nat)
  | disable (d : Nat)
  | connect (i a : Nat)
  | disconnect (i : Nat)
  | remove (d : Nat)
  | status
  deriving DecidableEq

/-- The outcome of a call that raises or not (pnetworking.py:308-318). -/
def outcome : St × Bool → St × Msg
  | (s, true) => (s, .error)
  | (s, false) => (s, .done)

/-- `args.func(args)` (pnetworking.py:220-286). The message of `status` is not modelled. For `remove` see NetworkManager.py:288-305 and InterfaceDevice.py:72-76: nobody
stops the process. -/
def act (c : Cfg) (f : File) (m : Mgr) : Act → St × Msg
  | .on => outcome (on c f m.s m.objs)
  | .off => outcome (off c m.s m.objs)
  | .enable d => if d ∈ f.ds then match Device.enable c m.s d with
      | (s', true) => (s', .error)
      | (s', false) => enableMsg c s' d
    else (m.s, .unknown)
  | .disable d => if d ∈ f.ds then outcome (Device.disable c m.s d) else (m.s, .unknown)
  | .connect i a => if i ∈ f.ds then (if a ∈ f.ds then outcome (Device.connect c m.s i a) else (m.s, .error)) else (m.s, .unknown)
  | .disconnect i => if i ∈ f.ds then (if c.kind i = .iface then outcome (Device.disconnect m.s i) else (m.s, .error)) else (m.s, .unknown)
  | .remove d => if d ∈ f.ds then (if c.kind d = .iface then outcome (Device.disconnect m.s d) else (m.s, .done)) else (m.s, .done)
  | .status => (m.s, .done)

/-- A command (pnetworking.py:299-318, 136-142). -/
def command (c : Cfg) (f : File) (s : St) (a : Act) : St × Msg := match load c f s with
  | (m, true) => (m.s, .loadFailed)
  | (m, false) => act c f m a

inductive Ev where
  | died (d : Nat)              -- the process of the device ends
  | cmd (f : File) (a : Act)    -- a command, with what is in the file when it starts

def step (c : Cfg) (s : St) : Ev → St
  | .died d => s.upd d fun x => if x.proc = .alive then { x with proc := .dead } else x
  | .cmd f a => (command c f s a).1

def exec (c : Cfg) (s : St) : List Ev → St
  | [] => s
  | e :: h => exec c (step c s e) h

end Verif.Power
