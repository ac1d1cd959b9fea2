import Verif.Model.Routes
/-! # network/devices/pnms: the network configuration and the commands of `pnetworking`

Every command is a process of its own: it reads the file `networking.ini`, creates an object for every device, does something and ends; what is not
written to the file is lost. The file is a `configparser` file. Its sections are `devices`, `connections`, `routes` and one section `Config_<name>`
for every device. The keys within a section are put in lower case (`Routes.norm`), the names of sections are not. Names, routes and settings are
taken to be such that `configparser` reads what it has written (no spaces, no `%`, no `=`, `:`, `#`, `;`, `[` at the wrong place). Not
modelled here: the processes of the devices (Model/Device.lean); with them a command can also fail while the devices are loaded. -/
namespace Verif.Pnms
open Verif.Routes (norm)

/-- The configuration: three sections, and the sections `Config_<name>`, by name. -/
structure Cfg where
  devices : Dict Str Str
  connections : Dict Str Str
  routes : Dict Str Str
  secs : Dict Str (Dict Str Str)
  deriving DecidableEq

/-- What is read from an empty file: the sections of `SECTION_API` are added (Configure.py:133-135, NetworkManager.py:346-352). -/
def Cfg.empty : Cfg := ⟨[], [], [], []⟩

/-- A `NetworkManager`: the configuration in memory; the contents that the file has had since the command has started (the last one is
current; `none` is a truncated file); `_devices`, with the type of the object. -/
structure Mgr where
  mem : Cfg
  files : List (Option Cfg)
  objs : Dict Str Str
  deriving DecidableEq

inductive Err where
  | emptyName      -- Cannot 'get' empty device.
  | unknownType    -- Unknown device type in configuration
  | noSection      -- No such section
  | taken          -- A device named ... already exists.
  | badArgs        -- IndexError, ValueError, Unknown argument
  | unknownDevice  -- Unknown device, No such device
  | notPermitted   -- No rule allowing connection
  | badVerb        -- Unknown configure verb, Unknown secondary verb
  | route (e : Routes.Err)
  | depth          -- never (see `getDevice`)
  deriving DecidableEq

/-- `save` (Configure.py:137-141): the file is opened for writing, which truncates it, and then written. -/
def save (m : Mgr) : Mgr := { m with files := m.files ++ [none, some m.mem] }

/-! ## Devices -/

def vnic : Str := "vnic".toList
def switch : Str := "switch".toList
def unreliableSwitch : Str := "unreliable_switch".toList

/-- `REGISTERED_DEVICE_TYPES` (NetworkManager.py:194; VnicDevice.py:11, SwitchDevice.py:5, UnreliableSwitchDevice.py:6). -/
def types : List Str := [vnic, switch, unreliableSwitch]

/-- `isinstance(device, InterfaceDevice)`: the others are `NetworkAccessPointDevice`s. -/
def isIface (t : Str) : Bool := decide (t = vnic)

/-- `connectedTo` (InterfaceDevice.py:102-104). -/
def connectedTo (m : Mgr) (n : Str) : Option Str := m.mem.connections.get (norm n)

/-- `ConnectionDeviceAPI.disconnect` (NetworkManager.py:108-111); `in` compares with the keys as they are (as in `Routes.contains`). -/
def disconnectApi (m : Mgr) (n : Str) : Mgr :=
  save (if n ∈ m.mem.connections.keys then { m with mem := { m.mem with connections := m.mem.connections.del (norm n) } } else m)

/-- `_disconnect` (InterfaceDevice.py:131-136). -/
def disconnect (m : Mgr) (n : Str) : Mgr := match connectedTo m n with
  | none => m
  | some [] => m
  | some _ => disconnectApi m n

/-- `installToNetwork` (PNMSDevice.py:81-87) with `_reloadRuntimeData` (InterfaceDevice.py:30-39); `get` is `getDevice`. The state machine of the
device is not modelled here. -/
def install (get : Mgr → Str → Mgr × Except Err (Option Str)) (m : Mgr) (n t : Str) : Mgr × Option Err :=
  if isIface t then match connectedTo m n with
    | none => (m, none)
    | some c => match get m c with
      | (m', .error e) => (m', some e)
      | (m', .ok (some _)) => (m', none)
      | (m', .ok none) => (disconnect m' n, none)
  else (m, none)

/-- `getDevice` (NetworkManager.py:249-270): the type of the device, or `None`. The first argument bounds the depth of the recursion; every call
inside adds an object for another device of the section `devices`. -/
def getDevice : Nat → Mgr → Str → Mgr × Except Err (Option Str)
  | 0, m, _ => (m, .error .depth)
  | k + 1, m, n =>
    if n = [] then (m, .error .emptyName)
    else match m.objs.get n with
    | some t => (m, .ok (some t))
    | none => match m.mem.devices.get (norm n) with
      | none => (m, .ok none)
      | some t =>
        if t ∉ types then (m, .error .unknownType)
        else if m.mem.secs.has n then match install (getDevice k) { m with objs := m.objs.set n t } n t with
          | (m', some e) => (m', .error e)
          | (m', none) => (m', .ok (some t))
        else (m, .error .noSection)

/-- `getDevice` from outside. -/
def get (m : Mgr) (n : Str) : Mgr × Except Err (Option Str) := getDevice (m.mem.devices.length + 2) m n

/-- The loop of `_loadDevices` (NetworkManager.py:357-361). -/
def loadLoop (m : Mgr) : List Str → Mgr × Option Err
  | [] => (m, none)
  | n :: ns => match get m n with
    | (m', .error e) => (m', some e)
    | (m', .ok _) => loadLoop m' ns

/-- `loadConfiguration` (NetworkManager.py:217-219) of a new manager; without a file, an empty one is made. -/
def load (f : Option Cfg) : Mgr × Option Err := loadLoop ⟨f.getD .empty, [], []⟩ (f.getD .empty).devices.keys

/-! ## Settings -/

def optAuto : Str := "auto_enable".toList
def optAddress : Str := "playground_address".toList
def optType : Str := "physical_connection_type".toList
def optTcpAddress : Str := "tcp_address".toList
def optPort : Str := "tcp_port".toList

def truth (b : Bool) : Str := if b then "true".toList else "false".toList

/-- `while args` in `InterfaceDevice.initialize` (InterfaceDevice.py:55-60): the value of `auto`. -/
def ifaceArgs (auto : Bool) : List Str → Option Bool
  | [] => some auto
  | a :: as => if a = "manual".toList then ifaceArgs false as else none

/-- `InterfaceDevice.initialize` (InterfaceDevice.py:51-64): the options it sets. -/
def initIface : List Str → Option (Dict Str Str)
  | [] => none
  | address :: args => match ifaceArgs true args with
    | none => none
    | some auto => some [(optAddress, address), (optAuto, truth auto)]

/-- The variables of `NetworkAccessPointDevice.initialize` (NetworkAccessPoint.py:86-87). -/
structure ApVars where
  auto : Bool
  connType : Str
  connAddress : Option Str
  connPort : Option Str

/-- `while args` in `NetworkAccessPointDevice.initialize` (NetworkAccessPoint.py:89-112). -/
def apArgs (v : ApVars) : List Str → Option ApVars
  | [] => some v
  | a :: as =>
    if a = "manual".toList then apArgs { v with auto := false } as
    else if a = "auto-enable".toList then apArgs { v with auto := true } as
    else if a = "managed".toList then apArgs { v with connType := a } as
    else if a = "remote".toList then (match as with
      | h :: p :: as' => apArgs { v with connType := a, connAddress := some h, connPort := some p } as'
      | _ => none)
    else if a = "local".toList ∨ a = "public".toList then (match as with
      | p :: as' => apArgs { v with connType := a, connPort := some p } as'
      | _ => none)
    else none

/-- `NetworkAccessPointDevice.initialize` (NetworkAccessPoint.py:85-120): the options it sets; an unbound variable raises. -/
def initAp (args : List Str) : Option (Dict Str Str) := match apArgs ⟨true, "managed".toList, none, none⟩ args with
  | none => none
  | some v =>
    if v.connType = "managed".toList then some [(optAuto, truth v.auto), (optType, v.connType)]
    else if v.connType = "remote".toList then (match v.connAddress, v.connPort with
      | some h, some p => some [(optAuto, truth v.auto), (optType, v.connType), (optTcpAddress, h), (optPort, p)]
      | _, _ => none)
    else (match v.connPort with
      | some p => some [(optAuto, truth v.auto), (optType, v.connType), (optPort, p)]
      | none => none)

def initOptions (t : Str) (args : List Str) : Option (Dict Str Str) := if isIface t then initIface args else initAp args

/-! ## Commands -/

/-- `addDevice` (NetworkManager.py:272-286). `initialize` saves the configuration, and then it is saved again. -/
def addDevice (m : Mgr) (n t : Str) (args : List Str) : Mgr × Option Err :=
  if m.mem.devices.has (norm n) then (m, some .taken)
  else if t ∉ types then (m, some .unknownType)
  else match get { m with mem := { m.mem with devices := m.mem.devices.set (norm n) t, secs := m.mem.secs.set n [] } } n with
    | (m', .error e) => (m', some e)
    | (m', .ok none) => (m', some .unknownDevice)
    | (m', .ok (some t')) => match initOptions t' args with
      | none => (m', some .badArgs)
      | some d => (save (save { m' with mem := { m'.mem with secs := m'.mem.secs.set n d } }), none)

/-- `destroy` (InterfaceDevice.py:72-76; of other devices: PNMSDevice.py:114-115). -/
def destroy (m : Mgr) (n t : Str) : Mgr × Option Err :=
  if isIface t then match Routes.destroy ⟨(disconnect m n).mem.routes, []⟩ n with
    | (s, e) => ({ disconnect m n with mem := { (disconnect m n).mem with routes := s.sec } }, e.map .route)
  else (m, none)

/-- `removeDevice` (NetworkManager.py:288-305). The alert has no effect (see `Device.reacts`): the condition in InterfaceDevice.py:67 compares a
device with a name. -/
def removeDevice (m : Mgr) (n : Str) : Mgr × Option Err :=
  if !m.mem.devices.has (norm n) then (m, none)
  else match get m n with
    | (m', .error e) => (m', some e)
    | (m', .ok none) => (m', some .unknownDevice)
    | (m', .ok (some t)) => match destroy m' n t with
      | (m'', some e) => (m'', some e)
      | (m'', none) =>
        (save { m'' with mem := { m''.mem with devices := m''.mem.devices.del (norm n), secs := m''.mem.secs.del n }, objs := m''.objs.del n }, none)

/-- `_connect` (InterfaceDevice.py:123-129) with `createConnectionTo` (NetworkManager.py:102-106). -/
def connect (m : Mgr) (n c : Str) : Mgr × Option Err := match get m c with
  | (m', .error e) => (m', some e)
  | (m', .ok none) => (m', some .unknownDevice)
  | (m', .ok (some t)) =>
    if isIface t then (m', some .notPermitted)
    else (save { m' with mem := { m'.mem with connections := m'.mem.connections.set (norm n) c } }, none)

/-- The section `routes` after a call of Model/Routes.lean, and whether it was saved. -/
def withRoutes (m : Mgr) (r : Routes.St × Option Routes.Err) (saves : Bool) : Mgr × Option Err :=
  match r with
  | (_, some e) => (m, some (.route e))
  | (s, none) => (if saves then save { m with mem := { m.mem with routes := s.sec } } else { m with mem := { m.mem with routes := s.sec } }, none)

/-- `_route` (InterfaceDevice.py:138-154); `removeRoute` does not save. -/
def route (m : Mgr) (n verbx r : Str) : Mgr × Option Err :=
  if verbx = "add".toList then
    (if r = "default".toList then withRoutes m (Routes.setDefaultRoute ⟨m.mem.routes, []⟩ n, none) true
     else withRoutes m (Routes.addRoute ⟨m.mem.routes, []⟩ n r) true)
  else if verbx = "remove".toList then
    (if r = "default".toList then withRoutes m (Routes.unsetDefaultRoute ⟨m.mem.routes, []⟩ n) true
     else withRoutes m (Routes.removeRoute ⟨m.mem.routes, []⟩ n r) false)
  else (m, some .badVerb)

/-- `_sanitizeVerb` (PNMSDevice.py:92-93). -/
def sanitizeVerb (v : Str) : Str := norm (strip v)

/-- `config` (InterfaceDevice.py:89-100; access points raise, NetworkAccessPoint.py:122-125). -/
def configDevice (m : Mgr) (n t verb : Str) (args : List Str) : Mgr × Option Err :=
  if isIface t then
    (if sanitizeVerb verb = "connect".toList then (match args with
      | [c] => connect m n c
      | _ => (m, some .badArgs))
     else if sanitizeVerb verb = "disconnect".toList then (disconnect m n, none)
     else if sanitizeVerb verb = "route".toList then (match args with
      | [verbx, r] => route m n verbx r
      | _ => (m, some .badArgs))
     else (m, some .badVerb))
  else (m, some .badVerb)

/-- The commands (pnetworking.py:242-274). `other` is a command that does not change the configuration. -/
inductive Cmd where
  | add (name type : Str) (args : List Str)
  | remove (name : Str)
  | config (name verb : Str) (args : List Str)
  | other
  deriving DecidableEq

/-- `args.func(args)` (pnetworking.py:242-274, 148-152). -/
def perform (m : Mgr) : Cmd → Mgr × Option Err
  | .add n t args => addDevice m n t args
  | .remove n => removeDevice m n
  | .config n verb args => match get m n with
    | (m', .error e) => (m', some e)
    | (m', .ok none) => (m', some .unknownDevice)
    | (m', .ok (some t)) => configDevice m' n t verb args
  | .other => (m, none)

/-- A command (pnetworking.py:299-318), with what is in the file: the contents of the file while it runs, and the error with which it ends. When
the configuration cannot be loaded, the process ends (136-142). -/
def run (f : Option Cfg) (c : Cmd) : List (Option Cfg) × Option Err := match load f with
  | (m, some e) => (m.files, some e)
  | (m, none) => ((perform m c).1.files, (perform m c).2)

/-- The file after a command. -/
def after (f : Option Cfg) (c : Cmd) : Option Cfg := (run f c).1.getLast?.getD f

/-- The file after several commands. -/
def exec (f : Option Cfg) : List Cmd → Option Cfg
  | [] => f
  | c :: cs => exec (after f c) cs

end Verif.Pnms
