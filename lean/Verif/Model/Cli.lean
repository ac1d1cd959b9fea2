import Verif.Model.Pnms
import Verif.Model.Device
/-! # network/devices/pnms/pnetworking.py and StatusOutputProcessor.py: the command line tool

One call of `pnetworking`: its arguments, what it writes, how it ends, and what becomes of the file `networking.ini` (Model/Pnms). Arguments that begin with
`-` are not modelled. What the commands that start, stop or query devices write is a parameter (Model/Power, Model/Spmp); so are the text of `help` and
the files of the processes of the devices. Python's integers are printed by `intStr`. -/
namespace Verif.Cli
open Verif.Pnms (Cfg Mgr)

/-- The subcommands (pnetworking.py:205-290). -/
inductive Cmd where
  | help (sub : Option Str)
  | init (loc : Str) (overwrite : Option Str)
  | on
  | off
  | add (name type : Str) (args : List Str)
  | remove (name : Str)
  | enable (name : Str)
  | disable (name : Str)
  | config (name verb : Str) (args : List Str)
  | query (name verb : Str) (args : List Str)
  | routes
  | status (name : Option Str)
  deriving DecidableEq

/-- The subcommands with their arguments (pnetworking.py:212-290); `none`: argparse ends the process with its usage and exit status 2. -/
def parseSub (sub : Str) (args : List Str) : Option Cmd :=
  if sub = "help".toList then (match args with | [] => some (.help none) | [s] => some (.help (some s)) | _ => none)
  else if sub = "initialize".toList then (match args with
    | [l] => if l ∈ ["instance".toList, "user".toList, "system".toList] then some (.init l none) else none
    | [l, o] => if l ∈ ["instance".toList, "user".toList, "system".toList] then some (.init l (some o)) else none
    | _ => none)
  else if sub = "on".toList then (match args with | [] => some .on | _ => none)
  else if sub = "off".toList then (match args with | [] => some .off | _ => none)
  else if sub = "add".toList then (match args with | n :: t :: as => some (.add n t as) | _ => none)
  else if sub = "remove".toList then (match args with | [n] => some (.remove n) | _ => none)
  else if sub = "enable".toList then (match args with | [n] => some (.enable n) | _ => none)
  else if sub = "disable".toList then (match args with | [n] => some (.disable n) | _ => none)
  else if sub = "config".toList then (match args with | n :: v :: as => some (.config n v as) | _ => none)
  else if sub = "query".toList then (match args with | n :: v :: as => some (.query n v as) | _ => none)
  else if sub = "routes".toList then (match args with | [] => some .routes | _ => none)
  else if sub = "status".toList then (match args with | [] => some (.status none) | [n] => some (.status (some n)) | _ => none)
  else none

/-- `parse_args` (pnetworking.py:302); without a subcommand, it is help (207-209). -/
def parse : List Str → Option Cmd
  | [] => some (.help none)
  | sub :: args => parseSub sub args

/-- What a call finds. -/
structure Env where
  path : Option Str                     -- Configure.CurrentPath()
  file : Option Cfg                     -- networking.ini in this directory
  state : Str → Device.Status           -- the status of a device after it was loaded
  pidFile : Str → Option Str            -- the content of its pid file, when it is read
  statusFile : Str → Option Str         -- the content of its status file
  work : Cmd → Option (List Str)        -- commands of other models: what they write, or `none` for an exception
  typed : Bool                          -- the user types an answer to the question about the stack trace (or standard input is at its end)

/-! ## Status -/

def nl : Char := '\n'

/-- `str` of a status (PNMSDevice.py:48-51). -/
def statusStr : Device.Status → Str
  | .disabled => "Disabled".toList
  | .waiting => "Waiting".toList
  | .abnormal => "Abnormal Shutdown".toList
  | .enabled => "Enabled".toList

def boolStr (b : Bool) : Str := if b then "True".toList else "False".toList

/-- The type of an access point (NetworkAccessPoint.py:40-50), `none` is KeyError. -/
def apType (d : Dict Str Str) : Option Str := d.get Pnms.optType

/-- `enabled()` (NetworkAccessPoint.py:52-57, PNMSDevice.py:127-129). -/
def enabled (E : Env) (d : Dict Str Str) (n t : Str) : Option Device.Status :=
  if Pnms.isIface t then some (E.state n)
  else match apType d with
    | none => none
    | some ty => if ty = "remote".toList then some .enabled else some (E.state n)

/-- The first line of the status file as a number (NetworkAccessPoint.py:35-38, InterfaceDevice.py:84-86). -/
def filePort (E : Env) (n : Str) : Option Int := match E.statusFile n with
  | none => none
  | some c => pyInt ((splitOn nl c).headD [])

/-- `"{}:{}".format(*tcpLocation())` (NetworkAccessPoint.py:67-82; InterfaceDevice.py:81-87). -/
def tcpText (E : Env) (d : Dict Str Str) (n t : Str) : Option Str :=
  if Pnms.isIface t then
    (if E.state n = .enabled then (filePort E n).map fun p => "127.0.0.1:".toList ++ intStr p else some "None:None".toList)
  else match apType d with
    | none => none
    | some ty =>
      if ty = "managed".toList then
        (if E.state n = .enabled then (filePort E n).map fun p => "127.0.0.1:".toList ++ intStr p else some "None:None".toList)
      else if ty = "remote".toList then (match d.get Pnms.optTcpAddress, (d.get Pnms.optPort).bind pyInt with
        | some h, some p => some (h ++ ':' :: intStr p)
        | _, _ => none)
      else if ty = "public".toList then ((d.get Pnms.optPort).bind pyInt).map fun p => "None:".toList ++ intStr p
      else ((d.get Pnms.optPort).bind pyInt).map fun p => "127.0.0.1:".toList ++ intStr p

/-- `pidStr` (StatusOutputProcessor.py:13-17, PNMSDevice.py:131-136). -/
def pidText (E : Env) (n : Str) : Option Str := match E.pidFile n with
  | none => some []
  | some c => (pyInt c).map fun p => if p = 0 then [] else "(PID: ".toList ++ intStr p ++ ")".toList

/-- `PNMSDeviceStatusOutputProcessor.process` (StatusOutputProcessor.py:5-22). -/
def baseText (E : Env) (d : Dict Str Str) (n t : Str) : Option Str := match pidText E n, enabled E d n t with
  | some p, some s => some (t ++ ' ' :: n ++ ":\n\tStatus: ".toList ++ statusStr s ++ ' ' :: p ++ "\n\tAuto-Enable: ".toList ++
      boolStr (decide (d.get Pnms.optAuto = some "true".toList)) ++ "\n".toList)
  | _, _ => none

/-- `SwitchDeviceStatusOutputProcessor.process` (StatusOutputProcessor.py:24-36). -/
def switchText (E : Env) (d : Dict Str Str) (n t : Str) : Option Str := match baseText E d n t, tcpText E d n t, apType d with
  | some b, some l, some ty => some (b ++ "\tPNMS Managed: ".toList ++ boolStr (decide (ty = "managed".toList)) ++ "\n\tTCP Location: ".toList ++ l ++ "\n".toList)
  | _, _, _ => none

/-- `sub in s` of Python. -/
def contains (sub : Str) : Str → Bool
  | [] => sub.isEmpty
  | c :: cs => sub.isPrefixOf (c :: cs) || contains sub cs

/-- `connectionStatus` (InterfaceDevice.py:106-117); `none`: the file cannot be read. -/
def lifeText (E : Env) (n : Str) : Option Str :=
  if E.state n = .enabled then (E.statusFile n).map fun c =>
    if contains "disconnected".toList (Routes.norm c) then "Failed".toList
    else if contains "connected".toList (Routes.norm c) then "Live".toList else "Unknown".toList
  else some "Disabled".toList

/-- The access point of an interface (StatusOutputProcessor.py:47-53): its name, with where it listens if there is such a device. -/
def linkText (E : Env) (m : Mgr) (n : Str) : Option Str := match Pnms.connectedTo m n with
  | none => some "None".toList
  | some [] => some []
  | some c => match (Pnms.get m c).2 with
    | .error _ => none
    | .ok none => some c
    | .ok (some t) => (tcpText E ((m.mem.secs.get c).getD []) c t).map fun l => c ++ " (".toList ++ l ++ ")".toList

def routeText (r : Str) : Str := "\t\t".toList ++ r ++ "\n".toList

/-- `VnicDeviceStatusOutputProcessor.process` (StatusOutputProcessor.py:38-61). -/
def vnicText (E : Env) (m : Mgr) (d : Dict Str Str) (n t : Str) : Option Str :=
  match baseText E d n t, linkText E m n, d.get Pnms.optAddress, lifeText E n with
  | some b, some l, some a, some x => some (b ++ "\tPlayground Address: ".toList ++ a ++ "\n\tConnected To: ".toList ++ l ++ " (".toList ++ x ++ ")\n\tRoutes:\n".toList ++
      (Routes.lookupRoutesForDevice ⟨m.mem.routes, []⟩ n).flatMap routeText)
  | _, _, _, _ => none

/-- The text of a device (StatusOutputProcessor.py:64-75, 86-88); its section exists, because the device was loaded. -/
def deviceText (E : Env) (m : Mgr) (n t : Str) : Option Str :=
  let d := (m.mem.secs.get n).getD []
  if t = Pnms.switch then switchText E d n t
  else if t = Pnms.vnic then vnicText E m d n t
  else baseText E d n t

/-- The loop over the devices (StatusOutputProcessor.py:84-89). -/
def devicesText (E : Env) (m : Mgr) : Dict Str Str → Option Str
  | [] => some []
  | (n, t) :: l => match deviceText E m n t, devicesText E m l with
    | some a, some b => some (a ++ "\n".toList ++ b)
    | _, _ => none

/-- `DeviceStatusOutputProcessor().process(manager)` (StatusOutputProcessor.py:77-91). -/
def statusText (E : Env) (m : Mgr) : Option Str :=
  (devicesText E m m.mem.devices).map fun x => "\nPlayground Networking Configuration:\n-------------------------------------\n\n".toList ++ x

/-! ## Commands -/

/-- How the function of a subcommand ends: it returns; with an exception; with `sys.exit(message)`. -/
inductive Stop where
  | done | raised | exits
  deriving DecidableEq

/-- The function of a subcommand: the contents of the file while it runs, what it writes, and how it ends. -/
structure Ran where
  files : List (Option Cfg)
  out : List Str
  stop : Stop
  deriving DecidableEq

def ofPnms (r : Mgr × Option Pnms.Err) : Ran := ⟨r.1.files, [], if r.2.isNone then .done else .raised⟩

def ofWork (files : List (Option Cfg)) : Option (List Str) → Ran
  | some o => ⟨files, o, .done⟩
  | none => ⟨files, [], .raised⟩

/-- `initialize_device` (pnetworking.py:148-152), and what follows for the device. -/
def withDevice (m : Mgr) (n : Str) (k : Mgr → Str → Ran) : Ran := match Pnms.get m n with
  | (m', .error _) => ⟨m'.files, [], .raised⟩
  | (m', .ok none) => ⟨m'.files, [], .exits⟩
  | (m', .ok (some t)) => k m' t

/-- `args.func(args)` with a directory `p` and a manager `m` (pnetworking.py:148-178, 205-290). `status <device>` reads the name `deviceName`, which does not
exist (173); `routes` writes the method instead of its result and then calls `initialize_manager`, which does not exist (282). -/
def perform (E : Env) (p : Str) (m : Mgr) : Cmd → Ran
  | .add n t args => ofPnms (Pnms.addDevice m n t args)
  | .remove n => ofPnms (Pnms.removeDevice m n)
  | .config n v args => withDevice m n fun m' t => ofPnms (Pnms.configDevice m' n t v args)
  | .enable n => withDevice m n fun m' _ => ofWork m'.files (E.work (.enable n))
  | .disable n => withDevice m n fun m' _ => ofWork m'.files (E.work (.disable n))
  | .query n v args => withDevice m n fun m' _ => ofWork m'.files (E.work (.query n v args))
  | .routes => ⟨m.files, ["<bound method RoutesStatusOutputProcessor.process>".toList], .raised⟩
  | .status none => match statusText E m with
    | some x => ⟨m.files, ["\nConfiguration: ".toList ++ p, x], .done⟩
    | none => ⟨m.files, ["\nConfiguration: ".toList ++ p], .raised⟩
  -- with an empty name, `if args.device` is false
  | .status (some []) => match statusText E m with
    | some x => ⟨m.files, ["\nConfiguration: ".toList ++ p, x], .done⟩
    | none => ⟨m.files, ["\nConfiguration: ".toList ++ p], .raised⟩
  | .status (some _) => ⟨m.files, ["\nConfiguration: ".toList ++ p], .raised⟩
  | c => ofWork m.files (E.work c)

/-- The same without a directory, for the functions in `_preinit_functions` (pnetworking.py:211, 229, 287); the others are not called (303-304). -/
def performNoPath (E : Env) : Cmd → Ran
  | .status _ => ⟨[], ["\nPNetworking not yet configured. Must initialize first.".toList], .done⟩
  | .help s => ofWork [] (E.work (.help s))
  | .init l o => ofWork [] (E.work (.init l o))
  | _ => ⟨[], [], .exits⟩

/-- The end of the process. -/
structure Result where
  files : List (Option Cfg)
  out : List Str
  code : Nat                -- exit status
  deriving DecidableEq

/-- `except Exception` and the end of `main` (pnetworking.py:308-323): `sys.exit(message)` is 1; after an exception, `self._fail()` is `sys.exit()`, which is 0; at
the end of standard input, `input` raises EOFError. -/
def finish (E : Env) (r : Ran) : Result := match r.stop with
  | .done => ⟨r.files, r.out, 0⟩
  | .exits => ⟨r.files, r.out, 1⟩
  | .raised => ⟨r.files, r.out ++ ["Error executing pnetworking".toList], if E.typed then 0 else 1⟩

/-- `execute` (pnetworking.py:299-318). -/
def execute (E : Env) (argv : List Str) : Result := match parse argv with
  | none => ⟨[], [], 2⟩
  | some c => match E.path with
    | none => finish E (performNoPath E c)
    | some p => match Pnms.load E.file with
      | (m, some _) => ⟨m.files, [], 1⟩
      | (m, none) => finish E (perform E p m c)

/-- The file after a call. -/
def after (E : Env) (argv : List Str) : Option Cfg := (execute E argv).files.getLast?.getD E.file

/-- Several calls, one after the other; `Es` is what each of them finds, but for the file. -/
def session (f : Option Cfg) : List (Env × List Str) → Option Cfg
  | [] => f
  | (E, argv) :: l => session (after { E with file := f } argv) l

end Verif.Cli
