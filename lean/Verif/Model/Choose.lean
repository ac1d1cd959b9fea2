import Verif.Model.Pnms
/-! # network/devices/vnic/connect.py: which interface a connection or server uses

`StandardVnicService`, and the beginnings of `create_playground_connection`, `create_playground_server` and `raw_vnic_connection`, up to the control
connection (Model/Connector.lean goes on from there). The service reads the network configuration (Model/Pnms.lean) when it is made, and never again.
What the objects of the devices have found about their processes then (Model/Device.lean), and what is now in the status files, is given by
`World`. -/
namespace Verif.Choose
open Verif.Pnms (Mgr Cfg get isIface)

inductive Err where
  | manager (e : Pnms.Err)    -- the network manager raises
  | route (e : Routes.Err)    -- a route is no address block
  | address                   -- InvalidPlaygroundAddress
  | option                    -- KeyError, ValueError: an option of the device
  | attribute                 -- AttributeError, NameError
  | file                      -- the status file is not there, or no number is in it
  | noVnic                    -- Could not find a valid vnic
  | notReady                  -- Playground network not ready, Could not find an active VNIC
  | invalid                   -- Invalid VNIC address and/or port
  deriving DecidableEq

/-- `enabled`: `_enableStatus` of the object of the device is `STATUS_ENABLED`. `line`: the first line of the status file of the device, if it is
there. -/
structure World where
  enabled : Str → Bool
  line : Str → Option Str

/-- `StandardVnicService.__init__` (connect.py:384-390). An exception is swallowed; the name of the attribute set in that case is misspelled, so that the
manager stays, with what it has loaded. -/
def service (f : Option Cfg) : Mgr := (Pnms.load f).1

/-- `getDefaultVnic` (connect.py:392-395, NetworkManager.py:129-130). -/
def getDefaultVnic (m : Mgr) : Option Str := Routes.getDefaultRoute ⟨m.mem.routes, []⟩

/-- `getVnicByDestination` (connect.py:397-400, NetworkManager.py:132-139). -/
def getVnicByDestination (m : Mgr) (a : Addr) : Except Err (Option Str) := match Routes.getRoutingDevice ⟨m.mem.routes, []⟩ a with
  | .error e => .error (.route e)
  | .ok o => .ok o

/-- An option of the section of a device: `self._config[option]`. -/
def option (m : Mgr) (n o : Str) : Option Str := (m.mem.secs.get n).bind (·.get o)

/-- `device.address()` (InterfaceDevice.py:78-79); access points have no such method. -/
def address (m : Mgr) (n t : Str) : Except Err Str :=
  if isIface t then match option m n Pnms.optAddress with
    | none => .error .option
    | some a => .ok a
  else .error .attribute

/-- The loop of `getVnicByLocalAddress` (connect.py:405-411). -/
def localLoop (host : Str) (m : Mgr) : List Str → Mgr × Except Err (Option Str)
  | [] => (m, .ok none)
  | n :: ns =>
    if m.mem.devices.get n = some Pnms.vnic then match get m n with
      | (m', .error e) => (m', .error (.manager e))
      | (m', .ok none) => (m', .error .attribute)
      | (m', .ok (some t)) => match address m' n t with
        | .error e => (m', .error e)
        | .ok a => if a = host then (m', .ok (some n)) else localLoop host m' ns
    else localLoop host m ns

/-- `getVnicByLocalAddress` (connect.py:402-411). -/
def getVnicByLocalAddress (m : Mgr) (host : Str) : Mgr × Except Err (Option Str) := localLoop host m m.mem.devices.keys

/-- `getVnicPlaygroundAddress` (connect.py:413-419). -/
def getVnicPlaygroundAddress (m : Mgr) : Option Str → Mgr × Except Err (Option Addr)
  | none => (m, .ok none)
  | some n =>
    if n = [] then (m, .ok none)
    else match get m n with
      | (m', .error e) => (m', .error (.manager e))
      | (m', .ok none) => (m', .ok none)
      | (m', .ok (some t)) => match address m' n t with
        | .error e => (m', .error e)
        | .ok a => match Addr.addressFromString a with
          | .error _ => (m', .error .address)
          | .ok x => (m', .ok (some x))

/-- A pair of a host and a port; either can be `None`. -/
structure Loc where
  host : Option Str
  port : Option Int
  deriving DecidableEq

def localhost : Str := "127.0.0.1".toList

/-- `(None, None)`. -/
def Loc.nowhere : Loc := ⟨none, none⟩

/-- `int(f.readline())` in the status file. -/
def portFrom : Option Str → Except Err Loc
  | none => .error .file
  | some l => match pyInt l with
    | none => .error .file
    | some p => .ok ⟨some localhost, some p⟩

/-- `int(self._config[CONFIG_OPTION_PORT])`. -/
def portOption (m : Mgr) (n : Str) (host : Option Str) : Except Err Loc := match option m n Pnms.optPort with
  | none => .error .option
  | some p => match pyInt p with
    | none => .error .option
    | some p => .ok ⟨host, some p⟩

/-- `tcpLocation` (InterfaceDevice.py:81-87, NetworkAccessPoint.py:67-82). -/
def tcpLocation (w : World) (m : Mgr) (n t : Str) : Except Err Loc :=
  if isIface t then (if w.enabled n then portFrom (w.line n) else .ok .nowhere)
  else match option m n Pnms.optType with
    | none => .error .option
    | some c =>
      if c = "managed".toList then (if w.enabled n then portFrom (w.line n) else .ok .nowhere)
      else if c = "remote".toList then (match option m n Pnms.optTcpAddress with
        | none => .error .option
        | some h => portOption m n (some h))
      else if c = "public".toList then portOption m n none
      else portOption m n (some localhost)

/-- `getVnicTcpLocation` (connect.py:421-425). -/
def getVnicTcpLocation (w : World) (m : Mgr) (n : Str) : Mgr × Except Err (Option Loc) :=
  if n = [] then (m, .ok none)
  else match get m n with
    | (m', .error e) => (m', .error (.manager e))
    | (m', .ok none) => (m', .ok none)
    | (m', .ok (some t)) => match tcpLocation w m' n t with
      | .error e => (m', .error e)
      | .ok l => (m', .ok (some l))

/-- The destination of a connection: a string or a `PlaygroundAddress`. -/
inductive Dest where
  | text (s : Str)
  | addr (a : Addr)
  deriving DecidableEq

/-- The address of a destination (connect.py:243-246). `FromString(None)` raises, too (PlaygroundAddress.py:30-31). -/
def resolve (m : Mgr) : Dest → Mgr × Except Err Addr
  | .addr a => (m, .ok a)
  | .text s =>
    if s = "localhost".toList then match getVnicPlaygroundAddress m (getDefaultVnic m) with
      | (m', .error e) => (m', .error e)
      | (m', .ok none) => (m', .error .address)
      | (m', .ok (some a)) => (m', .ok a)
    else match Addr.addressFromString s with
      | .error _ => (m, .error .address)
      | .ok a => (m, .ok a)

/-- What is used: the address of the peer or of the server, the interface, and its TCP location. -/
structure Choice where
  address : Option Addr
  vnic : Str
  loc : Loc
  deriving DecidableEq

/-- Where the interface is (connect.py:250-256). -/
def locate (w : World) (m : Mgr) (a : Addr) : Option Str → Mgr × Except Err Choice
  | none => (m, .error .noVnic)
  | some n =>
    if n = [] then (m, .error .noVnic)
    else match getVnicTcpLocation w m n with
      | (m', .error e) => (m', .error e)
      | (m', .ok none) => (m', .error .notReady)
      | (m', .ok (some l)) => (m', .ok ⟨some a, n, l⟩)

/-- `create_playground_connection(factory, destination, port, vnicName)` up to the control connection (connect.py:243-256). The tuple `(None, None)`
is true. -/
def connect (w : World) (m : Mgr) (d : Dest) (vnicName : Str) : Mgr × Except Err Choice := match resolve m d with
  | (m', .error e) => (m', .error e)
  | (m', .ok a) =>
    if vnicName = "default".toList then match getVnicByDestination m' a with
      | .error e => (m', .error e)
      | .ok o => locate w m' a o
    else locate w m' a (some vnicName)

/-- The interface for a server (connect.py:313-316). -/
def serverVnic (m : Mgr) (host : Str) : Mgr × Except Err (Option Str) :=
  if host = "default".toList ∨ host = "localhost".toList then (m, .ok (getDefaultVnic m)) else getVnicByLocalAddress m host

/-- `not vnicAddr or not vnicPort`. -/
def Loc.bad (l : Loc) : Bool := (l.host.getD []).isEmpty || l.port.getD 0 == 0

/-- The end of `place`: the location. Only for servers it is checked (connect.py:321-330; 369-374). -/
def active (check : Bool) (w : World) (m : Mgr) (n : Str) (a : Option Addr) : Mgr × Except Err Choice := match getVnicTcpLocation w m n with
  | (m', .error e) => (m', .error e)
  | (m', .ok none) => (m', .error .notReady)
  | (m', .ok (some l)) => if check && l.bad then (m', .error .invalid) else (m', .ok ⟨a, n, l⟩)

/-- From the interface to its location, for servers and raw connections (connect.py:317-330; 365-374). -/
def place (check : Bool) (w : World) (m : Mgr) : Option Str → Mgr × Except Err Choice
  | none => (m, .error .noVnic)
  | some n =>
    if n = [] then (m, .error .noVnic)
    else match getVnicPlaygroundAddress m (some n) with
      | (m', .error e) => (m', .error e)
      | (m', .ok a) => active check w m' n a

/-- `create_playground_server(factory, port, host)` up to the control connection (connect.py:312-330). -/
def serve (w : World) (m : Mgr) (host : Str) : Mgr × Except Err Choice := match serverVnic m host with
  | (m', .error e) => (m', .error e)
  | (m', .ok o) => place true w m' o

/-- `raw_vnic_connection(factory, vnicName)` up to the connection (connect.py:360-376): the name `host` is not defined. -/
def raw (w : World) (m : Mgr) (vnicName : Str) : Mgr × Except Err Choice :=
  if vnicName = "default".toList then place false w m (getDefaultVnic m) else (m, .error .attribute)

end Verif.Choose
