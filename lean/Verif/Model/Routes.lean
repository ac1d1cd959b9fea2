import Verif.Model.Address
import Verif.Model.Dict
/-! # network/devices/pnms/NetworkManager.py: the section `routes` of the network configuration

The section is a `configparser` section: its keys are put in lower case when they are set, read or deleted (`optionxform`; here the
lower case of ASCII letters only). Not modelled: the interpolation of `%` in values; the other sections; the check whether a device may have
routes (`RoutesDeviceAPI.__init__`, which is passed by all interfaces). -/
namespace Verif.Routes

/-- `optionxform`. -/
def norm (s : Str) : Str := s.map Char.toLower

/-- `DEFAULT_ROUTE_KEY` (NetworkManager.py:114). -/
def defaultKey : Str := "__default__".toList

/-- The section in memory, and in the file. -/
structure St where
  sec : Dict Str Str
  saved : Dict Str Str
  deriving DecidableEq

def St.init : St := ⟨[], []⟩

inductive Err where
  | mapped     -- Route ... is already mapped to device ...
  | notMine    -- ... does not have route ... / the default route
  | address (e : AErr)
  deriving DecidableEq, Repr

/-- `self._config.get(key, None)` and `self._config[key]` (for a key that is there). -/
def cget (s : St) (k : Str) : Option Str := s.sec.get (norm k)

/-- `key in self._config`: the adapter has no `__contains__`, so that the keys are compared one by one, as they are
(NetworkManager.py:27-59). -/
def contains (s : St) (k : Str) : Bool := decide (k ∈ s.sec.keys)

def save (s : St) : St := { s with saved := s.sec }

/-- `addRoute` (NetworkManager.py:159-163). -/
def addRoute (s : St) (dev r : Str) : St × Option Err :=
  if contains s r then (s, some .mapped) else (save { s with sec := s.sec.set (norm r) dev }, none)

/-- `removeRoute` (NetworkManager.py:165-168); nothing is saved. -/
def removeRoute (s : St) (dev r : Str) : St × Option Err :=
  if !contains s r || decide (cget s r ≠ some dev) then (s, some .notMine) else ({ s with sec := s.sec.del (norm r) }, none)

/-- `setDefaultRoute` (NetworkManager.py:170-172). -/
def setDefaultRoute (s : St) (dev : Str) : St := save { s with sec := s.sec.set (norm defaultKey) dev }

/-- `unsetDefaultRoute` (NetworkManager.py:174-178). -/
def unsetDefaultRoute (s : St) (dev : Str) : St × Option Err :=
  if cget s defaultKey = some dev then (save { s with sec := s.sec.del (norm defaultKey) }, none) else (s, some .notMine)

/-- `lookupDeviceForRoute` (NetworkManager.py:119-120). -/
def lookupDeviceForRoute (s : St) (r : Str) : Option Str := cget s r

/-- `lookupRoutesForDevice` (NetworkManager.py:122-127). -/
def lookupRoutesForDevice (s : St) (dev : Str) : List Str := s.sec.keys.filter fun r => decide (cget s r = some dev)

/-- `getDefaultRoute` (NetworkManager.py:129-130). -/
def getDefaultRoute (s : St) : Option Str := cget s defaultKey

/-- The loop of `getRoutingDevice` (NetworkManager.py:133-138), and what follows it (139). -/
def routingLoop (s : St) (a : Addr) : List Str → Except Err (Option Str)
  | [] => .ok (cget s defaultKey)
  | r :: rs =>
    if r = defaultKey then routingLoop s a rs
    else match Addr.blockFromString r with
      | .error e => .error (.address e)
      | .ok b => if b.isParentBlock a then .ok (cget s r) else routingLoop s a rs

/-- `getRoutingDevice` (NetworkManager.py:132-139). -/
def getRoutingDevice (s : St) (a : Addr) : Except Err (Option Str) := routingLoop s a s.sec.keys

/-- The routes of a device are removed when it is destroyed (InterfaceDevice.py:72-76); the removal stops at the first exception. -/
def removeRoutes (s : St) (dev : Str) : List Str → St × Option Err
  | [] => (s, none)
  | r :: rs => match removeRoute s dev r with
    | (s', some e) => (s', some e)
    | (s', none) => removeRoutes s' dev rs

def destroy (s : St) (dev : Str) : St × Option Err := removeRoutes s dev (lookupRoutesForDevice s dev)

/-- The calls that change the routes. -/
inductive Ev where
  | add (dev r : Str)
  | remove (dev r : Str)
  | setDefault (dev : Str)
  | unsetDefault (dev : Str)
  | destroyed (dev : Str)     -- `destroy`, and the `saveConfiguration` of `removeDevice` (NetworkManager.py:288-305)
  | reload                    -- a new process reads the file
  deriving DecidableEq

def step (s : St) : Ev → St
  | .add dev r => (addRoute s dev r).1
  | .remove dev r => (removeRoute s dev r).1
  | .setDefault dev => setDefaultRoute s dev
  | .unsetDefault dev => (unsetDefaultRoute s dev).1
  | .destroyed dev => match destroy s dev with
    | (s', none) => save s'
    | (s', some _) => s'
  | .reload => { s with sec := s.saved }

def exec (s : St) : List Ev → St
  | [] => s
  | e :: h => exec (step s e) h

end Verif.Routes
