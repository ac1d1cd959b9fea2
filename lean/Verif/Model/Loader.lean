import Verif.Model.PyStr
import Verif.Model.Dict
/-! # network/devices/pnms/PNMSDevice.py:7-33 with NetworkManager.py:87-96, 141-157: the classes of devices

The metaclass registers each new class of devices with its type name, its rules for connections and its right to have routes. Classes are numbers in the order of their
definition, 0 is `PNMSDevice`.

Simplifications: one base class each; the three attributes are strings, lists of classes and booleans, and do not change after the definition. -/
namespace Verif.Loader

/-- A class: the numbers of itself and its ancestors, and the attributes that it has or inherits (PNMSDevice.py:46-54). In `connects`, `none` is a class that is no device.
`made`: the definition did not raise, so that the program has the class. -/
structure Class where
  mro : List Nat
  typeName : Option Str            -- REGISTER_DEVICE_TYPE_NAME
  connects : List (Option Nat)     -- CanConnectTo
  routes : Bool                    -- CanRoute
  made : Bool
  deriving DecidableEq

structure St where
  classes : List Class
  registered : Dict Str Nat        -- REGISTERED_DEVICE_TYPES
  rules : List (Nat × Nat)         -- PERMITTED_CONNECTION_TYPES
  routing : List Nat               -- PERMITTED_ROUTING_TYPES
  deriving DecidableEq

/-- After the definition of `PNMSDevice`. -/
def St.init : St := ⟨[⟨[0], none, [], false, true⟩], [], [], []⟩

/-- A class statement: the base, and the attributes that are written in it. -/
structure Body where
  base : Nat
  typeName : Option (Option Str)
  connects : Option (List (Option Nat))
  routes : Option Bool

inductive Err where
  | name        -- there is no such base class
  | duplicate   -- Duplicate Device Type Registration
  | rule        -- Connect rules requires a subclass of device type
  deriving DecidableEq

/-- The loop over `CanConnectTo` (PNMSDevice.py:19-24). `ConnectionPermitted(newClass, deviceType)` asks whether the classes are instances, so that it is false. -/
def addRules (x : Nat) (rs : List (Nat × Nat)) : List (Option Nat) → List (Nat × Nat) × Bool
  | [] => (rs, false)
  | none :: _ => (rs, true)
  | some y :: l => addRules x (rs ++ [(x, y)]) l

/-- The attributes of a new class. -/
def inherit (x : Nat) (base : Class) (b : Body) : Class :=
  ⟨x :: base.mro, b.typeName.getD base.typeName, b.connects.getD base.connects, b.routes.getD base.routes, true⟩

/-- The rest of `loadPnmsDefinitions` (PNMSDevice.py:19-27); `s` without the class, `reg` the registered types. -/
def finish (s : St) (c : Class) (reg : Dict Str Nat) : St × Option Err := match addRules s.classes.length s.rules c.connects with
  | (rs, true) => (⟨s.classes ++ [{ c with made := false }], reg, rs, s.routing⟩, some .rule)
  | (rs, false) => (⟨s.classes ++ [c], reg, rs,
      if c.routes = true ∧ s.classes.length ∉ s.routing then s.routing ++ [s.classes.length] else s.routing⟩, none)

/-- `__new__` and `loadPnmsDefinitions` (PNMSDevice.py:13-33). -/
def define (s : St) (b : Body) : St × Option Err := match s.classes[b.base]? with
  | none => (s, some .name)
  | some base =>
    if base.made then
      let c := inherit s.classes.length base b
      match c.typeName with
      | none => finish s c s.registered
      | some n =>
        if n = [] then finish s c s.registered
        else if s.registered.has n then ({ s with classes := s.classes ++ [{ c with made := false }] }, some .duplicate)
        else finish s c (s.registered.set n s.classes.length)
    else (s, some .name)

def exec (s : St) : List Body → St
  | [] => s
  | b :: h => exec (define s b).1 h

/-- `isinstance(device, x)` for a device of class `a`. -/
def isInstance (s : St) (a x : Nat) : Bool := match s.classes[a]? with
  | none => false
  | some c => decide (x ∈ c.mro)

/-- `ConnectionPermitted` (NetworkManager.py:91-96) for devices of the classes `a` and `b`. -/
def permitted (s : St) (a b : Nat) : Bool := s.rules.any fun r => isInstance s a r.1 && isInstance s b r.2

/-- `RoutesDeviceAPI.__init__` does not raise (NetworkManager.py:149-157) for a device of the class `a`; otherwise it is an UnboundLocalError. -/
def mayRoute (s : St) (a : Nat) : Bool := s.routing.any fun r => isInstance s a r

end Verif.Loader
