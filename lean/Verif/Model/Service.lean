import Verif.Model.PyStr
import Verif.Model.Dict
/-! # The connector service and the calls of the package (devices/vnic/connect.py:427-517)

Connectors are numbered, 0 is the `PlaygroundConnector` made at the start. What a load finds on the disk, and what the modules it runs do, is
part of each event.

Simplifications: a module calls nothing of the service but `setConnector` while it is loaded (a `getConnector` there during the first load
would start another load); packet definitions (the silo around a module) are C20. -/
namespace Verif.Service

/-- How running a module ends: normally, with an exception, or with one that is not an `Exception` (`sys.exit()`, Ctrl-C). -/
inductive End where
  | ok | exception | fatal
  deriving DecidableEq

/-- An entry of the directory `connectors`: whether it has an `__init__.py`, which connectors it sets when it runs, how it ends. -/
structure Mod where
  pkg : Bool
  sets : List (Str × Nat)
  ends : End
  deriving DecidableEq

/-- What a load finds: `Configure.CurrentPath()`, whether `connectors/__init__.py` is there or can be written, and the directory (`none`:
it cannot be listed). -/
structure Env where
  path : Option Str
  initOk : Bool
  listing : Option (List Mod)
  deriving DecidableEq

inductive Err where
  | noPath | noInit | noList | fatal | noSuch (name : Str) | noPort | badHost
  deriving DecidableEq

structure St where
  defaults : Dict Str Nat       -- _default_connectors
  conns : Dict Str Nat          -- _connectors
  loaded : Bool                 -- _loaded
  auto : Bool                   -- _autoLoading
  sysPath : List Str            -- sys.path
  deriving DecidableEq

/-- `__init__` (connect.py:439-444). -/
def St.init (sysPath : List Str) : St := ⟨[("default".toList, 0)], [("default".toList, 0)], false, false, sysPath⟩

/-- `setConnector` (connect.py:491-494). -/
def setConnector (s : St) (name : Str) (c : Nat) : St :=
  { s with defaults := if s.auto then s.defaults else s.defaults.set name c, conns := s.conns.set name c }

def setAll (s : St) : List (Str × Nat) → St
  | [] => s
  | (n, c) :: l => setAll (setConnector s n c) l

/-- The loop over the directory (connect.py:464-478). The flag says whether an exception leaves it. -/
def runMods (s : St) : List Mod → St × Bool
  | [] => (s, false)
  | m :: ms =>
    if m.pkg then
      match m.ends with
      | .fatal => (setAll s m.sets, true)
      | _ => runMods (setAll s m.sets) ms
    else runMods s ms

/-- `reloadConnectors` (connect.py:446-481). `sys.path = oldPath` changes nothing: both are the same list. -/
def reload (s : St) (force : Bool) (env : Env) : St × Option Err :=
  if s.loaded && !force then (s, none) else
  let s1 := { s with conns := s.defaults }
  match env.path with
  | none => (s1, some .noPath)
  | some p =>
    let s2 := { s1 with sysPath := if p ∈ s1.sysPath then s1.sysPath else p :: s1.sysPath }
    if env.initOk then
      let s3 := { s2 with auto := true }
      match env.listing with
      | none => (s3, some .noList)
      | some ms =>
        match runMods s3 ms with
        | (s4, true) => (s4, some .fatal)
        | (s4, false) => ({ s4 with auto := false, loaded := true }, none)
    else (s2, some .noInit)

/-- `getConnector` (connect.py:485-489). -/
def getConnector (s : St) (name : Str) (env : Env) : St × Except Err Nat :=
  match reload s false env with
  | (s1, some e) => (s1, .error e)
  | (s1, none) => match s1.conns.get name with
    | none => (s1, .error (.noSuch name))
    | some c => (s1, .ok c)

/-- `s.split("://")`. -/
def splitScheme : Str → List Str
  | [] => [[]]
  | c :: s =>
    if "://".toList.isPrefixOf (c :: s) then [] :: splitScheme (s.drop 2)
    else match splitScheme s with
      | [] => [[c]]
      | p :: ps => (c :: p) :: ps
termination_by s => s.length
decreasing_by all_goals simp <;> omega

/-- Family and host (connect.py:504-507, 513-516). -/
def resolve (family : Option Str) (host : Option Str) : Except Err (Str × Option Str) := match family with
  | some f => .ok (f, host)
  | none => match host with
    | none => .ok ("default".toList, none)
    | some h =>
      if (splitScheme h).length = 1 then .ok ("default".toList, some h)     -- "://" not in host
      else match splitScheme h with
        | [f, h'] => .ok (f, some h')
        | _ => .error .badHost

/-- `create_connection` (connect.py:510-517): the connector asked, and the host it gets (`none` is Python's None). -/
def createConnection (s : St) (host : Option Str) (family : Option Str) (env : Env) : St × Except Err (Nat × Option Str) :=
  match resolve family host with
  | .error e => (s, .error e)
  | .ok (f, h) => match getConnector s f env with
    | (s1, .error e) => (s1, .error e)
    | (s1, .ok c) => (s1, .ok (c, h))

/-- `create_server` (connect.py:499-508). -/
def createServer (s : St) (host : Option Str) (port : Option Nat) (family : Option Str) (env : Env) : St × Except Err (Nat × Option Str) :=
  let host := match host with
    | none => some "default".toList
    | some h => some h
  match port with
  | none => (s, .error .noPort)
  | some _ => createConnection s host family env

inductive Ev where
  | set (name : Str) (c : Nat)                  -- playground.setConnector, by the program
  | reload (force : Bool) (env : Env)           -- playground.reloadConnectors
  | get (name : Str) (env : Env)                -- playground.getConnector
  | connect (host family : Option Str) (env : Env)                      -- playground.create_connection
  | serve (host : Option Str) (port : Option Nat) (family : Option Str) (env : Env)     -- playground.create_server
  deriving DecidableEq

def step (s : St) : Ev → St
  | .set n c => setConnector s n c
  | .reload force env => (reload s force env).1
  | .get n env => (getConnector s n env).1
  | .connect h f env => (createConnection s h f env).1
  | .serve h p f env => (createServer s h p f env).1

def exec (s : St) : List Ev → St
  | [] => s
  | e :: h => exec (step s e) h

end Verif.Service
