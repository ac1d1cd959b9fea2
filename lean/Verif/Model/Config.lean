import Verif.Model.PyStr
import Verif.Model.Dict
/-! # The configuration directory and configuration files (common/Configure.py)

The file system, the home directory and the clock are part of the events. Simplifications: a file is what `configparser` reads from it
(sections of keys and values; it is taken to read back what it has written, and the section DEFAULT is left out); a part of an identifier is
not an absolute path. -/
namespace Verif.Config

inductive Err where
  | key | noInstance | duplicate | access | create | noPath | noFile | mkdir | readOnly
  deriving DecidableEq

/-- `os.path.join(a, b)` for a relative `b`. -/
def pathJoin (a b : Str) : Str := match a.getLast? with
  | none => b
  | some '/' => a ++ b
  | some _ => a ++ '/' :: b

/-- `os.path.join(*parts)`. -/
def pathJoins : List Str → Str
  | [] => []
  | a :: l => l.foldl pathJoin a

/-- `os.path.expanduser` for the home directory `home` (no `~name`). -/
def expanduser (home : Str) (p : Str) : Str := match p with
  | '~' :: r => if r = [] ∨ r.head? = some '/' then home ++ r else p
  | _ => p

structure Paths where
  paths : Dict Str (Option Str)         -- SEARCH_PATHS
  order : List Str                      -- SEARCH_ORDER
  deriving DecidableEq

/-- The class body of `Configure` (Configure.py:11-31); `inst` is the environment variable PLAYGROUND_INSTANCE. -/
def Paths.init (inst : Option Str) : Paths :=
  let p := inst.map fun i => pathJoin i ".playground".toList
  ⟨[("INSTANCE".toList, p), ("USER".toList, some "~/.playground".toList), ("SYSTEM".toList, some "/var/playground".toList)],
    if p.isSome then ["INSTANCE".toList, "USER".toList, "SYSTEM".toList] else ["USER".toList, "SYSTEM".toList]⟩

/-- `ConfigPath` (Configure.py:33-43). -/
def configPath (home : Str) (s : Paths) (k : Str) : Except Err Str := match s.paths.get k with
  | none => .error .key
  | some none => .error .noInstance
  | some (some p) => .ok (expanduser home p)

/-- The loop of `CurrentPath` (Configure.py:45-51). -/
def search (home : Str) (ex : Str → Bool) (s : Paths) : List Str → Except Err (Option Str)
  | [] => .ok none
  | k :: ks => match configPath home s k with
    | .error e => .error e
    | .ok p => if p ≠ [] ∧ ex p = true then .ok (some p) else search home ex s ks

/-- `CurrentPath` (Configure.py:45-51); `ex` says which paths exist. -/
def currentPath (home : Str) (ex : Str → Bool) (s : Paths) : Except Err (Option Str) := search home ex s s.order

/-- `AddCustomPath` (Configure.py:62-67). -/
def addCustomPath (s : Paths) (k p : Str) : Paths × Option Err :=
  if s.paths.has k then (s, some .duplicate)
  else (⟨s.paths.set k (some p), k :: s.order⟩, none)

/-- `Initialize` (Configure.py:53-60): the directory that is made, if any. `mk` says whether `os.mkdir` succeeds. -/
def initialize' (home : Str) (ex : Str → Bool) (mk : Bool) (s : Paths) (k : Str) : Except Err (Option Str) := match configPath home s k with
  | .error e => .error e
  | .ok p => if ex p then .ok none else if mk then .ok (some p) else .error .mkdir

/-! ## Configuration files -/

/-- The sections. -/
abbrev Cfg := Dict Str (Dict Str Str)

instance : DecidableEq Cfg := inferInstanceAs (DecidableEq (List (List Char × List (List Char × List Char))))

structure Handle where
  path : Str
  write : Bool
  spec : Cfg
  modtime : Nat
  cfg : Cfg
  deriving DecidableEq

/-- The files with the time of their last change, and the open configurations. -/
structure St where
  files : Str → Option (Cfg × Nat)
  handles : List Handle

/-- The path of a configuration (Configure.py:75-77, 92-93). -/
def filePath (location ident : Str) : Str := pathJoins (location :: splitOn '.' ident) ++ ".ini".toList

/-- The sections of the specification that are missing are added (Configure.py:133-135). -/
def addSpec (cfg : Cfg) : Cfg → Cfg
  | [] => cfg
  | (k, v) :: l => addSpec (if cfg.has k then cfg else cfg.set k v) l

/-- `reload` (Configure.py:128-135); the time of the file is compared with that of opening. -/
def reloadHandle (files : Str → Option (Cfg × Nat)) (h : Handle) (force : Bool) : Except Err Handle := match files h.path with
  | none => .error .noFile
  | some (c, t) => if t > h.modtime ∨ force = true then .ok { h with cfg := addSpec c h.spec } else .ok h

inductive Access where
  | read | write | other
  deriving DecidableEq

inductive Create where
  | no | overwrite | ifneeded | other
  deriving DecidableEq

def updFile (f : Str → Option (Cfg × Nat)) (p : Str) (v : Option (Cfg × Nat)) : Str → Option (Cfg × Nat) := fun q => if q = p then v else f q

/-- `Open` (Configure.py:81-103) at time `now`; `location` is the directory given or the current one; `mt` is the time a new file gets. -/
def openFile (s : St) (ident : Str) (a : Access) (c : Create) (location : Option Str) (spec : Cfg) (now mt : Nat) : St × Option Err :=
  if a = .other then (s, some .access)
  else if c = .other then (s, some .create)
  else match location with
    | none => (s, some .noPath)
    | some loc =>
      let p := filePath loc ident
      let files := if (s.files p = none ∧ c = .ifneeded) ∨ c = .overwrite then updFile s.files p (some ([], mt)) else s.files
      match files p with
      | none => ({ s with files := files }, some .noFile)
      | some (cfg, _) => (⟨files, s.handles ++ [⟨p, decide (a = .write), spec, now, addSpec cfg spec⟩]⟩, none)

inductive Ev where
  | opn (ident : Str) (a : Access) (c : Create) (location : Option Str) (spec : Cfg) (now mt : Nat)
  | set (k : Nat) (sec : Str) (v : Dict Str Str)        -- config[sec] = v
  | del (k : Nat) (sec : Str)                           -- del config[sec]
  | reload (k : Nat) (force : Bool)
  | save (k : Nat) (mt : Nat)
  | other (path : Str) (v : Option (Cfg × Nat))         -- somebody else writes or removes a file

def modHandle (s : St) (k : Nat) (f : Handle → Handle) : St := { s with handles := s.handles.modify k f }

/-- A call (Configure.py:128-153). `save` of a configuration that is not open for writing raises. -/
def step (s : St) : Ev → St × Option Err
  | .opn i a c l sp now mt => openFile s i a c l sp now mt
  | .set k sec v => (modHandle s k fun h => { h with cfg := h.cfg.set sec v }, none)
  | .del k sec => match s.handles[k]? with
    | none => (s, none)
    | some h => if h.cfg.has sec then (modHandle s k fun h => { h with cfg := h.cfg.del sec }, none) else (s, some .key)
  | .reload k force => match s.handles[k]? with
    | none => (s, none)
    | some h => match reloadHandle s.files h force with
      | .error e => (s, some e)
      | .ok h' => (modHandle s k fun _ => h', none)
  | .save k mt => match s.handles[k]? with
    | none => (s, none)
    | some h => if h.write then ({ s with files := updFile s.files h.path (some (h.cfg, mt)) }, none) else (s, some .readOnly)
  | .other p v => ({ s with files := updFile s.files p v }, none)

def exec (s : St) : List Ev → St
  | [] => s
  | e :: h => exec (step s e).1 h

end Verif.Config
