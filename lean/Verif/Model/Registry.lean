import Verif.Model.HierDict
import Verif.Model.Version
/-!
# network/packet/PacketDefinitionRegistration.py and the definition of packet classes

A definition (a packet class) is a value of the type `D`.
-/
namespace Verif

/-- `DefinitionPOD` (PacketDefinitionRegistration.py:6-11). -/
structure Pod (D : Type) where
  versions : Dict Ver D
  majorMax : Int
  minorMax : Dict Int Int

/-- `DefinitionPOD()` (PacketDefinitionRegistration.py:8-11). -/
def Pod.new {D : Type} : Pod D := ⟨[], 0, [(0, 0)]⟩

/-- Exceptions of this module. -/
inductive RErr where
  | name           -- NameError: `findCompatibleVersion` is not defined
  | key            -- KeyError
  | dup            -- ValueError("Duplicate registration")
  | unbound        -- UnboundLocalError: `siloName`
  | siloDup        -- Exception("Cannot have a duplicate name for a silo unless reuse=True")
  | index          -- IndexError: the stack of silos is empty
  | attribute      -- AttributeError of Version.FromString
  | stop           -- StopIteration: the automatic names are used up
  | user           -- any exception raised by the program in between
  deriving DecidableEq, Repr

/-- `PacketDefinitionRegistration` (PacketDefinitionRegistration.py:15-16). -/
abbrev Registry (D : Type) := HD (Pod D)

namespace Registry
variable {D : Type}

/-- The version looked for: `none` is `MOST_RECENT` (PacketDefinitionRegistration.py:22-23). -/
def wantedVersion (p : Pod D) : Option Ver → Except RErr Ver
  | some v => .ok v
  | none =>
    match p.minorMax.get p.majorMax with
    | some m => .ok ⟨p.majorMax, m⟩
    | none => .error .key

/-- `getDefinition(identifier, version)` (PacketDefinitionRegistration.py:18-31). Line 27 reads the
global name `findCompatibleVersion`, which exists nowhere: `NameError`. The parameter
`permitCompatible` is not used. -/
def getDefinition (r : Registry D) (identifier : Str) (version : Option Ver) : Except RErr (Option D) :=
  match r.getitem identifier with
  | none => .ok none
  | some p =>
    if p.versions.isEmpty then .ok none
    else
      match wantedVersion p version with
      | .error e => .error e
      | .ok v =>
        match p.versions.get v with
        | some d => .ok (some d)
        | none => .error .name

/-- `hasDefinition` (PacketDefinitionRegistration.py:33-35); a class is never `None`. -/
def hasDefinition (r : Registry D) (identifier : Str) (version : Option Ver) : Except RErr Bool :=
  match r.getDefinition identifier version with
  | .error e => .error e
  | .ok d => .ok d.isSome

/-- `registerDefinition` (PacketDefinitionRegistration.py:37-42). Storing under a string key never
raises (`split` gives at least one part). -/
def registerDefinition (r : Registry D) (identifier : Str) (v : Ver) (d : D) : Registry D :=
  let p := (r.getitem identifier).getD Pod.new
  let p : Pod D :=
    { versions := p.versions.set v d
      majorMax := max v.major p.majorMax
      minorMax := p.minorMax.set v.major (max ((p.minorMax.get v.major).getD 0) v.minor) }
  (r.setitem identifier p).getD r

/-- `unregisterDefinition` (PacketDefinitionRegistration.py:44-46). -/
def unregisterDefinition (r : Registry D) (identifier : Str) : Registry D :=
  if (r.getitem identifier).isSome then (r.delitem identifier).getD r else r

/-- What `PacketDefinitionLoader.__new__` does to the store it found (PacketType.py:64-69):
duplicates are refused, anything else is registered. -/
def define (r : Registry D) (identifier : Str) (v : Ver) (d : D) : Except RErr Unit × Registry D :=
  match r.hasDefinition identifier (some v) with
  | .error e => (.error e, r)
  | .ok true => (.error .dup, r)
  | .ok false => (.ok (), r.registerDefinition identifier v d)

end Registry

/-- Calls that change a registry directly. -/
inductive ROp (D : Type) where
  | register (identifier : Str) (v : Ver) (d : D)
  | unregister (identifier : Str)

/-- A history of direct calls. -/
def Registry.run {D : Type} : Registry D → List (ROp D) → Registry D
  | r, [] => r
  | r, .register i v d :: ops => Registry.run (r.registerDefinition i v d) ops
  | r, .unregister i :: ops => Registry.run (r.unregisterDefinition i) ops

/-- A history of class definitions. -/
def Registry.defineAll {D : Type} : Registry D → List (Str × Ver × D) → List (Except RErr Unit) × Registry D
  | r, [] => ([], r)
  | r, (i, v, d) :: l =>
    let x := r.define i v d
    (x.1 :: (Registry.defineAll x.2 l).1, (Registry.defineAll x.2 l).2)

/-! ## Silos -/

/-- The class attributes of `PacketDefinitionSilo` (PacketDefinitionRegistration.py:60-62). A registry is
identified by its name in `SILOS`: entries are never removed or replaced (line 80 runs only for new
names), so the stack is a list of names, innermost first. `auto` counts the automatic names used. -/
structure Silos (D : Type) where
  silos : Dict Str (Registry D)
  stack : List Str
  auto : Nat

namespace Silos
variable {D : Type}

def defaultName : Str := "__default__".toList

/-- The state after importing the module (PacketDefinitionRegistration.py:60-62). -/
def init : Silos D := ⟨[(defaultName, HD.empty)], [defaultName], 0⟩

/-- `"__unnamed__{}".format(n)` (PacketDefinitionRegistration.py:62). -/
def autoName (n : Nat) : Str := "__unnamed__".toList ++ natStr n

/-- The name of a new silo (PacketDefinitionRegistration.py:74-75). -/
def pickName (s : Silos D) : Option Str → Except RErr Str × Silos D
  | some n => (.ok n, s)
  | none =>
    if s.auto < 1000000 then (.ok (autoName s.auto), { s with auto := s.auto + 1 }) else (.error .stop, s)

/-- `PacketDefinitionSilo(name, reuse)` (PacketDefinitionRegistration.py:73-82): the name, and the
class state afterwards. -/
def new (s : Silos D) (name : Option Str) (reuse : Bool) : Except RErr Str × Silos D :=
  match s.pickName name with
  | (.error e, s) => (.error e, s)
  | (.ok n, s) =>
    if s.silos.has n then
      if reuse then (.ok n, s) else (.error .siloDup, s)
    else (.ok n, { s with silos := s.silos.set n HD.empty })

/-- `__enter__` (PacketDefinitionRegistration.py:84-86). -/
def enter (s : Silos D) (name : Str) : Silos D := { s with stack := name :: s.stack }

/-- `__exit__` (PacketDefinitionRegistration.py:88-89). -/
def exit (s : Silos D) : Except RErr Unit × Silos D :=
  match s.stack with
  | [] => (.error .index, s)
  | _ :: t => (.ok (), { s with stack := t })

/-- The definition of a packet class (PacketType.py:47-70): `silo` is an explicit
`DEFINITIONS_SILO_NAME` in the class body, in which case `siloName` is never assigned (lines 54-57, 61).
Otherwise the inherited value is `"__current_silo__"` (lines 54-56; all classes in the tree inherit it
from `PacketType`), so the store is the top of the stack (PacketDefinitionRegistration.py:64-71). The
version string is parsed first (line 59). -/
def defineClass (s : Silos D) (identifier version : Str) (silo : Option Str) (d : D) : Except RErr Unit × Silos D :=
  match Ver.fromString version with
  | .error _ => (.error .attribute, s)
  | .ok v =>
    match silo with
    | some _ => (.error .unbound, s)
    | none =>
      match s.stack with
      | [] => (.error .index, s)
      | n :: _ =>
        let x := ((s.silos.get n).getD HD.empty).define identifier v d
        (x.1, { s with silos := s.silos.set n x.2 })

end Silos

/-- A program that defines packet classes in silos. -/
inductive Stmt (D : Type) where
  | define (identifier version : Str) (silo : Option Str) (d : D)
  | withSilo (name : Option Str) (reuse : Bool) (body : List (Stmt D))   -- with PacketDefinitionSilo(...):
  | attempt (body : List (Stmt D))                                       -- try: ... except Exception: pass
  | raise                                                                -- any other exception

mutual
/-- One statement: whether it raised, and the state. -/
def Stmt.exec {D : Type} (s : Silos D) : Stmt D → Except RErr Unit × Silos D
  | .define i v silo d => s.defineClass i v silo d
  | .withSilo name reuse body =>
    match s.new name reuse with
    | (.error e, s) => (.error e, s)
    | (.ok n, s) =>
      let x := Stmt.execAll (s.enter n) body
      match x.2.exit with
      | (.error e, s) => (.error e, s)
      | (.ok _, s) => (x.1, s)
  | .attempt body => (.ok (), (Stmt.execAll s body).2)
  | .raise => (.error .user, s)
/-- Statements in sequence, up to the first that raises. -/
def Stmt.execAll {D : Type} (s : Silos D) : List (Stmt D) → Except RErr Unit × Silos D
  | [] => (.ok (), s)
  | st :: l =>
    match st.exec s with
    | (.error e, s) => (.error e, s)
    | (.ok _, s) => Stmt.execAll s l
end

end Verif
