import Verif.Model.Dict
/-!
# common/datastructures/Bijection.py

`Bijection.__init__` makes four objects that share two dictionaries. The objects are the constructors
of `BObj`; the attributes `__init__` gives them are functions of the object. Keys and values are Python
objects of one type `α`.
-/
namespace Verif

/-- The four objects built by `Bijection.__init__` (Bijection.py:42-75). -/
inductive BObj where
  | self | inverse | inverseMutable | immutableSelf
  deriving DecidableEq, Repr

/-- `__immutable` (Bijection.py:45, 53-55). -/
def BObj.immutable : BObj → Bool
  | self => false
  | inverse => true
  | inverseMutable => false
  | immutableSelf => true

/-- Which of the two dictionaries is the object's `__forward`: `true` for the dictionary made at line
43, `false` for the one made at line 44 (Bijection.py:43-44, 58-59, 65-66, 72-73). `__reverse` is the
other one. -/
def BObj.fwd : BObj → Bool
  | self => true
  | inverse => false
  | inverseMutable => false
  | immutableSelf => true

/-- `__inverse`, returned by `inverse()` (Bijection.py:46, 61, 67, 74, 102-103). -/
def BObj.inverseOf : BObj → BObj
  | self => inverse
  | inverse => immutableSelf
  | inverseMutable => immutableSelf
  | immutableSelf => inverse

/-- `__inverseMutable` (Bijection.py:47, 60, 68, 75); `None` for immutable objects. -/
def BObj.inverseMutableOf : BObj → Option BObj
  | self => some inverseMutable
  | inverse => none
  | inverseMutable => some self
  | immutableSelf => none

/-- The two shared dictionaries (Bijection.py:43-44). -/
structure BState (α : Type) where
  f : Dict α α
  r : Dict α α

/-- Exceptions. -/
inductive BErr where
  | key        -- KeyError
  | type       -- TypeError of the decorator `mutable`
  | attribute  -- AttributeError
  deriving DecidableEq, Repr

namespace BState
variable {α : Type} [DecidableEq α]

/-- `Bijection()` (Bijection.py:42-75). -/
def new : BState α := ⟨[], []⟩

/-- The object's `__forward`. -/
def forward (s : BState α) (o : BObj) : Dict α α := if o.fwd then s.f else s.r
/-- The object's `__reverse`. -/
def reverse (s : BState α) (o : BObj) : Dict α α := if o.fwd then s.r else s.f
/-- The state after both dictionaries of the object were changed. -/
def put (o : BObj) (fwd rev : Dict α α) : BState α := if o.fwd then ⟨fwd, rev⟩ else ⟨rev, fwd⟩

/-- `__getitem__` (Bijection.py:77-78). -/
def getitem (s : BState α) (o : BObj) (k : α) : Except BErr α :=
  match (s.forward o).get k with
  | some v => .ok v
  | none => .error .key

/-- `__len__` (Bijection.py:80-81). -/
def len (s : BState α) (o : BObj) : Nat := (s.forward o).length

/-- `__iter__` (Bijection.py:83-84): `dict` has no attribute `__iter` (nor `_Bijection__iter`, which the
compiler makes of it). -/
def iter (_ : BState α) (_ : BObj) : Except BErr (List α) := .error .attribute

/-- `if k in a: del b[a[k]]` (Bijection.py:88-90 and 91-93): the new `b`, or `none` for `KeyError`. -/
def dropPartner (a b : Dict α α) (k : α) : Option (Dict α α) :=
  match a.get k with
  | none => some b
  | some dead => if b.has dead then some (b.del dead) else none

/-- `__setitem__` (Bijection.py:86-95), decorated with `mutable` (Bijection.py:3-8). `del` of a missing
key raises `KeyError`, which is kept (it turns out not to happen). -/
def setitem (s : BState α) (o : BObj) (k v : α) : Except BErr Unit × BState α :=
  if o.immutable then (.error .type, s)
  else
    let fwd := s.forward o
    let rev := s.reverse o
    -- lines 88-90
    match dropPartner fwd rev k with
    | none => (.error .key, s)
    | some rev =>
      -- lines 91-93
      match dropPartner rev fwd v with
      | none => (.error .key, put o fwd rev)
      | some fwd => (.ok (), put o (fwd.set k v) (rev.set v k))

/-- `__delitem__` (Bijection.py:97-100), decorated with `mutable`. -/
def delitem (s : BState α) (o : BObj) (k : α) : Except BErr Unit × BState α :=
  if o.immutable then (.error .type, s)
  else
    match (s.forward o).get k with
    | none => (.error .key, s)
    | some v =>
      if (s.reverse o).has v then (.ok (), put o ((s.forward o).del k) ((s.reverse o).del v))
      else (.error .key, s)

/-- `inverseMutable()` (Bijection.py:105-107), decorated with `mutable`. -/
def inverseMutable (o : BObj) : Except BErr BObj :=
  if o.immutable then .error .type
  else match o.inverseMutableOf with
    | some o => .ok o
    | none => .error .attribute

end BState

/-- How a program gets from one view to another. -/
inductive BStep where
  | inverse | inverseMutable
  deriving DecidableEq, Repr

/-- The view reached from an object by a chain of `inverse()`/`inverseMutable()` calls. -/
def BObj.walk : BObj → List BStep → Except BErr BObj
  | o, [] => .ok o
  | o, .inverse :: p => o.inverseOf.walk p
  | o, .inverseMutable :: p =>
    match BState.inverseMutable o with
    | .error e => .error e
    | .ok o => o.walk p

/-- A mutation through some view. -/
inductive BOp (α : Type) where
  | set (k v : α)
  | del (k : α)

/-- Perform an operation through the view reached by a path from the bijection itself. -/
def BState.perform {α : Type} [DecidableEq α] (s : BState α) (path : List BStep) : BOp α → Except BErr Unit × BState α
  | op => match BObj.walk .self path with
    | .error e => (.error e, s)
    | .ok o => match op with
      | .set k v => s.setitem o k v
      | .del k => s.delitem o k

/-- A history of operations. -/
def BState.run {α : Type} [DecidableEq α] : BState α → List (List BStep × BOp α) → BState α
  | s, [] => s
  | s, (p, op) :: ops => (s.perform p op).2.run ops

end Verif
