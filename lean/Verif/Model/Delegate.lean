import Verif.Model.PyStr
import Verif.Model.Dict
/-! # common/datastructures/DelegateAdapter.py: objects that pass attributes on

Attributes of objects with adapters around them. Not modelled: `_delegate` and `__class__` (REQUIRED_ATTRIBUTES), special methods that Python finds in the class, classes with
`__getattr__` or properties. -/
namespace Verif.Delegate

/-- An object: a plain one with its attributes, or an adapter with its ADAPTED_ATTRIBUTES, the attributes of its class, its own attributes, and its delegate. -/
inductive Obj (V : Type) where
  | plain (attrs : Dict Str V)
  | adapter (adapted : List Str) (cls own : Dict Str V) (d : Obj V)

variable {V : Type}

/-- `getattr(obj, n)` (DelegateAdapter.py:19-25); `none` is an AttributeError. -/
def read : Obj V → Str → Option V
  | .plain a, n => a.get n
  | .adapter ad c o d, n => if n ∈ ad then (match o.get n with
      | some v => some v
      | none => c.get n) else read d n

/-- `obj.n = v`: there is no `__setattr__`, so it becomes an attribute of the object itself. -/
def write : Obj V → Str → V → Obj V
  | .plain a, n, v => .plain (a.set n v)
  | .adapter ad c o d, n, v => .adapter ad c (o.set n v) d

/-- The object `i` steps down, if it exists. -/
def level : Nat → Obj V → Option (Obj V)
  | 0, o => some o
  | i + 1, .adapter _ _ _ d => level i d
  | _ + 1, .plain _ => none

/-- An assignment by somebody who has the object `i` steps down. -/
def writeAt : Nat → Obj V → Str → V → Obj V
  | 0, o, n, v => write o n v
  | i + 1, .adapter ad c o d, n, v => .adapter ad c o (writeAt i d n v)
  | _ + 1, .plain a, _, _ => .plain a

def exec (o : Obj V) : List (Nat × Str × V) → Obj V
  | [] => o
  | (i, n, v) :: h => exec (writeAt i o n v) h

end Verif.Delegate
