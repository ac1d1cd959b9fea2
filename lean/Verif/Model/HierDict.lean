import Verif.Model.Dict
import Verif.Model.PyStr
/-!
# common/datastructures/HierarchicalDictionary.py

With the default key handler (`split(".")`, `".".join`, HierarchicalDictionary.py:29-33). `none` is
`KeyError`.
-/
namespace Verif

/-- A `HierarchicalDictionary`: `_terminals` and `_subDicts` (HierarchicalDictionary.py:35-40). -/
inductive HD (V : Type) where
  | mk (terms : List (Str × V)) (subs : List (Str × HD V))

namespace HD
variable {V : Type}

/-- `HierarchicalDictionary()` (HierarchicalDictionary.py:35-40). -/
def empty : HD V := .mk [] []

/-- `_terminals`. -/
def terms : HD V → Dict Str V | .mk t _ => t
/-- `_subDicts`. -/
def subs : HD V → Dict Str (HD V) | .mk _ s => s

/-- `lookupByKeyParts` (HierarchicalDictionary.py:42-50). -/
def lookup : List Str → HD V → Option V
  | [k], d => d.terms.get k
  | [], _ => none
  | k :: k2 :: ks, d =>
    match d.subs.get k with
    | none => none
    | some s => lookup (k2 :: ks) s

/-- `storeByKeyParts` (HierarchicalDictionary.py:52-60). -/
def store : List Str → V → HD V → Option (HD V)
  | [k], v, d => some (.mk (d.terms.set k v) d.subs)
  | [], _, _ => none
  | k :: k2 :: ks, v, d =>
    match store (k2 :: ks) v ((d.subs.get k).getD empty) with
    | none => none
    | some s => some (.mk d.terms (d.subs.set k s))

mutual
/-- `__len__` (HierarchicalDictionary.py:98-102). -/
def len : HD V → Nat
  | .mk t s => t.length + lenSubs s
/-- The loop of `__len__`. -/
def lenSubs : List (Str × HD V) → Nat
  | [] => 0
  | (_, d) :: l => len d + lenSubs l
end

/-- `deleteByKeyParts` (HierarchicalDictionary.py:62-70). -/
def delete : List Str → HD V → Option (HD V)
  | [k], d => if d.terms.has k then some (.mk (d.terms.del k) d.subs) else none
  | [], _ => none
  | k :: k2 :: ks, d =>
    match d.subs.get k with
    | none => none
    | some s =>
      match delete (k2 :: ks) s with
      | none => none
      | some s => some (.mk d.terms (if s.len = 0 then d.subs.del k else d.subs.set k s))

mutual
/-- `iterKeys(parentKeys)` (HierarchicalDictionary.py:72-84). Both `None` and an empty list are falsy;
an empty list stands for both. -/
def iterKeys : HD V → List Str → List Str
  | .mk t s, parents =>
    (t.map fun e => if parents.isEmpty then e.1 else joinWith '.' (parents ++ [e.1])) ++ iterSubs s parents
/-- The loop over `_subDicts` (HierarchicalDictionary.py:78-84). -/
def iterSubs : List (Str × HD V) → List Str → List Str
  | [], _ => []
  | (k, d) :: l, parents => iterKeys d (if parents.isEmpty then [k] else parents ++ [k]) ++ iterSubs l parents
end

/-- `__getitem__` (HierarchicalDictionary.py:86-88). -/
def getitem (d : HD V) (key : Str) : Option V := lookup (splitOn '.' key) d
/-- `__setitem__` (HierarchicalDictionary.py:90-92). -/
def setitem (d : HD V) (key : Str) (v : V) : Option (HD V) := store (splitOn '.' key) v d
/-- `__delitem__` (HierarchicalDictionary.py:94-96). -/
def delitem (d : HD V) (key : Str) : Option (HD V) := delete (splitOn '.' key) d
/-- `__iter__` (HierarchicalDictionary.py:104-105). -/
def iter (d : HD V) : List Str := d.iterKeys []

end HD

/-- Calls that change the dictionary. -/
inductive HOp (V : Type) where
  | set (key : Str) (v : V)
  | del (key : Str)

/-- A call: did it succeed, and the dictionary afterwards (unchanged when `KeyError` is raised). -/
def HD.step {V : Type} (d : HD V) : HOp V → Bool × HD V
  | .set k v => ((d.setitem k v).isSome, (d.setitem k v).getD d)
  | .del k => ((d.delitem k).isSome, (d.delitem k).getD d)

/-- A history of calls: the successes and the final dictionary. -/
def HD.run {V : Type} : HD V → List (HOp V) → List Bool × HD V
  | d, [] => ([], d)
  | d, op :: ops => ((d.step op).1 :: ((d.step op).2.run ops).1, ((d.step op).2.run ops).2)

end Verif
