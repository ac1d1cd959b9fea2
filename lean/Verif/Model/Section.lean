import Verif.Model.Routes
/-! # network/devices/pnms/NetworkManager.py:28-68 with common/datastructures/DelegateAdapter.py: views of a section of the configuration

One section of the network configuration, its copy in the file, and `ConfigSectionAdapter` objects on it, some of them read-only. Not modelled: values that are no strings,
the interpolation of `%`, the other sections (they are saved with it). -/
namespace Verif.Section
open Verif.Routes (norm)

/-- The section in memory and in the file (`SectionProxy`, Configure.py:133-143). -/
structure St where
  sec : Dict Str Str
  saved : Dict Str Str
  deriving DecidableEq

inductive Err where
  | readOnly   -- Section is in read-only mode
  | key        -- KeyError
  | type       -- TypeError
  deriving DecidableEq

/-- What an operation gives. -/
inductive Out where
  | done
  | raised (e : Err)
  | value (v : Option Str)
  | keys (l : List Str)
  | bool (b : Bool)
  deriving DecidableEq

/-- An operation on a view. -/
inductive Op where
  | getItem (k : Str)                     -- view[k]
  | get (k : Str)                         -- view.get(k, None)
  | iter                                  -- for k in view
  | contains (k : Str)                    -- k in view
  | len                                   -- len(view)
  | setItem (k v : Str)                   -- view[k] = v
  | delItem (k : Str)                     -- del view[k]
  | save                                  -- view.save()
  | isReadOnly                            -- view.isReadOnly()
  | update (l : List (Str × Str))         -- view.update(...)
  | setDefault (k v : Str)                -- view.setdefault(k, v)
  | pop (k : Str)                         -- view.pop(k)
  | clear                                 -- view.clear()
  | rawSet (k v : Str)                    -- view.rawSection()[k] = v
  deriving DecidableEq

/-- `SectionProxy.__setitem__`. -/
def put (s : St) (k v : Str) : St := { s with sec := s.sec.set (norm k) v }

/-- `SectionProxy.__delitem__`. -/
def drop (s : St) (k : Str) : St × Out := match s.sec.get (norm k) with
  | none => (s, .raised .key)
  | some _ => ({ s with sec := s.sec.del (norm k) }, .done)

/-- `MutableMapping.update`. -/
def putAll (s : St) : List (Str × Str) → St
  | [] => s
  | (k, v) :: l => putAll (put s k v) l

/-- One operation; `ro`: the view was made without a `save` function. The class has `__getitem__`, `__iter__`, `__delitem__` and `__setitem__`
(NetworkManager.py:35-51); `in` goes through `__iter__`, and `len` finds nothing. Other attributes are those of the section
(DelegateAdapter.py:19-25), so `update`, `setdefault`, `pop` and `clear` work on it directly. -/
def step (s : St) (ro : Bool) : Op → St × Out
  | .getItem k => match s.sec.get (norm k) with
    | none => (s, .raised .key)
    | some v => (s, .value (some v))
  | .get k => (s, .value (s.sec.get (norm k)))
  | .iter => (s, .keys s.sec.keys)
  | .contains k => (s, .bool (decide (k ∈ s.sec.keys)))
  | .len => (s, .raised .type)
  | .setItem k v => if ro then (s, .raised .readOnly) else (put s k v, .done)
  | .delItem k => drop s k
  | .save => if ro then (s, .raised .readOnly) else ({ s with saved := s.sec }, .done)
  | .isReadOnly => (s, .bool ro)
  | .update l => (putAll s l, .done)
  | .setDefault k v => match s.sec.get (norm k) with
    | some x => (s, .value (some x))
    | none => (put s k v, .value (some v))
  | .pop k => match s.sec.get (norm k) with
    | none => (s, .raised .key)
    | some v => ({ s with sec := s.sec.del (norm k) }, .value (some v))
  | .clear => ({ s with sec := [] }, .done)
  | .rawSet k v => (put s k v, .done)

/-- A history of operations, each through a view that is read-only or not. -/
def exec (s : St) : List (Bool × Op) → St
  | [] => s
  | (ro, o) :: h => exec (step s ro o).1 h

end Verif.Section
