/-!
# Python's `dict` as an association list in insertion order

Used by all modules that keep dictionaries. Keys are compared with decidable equality (the keys in
the modelled code are strings, integers, tuples or object identities).
-/
namespace Verif

abbrev Dict (α β : Type) := List (α × β)

namespace Dict
variable {α β : Type} [DecidableEq α]

/-- `d.get(k)`; `d[k]` raises `KeyError` exactly when this is `none`. -/
def get : Dict α β → α → Option β
  | [], _ => none
  | (a, b) :: t, k => if a = k then some b else get t k

/-- `d[k] = v`: replaces in place, or appends. -/
def set : Dict α β → α → β → Dict α β
  | [], k, v => [(k, v)]
  | (a, b) :: t, k, v => if a = k then (a, v) :: t else (a, b) :: set t k v

/-- `del d[k]`, for a key that is present (callers check). -/
def del : Dict α β → α → Dict α β
  | [], _ => []
  | (a, b) :: t, k => if a = k then t else (a, b) :: del t k

/-- `k in d`. -/
def has (d : Dict α β) (k : α) : Bool := (d.get k).isSome

/-- `d.keys()` in iteration order. -/
def keys (d : Dict α β) : List α := d.map Prod.fst

/-- `d.values()` in iteration order. -/
def vals (d : Dict α β) : List β := d.map Prod.snd

end Dict
end Verif
