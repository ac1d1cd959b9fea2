import Verif.Model.Dispatch
/-! # Specification vocabulary for C97 -/
namespace Verif.Dispatch

/-- `a` is an ancestor of `c` on a way of `n` steps from class to base that does not go beyond a terminal. -/
inductive Above (stop : Nat → Bool) : Class → Nat → Class → Prop where
  | self (c : Class) : Above stop c 0 c
  | up {c b a : Class} {n : Nat} (hs : stop c.name = false) (hb : b ∈ c.bases) (h : Above stop b n a) : Above stop c (n + 1) a

/-- The key of a type itself. -/
def Typ.key : Typ → Key
  | .plain c => .one c.name
  | .complex c d => .two c.name d.name

/-- `y` is a type that generalizes `x`: `n` steps above it in the field type, `m` in the type of the data. -/
inductive General (r : Roots) : Typ → Nat → Nat → Typ → Prop where
  | plain {c a : Class} {n : Nat} (h : Above r.outer c n a) : General r (.plain c) n 0 (.plain a)
  | complex {c a d b : Class} {n m : Nat} (h : Above r.outer c n a) (h' : Above r.inner d m b) : General r (.complex c d) n m (.complex a b)

/-- A class derived from `b` (and from nothing else). -/
def derive (name : Nat) (b : Class) : Class := .mk name (.cons b .nil)

/-- A class derived from `m` and `b`. -/
def derive2 (name : Nat) (m b : Class) : Class := .mk name (.cons m (.cons b .nil))

/-- A class outside the library: it and all above it are the user's own classes (numbers from 13 on) or `object`. -/
def Foreign (m : Class) : Prop := ∀ n a, Above roots.inner m n a → a.name = 0 ∨ 13 ≤ a.name

/-- Classes derived from `b` by the user in any number of steps, possibly with foreign classes as further bases. -/
inductive Derived (b : Class) : Class → Prop where
  | self : Derived b b
  | step (nm : Nat) (hn : 13 ≤ nm) {c : Class} (h : Derived b c) : Derived b (derive nm c)
  | left (nm : Nat) (hn : 13 ≤ nm) {c m : Class} (hm : Foreign m) (h : Derived b c) : Derived b (derive2 nm m c)
  | right (nm : Nat) (hn : 13 ≤ nm) {c m : Class} (hm : Foreign m) (h : Derived b c) : Derived b (derive2 nm c m)

/-- ... without other bases. -/
inductive Only (b : Class) : Class → Prop where
  | self : Only b b
  | step (nm : Nat) (hn : 13 ≤ nm) {c : Class} (h : Only b c) : Only b (derive nm c)

end Verif.Dispatch
