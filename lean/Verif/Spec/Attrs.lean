import Verif.Model.Attrs
/-! # Attributes that follow from others

Vocabulary of C114. -/
namespace Verif.Attrs
variable {A V X : Type} [DecidableEq A]

/-- `c` is above `a`: one of its bases, or a base of such, and no attribute on the way (nor `c`) is among those given. -/
inductive Above (w : World A V X) (given : Dict A V) (a : A) : A → Prop
  | base (c : A) : c ∈ w.bases a → c ∉ given.keys → Above w given a c
  | next (b c : A) : Above w given a b → c ∈ w.bases b → c ∉ given.keys → Above w given a c

/-- `c` has the value `x` by the first of the given attributes that it is above: the value of this attribute, converted. -/
def Inherits (w : World A V X) (given : Dict A V) (c : A) (x : V) : Prop :=
  ∃ before a behind v, given.keys = before ++ a :: behind ∧ (∀ a' ∈ before, ¬ Above w given a' c) ∧ Above w given a c ∧ given.get a = some v ∧ x = w.convert a c v

end Verif.Attrs
