import Verif.Model.Dict
/-! # Attributes of fields (network/packet/fieldtypes/PacketFieldType.py, attributes/)

Attributes are compared by identity. A copy is made by calling the field; `CreateInstance` with a field (PacketFieldType.py:26-27) calls a method `clone` that does not exist; nothing calls it. Simplification: an attribute's bases and its conversion do not change (they are fixed when it is made). -/
namespace Verif.Attrs
variable {A V X : Type} [DecidableEq A]

/-- The attributes of a program: the bases of each (`baseAttributes`, FieldTypeAttribute.py:3-7), its conversion of values (`translateAttributeValue`, FieldTypeAttribute.py:9-16,
scalar_validators.py:23-27), whether it is a `Validator`, and its `validate` (Validator.py:8-9), of the data and the value. -/
structure World (A V X : Type) where
  bases : A → List A
  convert : A → A → V → V
  validator : A → Bool
  validate : A → X → V → Bool

/-- The `while` of `__init__` for one attribute `a` with the value `v` (PacketFieldType.py:46-50). The number bounds the turns; `none` if they are not enough. -/
def absorb (w : World A V X) (a : A) (v : V) : Nat → List A → Dict A V → Option (Dict A V)
  | 0, _, _ => none
  | _ + 1, [], d => some d
  | k + 1, b :: q, d => if d.has b then absorb w a v k q d else absorb w a v k (q ++ w.bases b) (d.set b (w.convert a b v))

/-- The `for` of `__init__` (PacketFieldType.py:41-52). -/
def absorbAll (w : World A V X) (k : Nat) : List A → Dict A V → Option (Dict A V)
  | [], d => some d
  | a :: l, d => match d.get a with
    | none => none
    | some v => match absorb w a v k (w.bases a) d with
      | none => none
      | some d' => absorbAll w k l d'

/-- A field type: `_attributes` and `_validators` (PacketFieldType.py:34-52). -/
structure Field (A V : Type) where
  attrs : Dict A V
  validators : List A

/-- `__init__` with a dictionary of attributes (PacketFieldType.py:34-53). -/
def make (w : World A V X) (k : Nat) (given : Dict A V) : Option (Field A V) := match absorbAll w k given.keys given with
  | none => none
  | some d => some ⟨d, given.keys.filter fun a => w.validator a⟩

/-- `dict.update`. -/
def update (d : Dict A V) : Dict A V → Dict A V
  | [] => d
  | (a, v) :: l => update (d.set a v) l

/-- `__call__`, a copy of the field type with some other attributes (PacketFieldType.py:78-85). -/
def copy (w : World A V X) (k : Nat) (f : Field A V) (new : Dict A V) : Option (Field A V) := make w k (update f.attrs new)

/-- `_getAttribute` (PacketFieldType.py:75-76). -/
def getAttribute (f : Field A V) (a : A) : Option V := f.attrs.get a

/-- The validators of `setData` (PacketFieldType.py:60-63), which raises if one refuses. -/
def valid (w : World A V X) (f : Field A V) (x : X) : Bool := f.validators.all fun a => match f.attrs.get a with
  | none => false
  | some v => w.validate a x v

end Verif.Attrs
