import Verif.Model.Bytes
import Verif.Model.PyStr
import Verif.Model.Float
/-!
# Field types, packet definitions and field values
-/
namespace Verif

/-- The numeric attributes of a field type.
fieldtypes/attributes/scalar_validators.py:5-29 (`MaxValue`, `MinValue`, `Bits`). -/
structure NumAttrs where
  bits : Option Nat := none
  maxV : Option Int := none
  minV : Option Int := none
  deriving DecidableEq, Repr

/-- `GetAttribute(fieldType, MaxValue)`: an explicit `MaxValue`, otherwise the base attribute
`2**bits - 1` contributed by `Bits`.
PacketFieldType.py:34-53 (base attributes), scalar_validators.py:24-28 (`translateAttributeValue`). -/
def NumAttrs.effMax (a : NumAttrs) : Option Int :=
  match a.maxV with
  | some m => some m
  | none => a.bits.map fun b => (2 : Int) ^ b - 1

/-- All validators of a *cloned* field (`fieldType()`, which is what packets and lists contain):
the clone receives the completed attribute dictionary, so the derived `MaxValue` validates as well.
PacketFieldType.py:34-53, 60-63, 78-85; `Bits` validates `data <= 2**bits`
(scalar_validators.py:21-22). -/
def NumAttrs.validates (a : NumAttrs) (v : Int) : Bool :=
  (match a.bits with | some b => decide (v ≤ (2 : Int) ^ b) | none => true) &&
  (match a.effMax with | some m => decide (v ≤ m) | none => true) &&
  (match a.minV with | some m => decide (m ≤ v) | none => true)

/-- Validators of a field *instance created directly* from attributes: only the attributes given
explicitly validate (PacketFieldType.py:40-52: `for attr in attributes`). -/
def NumAttrs.validatesFirst (a : NumAttrs) (v : Int) : Bool :=
  (match a.bits with | some b => decide (v ≤ (2 : Int) ^ b) | none => true) &&
  (match a.maxV with | some m => decide (v ≤ m) | none => true) &&
  (match a.minV with | some m => decide (m ≤ v) | none => true)

/-- The same validators for a float. -/
def NumAttrs.validatesFloat (a : NumAttrs) (x : F64) : Bool :=
  (match a.bits with | some b => x.leInt ((2 : Int) ^ b) | none => true) &&
  (match a.effMax with | some m => x.leInt m | none => true) &&
  (match a.minV with | some m => x.geInt m | none => true)

/-- The field is not one of 64 bits (PlaygroundStandardPacketEncoder.py:158-172): 32 bits is the default. -/
def NumAttrs.single (a : NumAttrs) : Bool := a.bits != some 64

/-- Class identity of a packet class (Python class object). -/
abbrev Cls := Nat

mutual
/-- Field types that can occur in `FIELDS`. `num false` is `Uint` (fieldtypes/Uint.py), `num true`
is `IntFieldType`; `struct` is `ComplexFieldType` of a `PacketFields` class; `packet` is
`ComplexFieldType` of a `PacketType` class; `float` is `FloatFieldType` (FLOAT32, FLOAT64: fieldtypes/__init__.py:31-32). -/
inductive FType where
  | num (signed : Bool) (a : NumAttrs)
  | float (a : NumAttrs)
  | bool
  | str
  | buf
  | list (t : FType)
  | struct (fs : FDecls)
  | packet (base : Cls)
/-- A `FIELDS` list: name, `ExplicitTag`, `Optional`, type. -/
inductive FDecls where
  | nil
  | cons (name : String) (tag : Option Nat) (opt : Bool) (t : FType) (rest : FDecls)
end

mutual
/-- Values of set fields. A list element is always set in this model (Python permits
`append(UNSET)`, after which encoding the list fails). A float is marked with whether the field that
holds it is one of 32 bits. -/
inductive Val where
  | num (i : Int)
  | float (single : Bool) (x : F64)
  | bool (b : Bool)
  | str (s : Str)
  | buf (b : Bytes)
  | list (vs : VList)
  | struct (fs : FVals)
  | packet (cls : Cls) (fs : FVals)
inductive VList where
  | nil
  | cons (v : Val) (rest : VList)
/-- Field values in the order of `FIELDS`; `unset` is `PacketFieldType.UNSET`. -/
inductive FVals where
  | nil
  | unset (rest : FVals)
  | set (v : Val) (rest : FVals)
end

deriving instance DecidableEq for FType, FDecls
deriving instance DecidableEq for Val, VList, FVals

def VList.length : VList → Nat
  | .nil => 0
  | .cons _ r => r.length + 1

def VList.snoc : VList → Val → VList
  | .nil, v => .cons v .nil
  | .cons w r, v => .cons w (r.snoc v)

/-- All fields unset: a fresh `PacketFields` object (fieldtypes/PacketFields.py:8-13). -/
def FDecls.blank : FDecls → FVals
  | .nil => .nil
  | .cons _ _ _ _ r => .unset r.blank

/-- `Version` (common/Version.py:15-20). -/
structure Version where
  major : Int
  minor : Int
  deriving DecidableEq, Repr

/-- `Version.FromString` (common/Version.py:4-13); `none` = AttributeError. -/
def Version.fromString (s : Str) : Option Version :=
  match splitOn '.' s with
  | [a, b] =>
    match pyInt a, pyInt b with
    | some x, some y => some ⟨x, y⟩
    | _, _ => none
  | _ => none

/-- `Version.__str__` (common/Version.py:22-23). -/
def Version.toStr (v : Version) : Str := intStr v.major ++ '.' :: intStr v.minor

/-- A packet definition: the class attributes `DEFINITION_IDENTIFIER`, `DEFINITION_VERSION`,
`FIELDS` (PacketType.py:28-35). -/
structure PDef where
  ident : Str
  version : Str
  fields : FDecls
  deriving DecidableEq

/-- What the encoder uses of the class world: class definitions, the definition store of a base
class (`DEFINITIONS_STORE.getDefinition(name, version)`, PacketDefinitionRegistration.py:18-31,
whose `NameError` is an `error`), and `isinstance`. The registry itself is modelled in
`Verif.Model.Registry`. -/
structure Env where
  classDef : Cls → Option PDef
  lookup : Cls → Str → Version → Except Err (Option Cls)
  isSub : Cls → Cls → Bool

/-! ### What `setData` accepts -/

mutual
/-- The value is one that `setData` of the (cloned) field stores without raising, with all parts set
likewise. Uint.py:4-10, IntFieldType.py, FloatFieldType.py:9-14, BufferFieldType.py, StringFieldType.py,
ComplexFieldType.py:24-27, ListFieldType.py:8-28. -/
def accepts (env : Env) : Val → FType → Bool
  | .num i, .num signed a => (signed || decide (0 ≤ i)) && a.validates i
  | .float w x, .float a => w == a.single && a.validatesFloat x
  | .bool _, .bool => true
  | .str _, .str => true
  | .buf _, .buf => true
  | .list vs, .list t => acceptsL env vs t
  | .struct fs, .struct ds => acceptsF env fs ds
  | .packet cls fs, .packet base =>
    env.isSub cls base && match env.classDef cls with
      | some d => acceptsF env fs d.fields
      | none => false
  | _, _ => false
def acceptsL (env : Env) : VList → FType → Bool
  | .nil, _ => true
  | .cons v r, t => accepts env v t && acceptsL env r t
def acceptsF (env : Env) : FVals → FDecls → Bool
  | .nil, .nil => true
  | .unset r, .cons _ _ _ _ ds => acceptsF env r ds
  | .set v r, .cons _ _ _ t ds => accepts env v t && acceptsF env r ds
  | _, _ => false
end

end Verif
