import Verif.Model.Types
/-!
# Assignment to packet fields (`packet.field = value`)

PacketFields.py:22-25 (`__setattr__`) calls `setData` of the raw field. Unlike `accepts`, which only
says which values end up in a field without an exception, this is the state change of `setData`
including what is left behind when it raises.
-/
namespace Verif

/-- Python values that may be assigned. `obj` is a `PacketFields`/`PacketType` instance; `other` is
an object that `int()` and `float()` reject. -/
inductive PyVal where
  | unset
  | int (i : Int)
  | float (x : F64)
  | bool (b : Bool)
  | str (s : Str)
  | bytes (b : Bytes)
  | list (vs : List PyVal)
  | obj (v : Val)
  | other

/-- Conversions by Python that are arbitrary here: `str(data)`, and `float(data)` for data that is no float (`none`: it raises). -/
structure Conv where
  str : PyVal → Str
  float : PyVal → Option F64

/-- `float(data)`. -/
def Conv.toFloat (c : Conv) : PyVal → Option F64
  | .float x => some x
  | v => c.float v

/-- `int(data)`. Simplification: `int(bytes)` of ASCII digits, which Python accepts, counts as
rejected here. -/
def PyVal.toInt : PyVal → Option Int
  | .int i => some i
  | .float x => if exp64 x.toNat = 2047 then none else some (x.scaled.tdiv (2 ^ 1074))
  | .bool b => some (if b then 1 else 0)
  | .str s => pyInt s
  | _ => none

/-- `bool(data)`. -/
def PyVal.toBool : PyVal → Bool
  | .unset => false
  | .int i => i != 0
  | .float x => x.toNat % 2 ^ 63 != 0
  | .bool b => b
  | .str s => !s.isEmpty
  | .bytes b => !b.isEmpty
  | .list vs => !vs.isEmpty
  | .obj _ => true
  | .other => true

/-- Outcome of `setData`: raised `ValueError` or not, and the data of the field afterwards. -/
structure SetRes where
  raised : Bool
  data : Option Val

/-- `setData` of a field that is not a list (PacketFieldType.py:55-63; `_setTypedData` of Uint.py:4-10,
IntFieldType.py:4-8, FloatFieldType.py:9-14, BoolFieldType.py:4-8, StringFieldType.py:5-9, BufferFieldType.py:5-8,
ComplexFieldType.py:25-28). `old` is the data before. `conv` stands for `str(data)` and `float(data)`. -/
def setField (env : Env) (conv : Conv) (t : FType) (old : Option Val) : PyVal → SetRes
  | .unset => ⟨false, none⟩
  | x =>
    match t with
    | .num signed a =>
      match x.toInt with
      | none => ⟨true, old⟩
      | some i =>
        -- `_data` is stored before the sign and the validators are checked
        if !signed && decide (i < 0) then ⟨true, some (.num i)⟩
        else if a.validates i then ⟨false, some (.num i)⟩
        else ⟨true, some (.num i)⟩
    | .float a =>
      match conv.toFloat x with
      | none => ⟨true, old⟩
      | some y => ⟨!a.validatesFloat y, some (.float a.single y)⟩
    | .bool => ⟨false, some (.bool x.toBool)⟩
    | .str => ⟨false, some (.str (conv.str x))⟩
    | .buf =>
      match x with
      | .bytes b => ⟨false, some (.buf b)⟩
      | _ => ⟨true, old⟩
    | .struct ds =>
      match x with
      | .obj (.struct fs) => if acceptsF env fs ds then ⟨false, some (.struct fs)⟩ else ⟨true, old⟩
      | _ => ⟨true, old⟩
    | .packet base =>
      match x with
      | .obj (.packet cls fs) => if env.isSub cls base then ⟨false, some (.packet cls fs)⟩ else ⟨true, old⟩
      | _ => ⟨true, old⟩
    | .list _ => ⟨true, old⟩       -- list fields: `setList`

/-- Raw state of a `ListFieldType` field: `_data` is UNSET or not, and `_dataList`
(ListFieldType.py:4-6). -/
structure LState where
  isSet : Bool
  elems : List (Option Val)
  deriving DecidableEq

/-- `append(data)` (ListFieldType.py:38-43): a new element field is appended, then its data is set;
`_data` becomes non-UNSET only if that did not raise. -/
def LState.append (env : Env) (conv : Conv) (t : FType) (st : LState) (x : PyVal) : Bool × LState :=
  let r := setField env conv t none x
  if r.raised then (true, ⟨st.isSet, st.elems ++ [r.data]⟩) else (false, ⟨true, st.elems ++ [r.data]⟩)

/-- The loop `for dataElement in data: self.append(dataElement)` (ListFieldType.py:22-25); it stops at
the first exception. -/
def LState.appendAll (env : Env) (conv : Conv) (t : FType) : LState → List PyVal → Bool × LState
  | st, [] => (false, st)
  | st, x :: xs =>
    match st.append env conv t x with
    | (true, st') => (true, st')
    | (false, st') => st'.appendAll env conv t xs

/-- `setData(data)` of a list field whose elements are of type `t` (not a list)
(PacketFieldType.py:55-58, ListFieldType.py:8-28). Assigning UNSET only marks the field, the elements
stay. Not modelled: assigning another `ListFieldType` object (lines 9-20). -/
def LState.set (env : Env) (conv : Conv) (t : FType) (st : LState) : PyVal → Bool × LState
  | .unset => (false, { st with isSet := false })
  | .list xs =>
    match LState.appendAll env conv t ⟨st.isSet, []⟩ xs with
    | (true, st') => (true, st')
    | (false, st') => (false, { st' with isSet := true })
  | _ => (true, st)

/-- What reading the field shows: UNSET or the elements (ListFieldType.py:30-33, 76-78). -/
def LState.read (st : LState) : Option (List (Option Val)) := if st.isSet then some st.elems else none

end Verif
