import Verif.Model.Field
/-! # Packets as objects (network/packet/fieldtypes)

`Types` and `Field` look at the values of packets. Here packets, structs and lists are objects that may be referred to from several places; a program holds
references to them and changes them through these. Objects are numbered in the order in which they are made.

Not modelled: `str()`, `int()`, `float()` and `bool()` of a packet or a list (assigning one to a field of a basic type is refused here); the prototypes in
`FIELDS` are not given data. -/
namespace Verif.Alias

/-- A field type: a basic type, `ComplexFieldType` of a class, `ListFieldType`. -/
inductive Kind (K : Type) where
  | atom (k : K)
  | obj (c : Cls)
  | list (t : Kind K)
  deriving DecidableEq

/-- A field object (PacketFieldType.py:54, ListFieldType.py:4-6): its `_data`, `none` for UNSET; a list field is a list object. -/
inductive Slot (A : Type) where
  | atom (d : Option A)
  | obj (d : Option Nat)
  | list (l : Nat)
  deriving DecidableEq

/-- What a program assigns, appends or reads: UNSET, a basic value, a packet or struct, a list field (what reading it returns, ListFieldType.py:30-33), a
Python list. -/
inductive Py (A : Type) where
  | unset
  | atom (a : A)
  | obj (i : Nat)
  | list (l : Nat)
  | plain (vs : List (Py A))

/-- The classes and basic types: the fields of a class; `isinstance`; `setData` of a field of a basic type (does it raise, and its data afterwards); `==` of
basic values; Python's recursion limit. -/
structure World (K A : Type) where
  fields : Cls → List (Kind K)
  isSub : Cls → Cls → Bool
  store : K → Option A → A → Bool × Option A
  same : A → A → Bool
  depth : Nat

/-- A packet or struct (PacketFields.py:8-13). -/
structure Obj (A : Type) where
  cls : Cls
  slots : List (Slot A)
  deriving DecidableEq

/-- A list field: `dataType()`, whether `_data` is set, `_dataList` (ListFieldType.py:4-6). -/
structure Lst (K A : Type) where
  elem : Kind K
  isSet : Bool
  items : List (Slot A)
  deriving DecidableEq

structure Heap (K A : Type) where
  obj : Nat → Obj A
  nObj : Nat
  lst : Nat → Lst K A
  nLst : Nat

variable {K A : Type}

/-- A reference to an object. -/
inductive Ref where
  | obj (i : Nat)
  | lst (l : Nat)
  deriving DecidableEq

def Heap.has (h : Heap K A) : Ref → Bool
  | .obj i => decide (i < h.nObj)
  | .lst l => decide (l < h.nLst)

/-- The references in a value. -/
def Py.refs : Py A → List Ref
  | .unset => []
  | .atom _ => []
  | .obj i => [.obj i]
  | .list l => [.lst l]
  | .plain vs => go vs
where
  go : List (Py A) → List Ref
    | [] => []
    | v :: vs => v.refs ++ go vs

def Heap.empty [Inhabited K] : Heap K A := ⟨fun _ => ⟨0, []⟩, 0, fun _ => ⟨.atom default, false, []⟩, 0⟩

def Heap.putObj (h : Heap K A) (i : Nat) (o : Obj A) : Heap K A := { h with obj := fun j => if j = i then o else h.obj j }

def Heap.putLst (h : Heap K A) (l : Nat) (x : Lst K A) : Heap K A := { h with lst := fun j => if j = l then x else h.lst j }

/-- `fieldType()`: a new field, unset (PacketFieldType.py:78-85, ComplexFieldType.py:30-36, ListFieldType.py:48-51). -/
def fresh : Kind K → Heap K A → Heap K A × Slot A
  | .atom _, h => (h, .atom none)
  | .obj _, h => (h, .obj none)
  | .list t, h => ({ h.putLst h.nLst ⟨t, false, []⟩ with nLst := h.nLst + 1 }, .list h.nLst)

def freshAll : List (Kind K) → Heap K A → Heap K A × List (Slot A)
  | [], h => (h, [])
  | t :: ts, h => ((freshAll ts (fresh t h).1).1, (fresh t h).2 :: (freshAll ts (fresh t h).1).2)

/-- `data()` of a field (PacketFieldType.py:71-72, ListFieldType.py:30-33). -/
def read (h : Heap K A) : Slot A → Py A
  | .atom none => .unset
  | .atom (some a) => .atom a
  | .obj none => .unset
  | .obj (some i) => .obj i
  | .list l => if (h.lst l).isSet then .list l else .unset

/-- All pairs are equal; the first difference ends the comparison. `none` is RecursionError. -/
def eqAll (f : Slot A → Slot A → Option Bool) : List (Slot A) → List (Slot A) → Option Bool
  | x :: xs, y :: ys =>
    match f x y with
    | none => none
    | some false => some false
    | some true => eqAll f xs ys
  | _, _ => some true

/-- `==` of what two fields contain: PacketFields.py:27-37 for packets and structs, ListFieldType.py:59-71 for lists. `none` is RecursionError. -/
def eq (W : World K A) (h : Heap K A) : Nat → Py A → Py A → Option Bool
  | _, .unset, .unset => some true
  | _, .atom a, .atom b => some (W.same a b)
  | 0, .obj _, .obj _ => none
  | n + 1, .obj i, .obj j =>
    if (h.obj i).cls ≠ (h.obj j).cls then some false
    else eqAll (fun x y => eq W h n (read h x) (read h y)) (h.obj i).slots (h.obj j).slots
  | 0, .list _, .list _ => none
  | n + 1, .list l, .list m =>
    if (h.lst l).items.length ≠ (h.lst m).items.length then some false
    else eqAll (fun x y => eq W h n (read h x) (read h y)) (h.lst l).items (h.lst m).items
  | _, _, _ => some false

/-- Outcome of `setData`: did it raise, the objects, and the field (if it is no list field: a list field remains the same object). -/
structure Res (K A : Type) where
  raised : Bool
  heap : Heap K A
  slot : Slot A

/-- Where an element comes from in the loops of ListFieldType.py:19-25: a field whose data is read when it is its turn, or a value. -/
inductive Src (A : Type) where
  | slot (s : Slot A)
  | val (v : Py A)

def Src.now (h : Heap K A) : Src A → Py A
  | .slot s => read h s
  | .val v => v

def replace (s : Slot A) : Nat → List (Slot A) → List (Slot A)
  | _, [] => []
  | 0, _ :: xs => s :: xs
  | n + 1, x :: xs => x :: replace s n xs

/-- `_dataList[i]` is now the field `s`. -/
def Heap.putItem (h : Heap K A) (l i : Nat) (s : Slot A) : Heap K A := h.putLst l { h.lst l with items := replace s i (h.lst l).items }

/-- `self._data = len(self._dataList)`. -/
def Heap.mark (h : Heap K A) (l : Nat) : Heap K A := h.putLst l { h.lst l with isSet := true }

/-- `append(data)` (ListFieldType.py:38-43) to list `l` with elements of type `t`; `set` is `setData` of an element. -/
def append (set : Heap K A → Slot A → Py A → Res K A) (t : Kind K) (l : Nat) (h : Heap K A) (v : Py A) : Bool × Heap K A :=
  let f := fresh t h
  let h1 := f.1.putLst l { f.1.lst l with items := (f.1.lst l).items ++ [f.2] }
  let r := set h1 f.2 v
  let h2 := r.heap.putItem l (h.lst l).items.length r.slot
  if r.raised then (true, h2) else (false, h2.mark l)

/-- The loops of ListFieldType.py:19-25: they end at the first exception. -/
def appendAll (set : Heap K A → Slot A → Py A → Res K A) (t : Kind K) (l : Nat) : Heap K A → List (Src A) → Bool × Heap K A
  | h, [] => (false, h)
  | h, x :: xs =>
    match append set t l h (x.now h) with
    | (true, h') => (true, h')
    | (false, h') => appendAll set t l h' xs

/-- `self._dataList = []` and the loop, then `self._data = len(self._dataList)` (ListFieldType.py:17-28). `src` is evaluated after `_dataList` is empty. -/
def refill (set : Heap K A → Slot A → Py A → Res K A) (t : Kind K) (l : Nat) (h : Heap K A) (src : Heap K A → List (Src A)) : Bool × Heap K A :=
  let h1 := h.putLst l { h.lst l with items := [] }
  match appendAll set t l h1 (src h1) with
  | (true, h') => (true, h')
  | (false, h') => (false, h'.mark l)

/-- `setData(data)` of a field of the type: PacketFieldType.py:55-63; ComplexFieldType.py:25-28; ListFieldType.py:8-28. -/
def setData (W : World K A) : Kind K → Heap K A → Slot A → Py A → Res K A
  | .atom k, h, .atom d, v =>
    match v with
    | .unset => ⟨false, h, .atom none⟩
    | .atom a => ⟨(W.store k d a).1, h, .atom (W.store k d a).2⟩
    | _ => ⟨true, h, .atom d⟩
  | .obj c, h, .obj d, v =>
    match v with
    | .unset => ⟨false, h, .obj none⟩
    | .obj i => if W.isSub (h.obj i).cls c then ⟨false, h, .obj (some i)⟩ else ⟨true, h, .obj d⟩
    | _ => ⟨true, h, .obj d⟩
  | .list t, h, .list l, v =>
    match v with
    | .unset => ⟨false, h.putLst l { h.lst l with isSet := false }, .list l⟩
    | .list m =>
      if (h.lst m).isSet then
        match eq W h W.depth (.list l) (.list m) with
        | none => ⟨true, h, .list l⟩
        | some true => ⟨false, h.mark l, .list l⟩
        | some false =>
          let r := refill (setData W t) t l h fun h1 => (h1.lst m).items.map .slot
          ⟨r.1, r.2, .list l⟩
      else ⟨false, h.putLst l { h.lst l with isSet := false }, .list l⟩
    | .plain vs =>
      let r := refill (setData W t) t l h fun _ => vs.map .val
      ⟨r.1, r.2, .list l⟩
    | _ => ⟨true, h, .list l⟩
  | _, h, s, _ => ⟨true, h, s⟩     -- does not occur: a field is of its type

/-- What a program does with packets. -/
inductive Op (A : Type) where
  | new (c : Cls)                                   -- C()
  | set (o f : Nat) (v : Py A)                      -- object.field = value
  | append (l : Nat) (v : Py A)                     -- list.append(value)
  | pop (l i : Nat)                                 -- list.pop(i)
  | item (l i : Nat) (v : Py A)                     -- list[i] = value

/-- The references that an operation uses. -/
def Op.refs : Op A → List Ref
  | .new _ => []
  | .set o _ v => .obj o :: v.refs
  | .append l v => .lst l :: v.refs
  | .pop l _ => [.lst l]
  | .item l _ v => .lst l :: v.refs

/-- `C()` (PacketFields.py:8-13, without initial data). -/
def make (W : World K A) (h : Heap K A) (c : Cls) : Heap K A :=
  { (freshAll (W.fields c) h).1.putObj h.nObj ⟨c, (freshAll (W.fields c) h).2⟩ with nObj := h.nObj + 1 }

/-- `object.field = value` (PacketFields.py:22-25). -/
def setAttr (W : World K A) (h : Heap K A) (o f : Nat) (v : Py A) : Bool × Heap K A :=
  match (W.fields (h.obj o).cls)[f]?, (h.obj o).slots[f]? with
  | some t, some s =>
    let r := setData W t h s v
    (r.raised, r.heap.putObj o { r.heap.obj o with slots := replace r.slot f (r.heap.obj o).slots })
  | _, _ => (true, h)

/-- `list.pop(i)` (ListFieldType.py:45-46). -/
def pop (h : Heap K A) (l i : Nat) : Bool × Heap K A :=
  if i < (h.lst l).items.length then (false, h.putLst l { h.lst l with items := (h.lst l).items.eraseIdx i }) else (true, h)

/-- `list[i] = value` (ListFieldType.py:80-81). -/
def setItem (W : World K A) (h : Heap K A) (l i : Nat) (v : Py A) : Bool × Heap K A :=
  match (h.lst l).items[i]? with
  | some s =>
    let r := setData W (h.lst l).elem h s v
    (r.raised, r.heap.putItem l i r.slot)
  | none => (true, h)

/-- One operation; `true`: it raises an exception. An object that does not exist cannot be used. Indices are not negative. -/
def step (W : World K A) (h : Heap K A) (op : Op A) : Bool × Heap K A :=
  if op.refs.all h.has then
    match op with
    | .new c => (false, make W h c)
    | .set o f v => setAttr W h o f v
    | .append l v => Alias.append (setData W (h.lst l).elem) (h.lst l).elem l h v
    | .pop l i => pop h l i
    | .item l i v => setItem W h l i v
  else (true, h)

def run (W : World K A) : Heap K A → List (Op A) → Heap K A
  | h, [] => h
  | h, op :: ops => run W (step W h op).2 ops

/-! ## The basic types of Playground -/

/-- The field types that are no lists and not complex (fieldtypes/__init__.py:16-35). -/
inductive Basic where
  | num (signed : Bool) (a : NumAttrs)
  | float (a : NumAttrs)
  | bool
  | str
  | buf
  deriving DecidableEq

def Basic.type : Basic → FType
  | .num s a => .num s a
  | .float a => .float a
  | .bool => .bool
  | .str => .str
  | .buf => .buf

/-- Python's basic values. -/
inductive Atom where
  | int (i : Int)
  | float (x : F64)
  | bool (b : Bool)
  | str (s : Str)
  | bytes (b : Bytes)
  deriving DecidableEq

def Atom.py : Atom → PyVal
  | .int i => .int i
  | .float x => .float x
  | .bool b => .bool b
  | .str s => .str s
  | .bytes b => .bytes b

/-- The data of a field (`Val` marks floats with the size of the field). -/
def Atom.val : Basic → Atom → Val
  | .float a, .float x => .float a.single x
  | _, .float x => .float false x
  | _, .int i => .num i
  | _, .bool b => .bool b
  | _, .str s => .str s
  | _, .bytes b => .buf b

def Atom.ofVal : Val → Option Atom
  | .num i => some (.int i)
  | .float _ x => some (.float x)
  | .bool b => some (.bool b)
  | .str s => some (.str s)
  | .buf b => some (.bytes b)
  | _ => none

/-- What Python compares: a number (in units of 2^-1074), an infinity, a NaN, a string, bytes. -/
inductive Key where
  | fin (i : Int)
  | inf (sign : Nat)
  | nan (bits : F64)
  | str (s : Str)
  | bytes (b : Bytes)
  deriving DecidableEq

def Atom.key : Atom → Key
  | .int i => .fin (i * 2 ^ 1074)
  | .bool b => .fin (if b then 2 ^ 1074 else 0)
  | .float x => if exp64 x.toNat = 2047 then (if man64 x.toNat = 0 then .inf (sign64 x.toNat) else .nan x) else .fin x.scaled
  | .str s => .str s
  | .bytes b => .bytes b

/-- Python's `==` of basic values (PacketFields.py:35, ListFieldType.py:69). -/
def Atom.same (a b : Atom) : Bool :=
  match a.key with
  | .nan _ => false
  | k => decide (k = b.key)

/-- Classes with Playground's basic types: `setData` is `setField` (PacketFieldType.py:55-63). -/
def std (env : Env) (conv : Conv) (fields : Cls → List (Kind Basic)) (depth : Nat) : World Basic Atom where
  fields := fields
  isSub := env.isSub
  store k d a := ((setField env conv k.type (d.map (Atom.val k)) a.py).raised, (setField env conv k.type (d.map (Atom.val k)) a.py).data.bind Atom.ofVal)
  same := Atom.same
  depth := depth

end Verif.Alias
