import Verif.Model.Alias
/-! # What a program sees of packets that are objects -/
namespace Verif.Alias
variable {K A : Type}

/-- The value of a packet or list: what the program can read, all the way down. `deep`: below the depth that is looked at. -/
inductive Tree (A : Type) where
  | deep
  | unset
  | atom (a : A)
  | obj (c : Cls) (fs : List (Tree A))
  | list (vs : List (Tree A))

/-- The value down to depth `n`; `f` says what is looked at in a basic value (`id`: everything). -/
def value {B : Type} (f : A → B) (h : Heap K A) : Nat → Py A → Tree B
  | _, .unset => .unset
  | _, .atom a => .atom (f a)
  | n + 1, .obj i => .obj (h.obj i).cls ((h.obj i).slots.map fun s => value f h n (read h s))
  | n + 1, .list l => .list ((h.lst l).items.map fun s => value f h n (read h s))
  | _, _ => .deep

/-- The data that a field of the basic type may have after some assignments. -/
inductive Held (W : World K A) (k : K) : Option A → Prop
  | unset : Held W k none
  | store {d : Option A} (a : A) : Held W k d → Held W k (W.store k d a).2

/-- The basic types keep what they have (whatever it was made from). -/
def Keeps (W : World K A) : Prop := ∀ k a, Held W k (some a) → ∀ d, (W.store k d a).1 = false → (W.store k d a).2 = some a

/-- A reference as a value. -/
def Ref.py : Ref → Py A
  | .obj i => .obj i
  | .lst l => .list l

/-- The references in a field. -/
def Slot.refs : Slot A → List Ref
  | .atom _ => []
  | .obj none => []
  | .obj (some i) => [.obj i]
  | .list l => [.lst l]

/-- The objects that the fields of an object refer to. -/
def Heap.next (h : Heap K A) : Ref → List Ref
  | .obj i => (h.obj i).slots.flatMap Slot.refs
  | .lst l => (h.lst l).items.flatMap Slot.refs

/-- The object `x` is a part of `r`. -/
inductive Part (h : Heap K A) (r : Ref) : Ref → Prop
  | self : Part h r r
  | next {x y : Ref} : Part h r x → y ∈ h.next x → Part h r y

/-- They have no part in common. -/
def Apart (h : Heap K A) (r s : Ref) : Prop := ∀ x, Part h r x → ¬ Part h s x

/-- Where a field can be. -/
inductive Place where
  | field (o f : Nat)
  | item (l i : Nat)
  deriving DecidableEq

/-- The field at a place. -/
def Heap.slotAt (h : Heap K A) : Place → Option (Slot A)
  | .field o f => if o < h.nObj then (h.obj o).slots[f]? else none
  | .item l i => if l < h.nLst then (h.lst l).items[i]? else none

/-- What an operation writes to: a list, if the field that it assigns to is a list field. -/
def Op.target (h : Heap K A) : Op A → Option Ref
  | .new _ => none
  | .set o f _ =>
    match (h.obj o).slots[f]? with
    | some (.list l) => some (.lst l)
    | _ => some (.obj o)
  | .append l _ => some (.lst l)
  | .pop l _ => some (.lst l)
  | .item l i _ =>
    match (h.lst l).items[i]? with
    | some (.list m) => some (.lst m)
    | _ => some (.lst l)

/-- What an operation assigns or appends. -/
def Op.given : Op A → List Ref
  | .set _ _ v => v.refs
  | .append _ v => v.refs
  | .item _ _ v => v.refs
  | _ => []

/-- A type without packets and structs. -/
def Kind.flat : Kind K → Bool
  | .atom _ => true
  | .obj _ => false
  | .list t => t.flat

/-- A list (of lists, ...) of basic values. -/
def Heap.flatList (h : Heap K A) : Ref → Prop
  | .obj _ => False
  | .lst l => (h.lst l).elem.flat = true

/-- The operation has nothing to do with `q`: it changes an object that has no part in common with it, and what it assigns has no part in common with it either,
except that it may be a list of basic values. -/
def Away (h : Heap K A) (q : Ref) (op : Op A) : Prop :=
  (∀ t, op.target h = some t → Apart h t q) ∧ ∀ r ∈ op.given, h.flatList r ∨ Apart h r q

end Verif.Alias
