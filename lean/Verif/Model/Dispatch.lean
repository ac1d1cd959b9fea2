import Verif.Model.Dict
/-! # The choice of the encoder of a field type (network/packet/encoders/PlaygroundStandardPacketEncoder.py:63-142)

Python classes with their bases, and the table of the type encoders. A class is a number (its identity) with its list of bases, so that a class that is
reached on several ways comes several times. Not modelled: classes that are false in a Boolean context. -/
namespace Verif.Dispatch

mutual
/-- A class: its identity and its `__bases__`. -/
inductive Class where
  | mk (name : Nat) (bases : Classes)
/-- A tuple of classes. -/
inductive Classes where
  | nil
  | cons (c : Class) (rest : Classes)
end

/-- The identity of a class. -/
def Class.name : Class → Nat
  | .mk n _ => n

/-- The tuple as a list. -/
def Classes.toList : Classes → List Class
  | .nil => []
  | .cons c r => c :: r.toList

/-- `cls.__bases__`. -/
def Class.bases : Class → List Class
  | .mk _ b => b.toList

mutual
/-- The number of turns of the loop of `iterateClassAncestors` (at most). -/
def Class.size : Class → Nat
  | .mk _ b => b.size + 1
def Classes.size : Classes → Nat
  | .nil => 0
  | .cons c r => c.size + r.size
end

/-- The bases that the loop appends to its queue (PlaygroundStandardPacketEncoder.py:70-72). -/
def next (stop : Nat → Bool) (c : Class) : List Class := if stop c.name then [] else c.bases

/-- The loop of `iterateClassAncestors` (PlaygroundStandardPacketEncoder.py:68-73), `n` turns of it. -/
def walk (stop : Nat → Bool) : Nat → List Class → List Nat
  | 0, _ => []
  | _ + 1, [] => []
  | n + 1, c :: q => c.name :: walk stop n (q ++ next stop c)

/-- `iterateClassAncestors` (PlaygroundStandardPacketEncoder.py:63-73). -/
def ancestors (stop : Nat → Bool) (c : Class) : List Nat := walk stop c.size [c]

/-- Keys of the table: a class, or a class and that of the data. -/
inductive Key where
  | one (c : Nat)
  | two (c d : Nat)
  deriving DecidableEq

/-- What an encoder is asked for: a plain field type (instance or class), or an instance of a complex type with the class of its `dataType()`
(PlaygroundStandardPacketEncoder.py:91-100). -/
inductive Typ where
  | plain (c : Class)
  | complex (c d : Class)

/-- `PacketFieldType` and `ComplexFieldType`, the terminals. -/
structure Roots where
  field : Nat
  complex : Nat

/-- Terminals of the outer loop (PlaygroundStandardPacketEncoder.py:108). -/
def Roots.outer (r : Roots) (n : Nat) : Bool := n == r.field || n == r.complex

/-- Terminals of the inner loop (PlaygroundStandardPacketEncoder.py:111). -/
def Roots.inner (r : Roots) (n : Nat) : Bool := n == r.field

mutual
/-- `issubclass`. -/
def Class.sub (n : Nat) : Class → Bool
  | .mk m b => m == n || b.sub n
def Classes.sub (n : Nat) : Classes → Bool
  | .nil => false
  | .cons c r => c.sub n || r.sub n
end

/-- The class of the field type itself (PlaygroundStandardPacketEncoder.py:94, 100). -/
def Typ.outer : Typ → Class
  | .plain c => c
  | .complex c _ => c

/-- The keys that `_GetTypeKey` yields (PlaygroundStandardPacketEncoder.py:108-112). -/
def keys (r : Roots) : Typ → List Key
  | .plain c => (ancestors r.outer c).map .one
  | .complex c d => (ancestors r.outer c).flatMap fun x => (ancestors r.inner d).map (.two x)

/-- The first key with an encoder (PlaygroundStandardPacketEncoder.py:122-125). -/
def lookup (t : Dict Key Nat) : List Key → Option Nat
  | [] => none
  | k :: l => match t.get k with
    | some e => some e
    | none => lookup t l

/-- `GetTypeEncoder` (PlaygroundStandardPacketEncoder.py:121-125); the outer `none`: no field type, it raises (102-106). -/
def get (r : Roots) (t : Dict Key Nat) (x : Typ) : Option (Option Nat) :=
  if x.outer.sub r.field then some (lookup t (keys r x)) else none

/-- `RegisterTypeEncoder` (PlaygroundStandardPacketEncoder.py:115-118): the first key; `none`: it raises. -/
def register (r : Roots) (t : Dict Key Nat) (x : Typ) (e : Nat) : Option (Dict Key Nat) :=
  if x.outer.sub r.field then match keys r x with
    | [] => none
    | k :: _ => some (t.set k e)
  else none

/-! The classes of the library (network/packet/fieldtypes) and its encoders. -/

/-- `PacketFieldType` is number 1, `ComplexFieldType` number 2. -/
def roots : Roots := ⟨1, 2⟩

/-- Python's `object`. -/
def object : Class := .mk 0 .nil
/-- The class of PacketFieldType.py:4. -/
def fieldType : Class := .mk 1 (.cons object .nil)
/-- The class of ComplexFieldType.py:4. -/
def complexType : Class := .mk 2 (.cons fieldType .nil)
/-- The class of ListFieldType.py:3. -/
def listType : Class := .mk 3 (.cons complexType .nil)
/-- The class of Uint.py:3. -/
def uint : Class := .mk 4 (.cons fieldType .nil)
/-- The class of IntFieldType.py:4. -/
def int : Class := .mk 5 (.cons fieldType .nil)
/-- The class of BoolFieldType.py:4. -/
def bool : Class := .mk 6 (.cons fieldType .nil)
/-- The class of StringFieldType.py:4. -/
def string : Class := .mk 7 (.cons fieldType .nil)
/-- The class of BufferFieldType.py:4. -/
def buffer : Class := .mk 8 (.cons fieldType .nil)
/-- The class of FloatFieldType.py:9. -/
def float : Class := .mk 9 (.cons fieldType .nil)
/-- The class of PacketFields.py:3. -/
def packetFields : Class := .mk 10 (.cons object .nil)
/-- The class of NamedPacketType.py:3. -/
def namedPacket : Class := .mk 11 (.cons packetFields .nil)
/-- The class of PacketType.py:121. -/
def packetType : Class := .mk 12 (.cons namedPacket .nil)

/-- The registrations of the module in their order: FloatEncoder 0, UintEncoder 1, IntEncoder 2, BoolEncoder 3, StringEncoder 4, BufferEncoder 5,
PacketFieldsEncoder 6, ListEncoder 7, PacketEncoder 8 (PlaygroundStandardPacketEncoder.py:173, 196, 205, 210, 231, 249, 322, 342, 444). -/
def registrations : List (Typ × Nat) :=
  [(.plain float, 0), (.plain uint, 1), (.plain int, 2), (.plain bool, 3), (.plain string, 4), (.plain buffer, 5),
   (.complex complexType packetFields, 6), (.complex listType fieldType, 7), (.complex complexType namedPacket, 8)]

/-- A list of registrations. -/
def registerAll (r : Roots) (t : Dict Key Nat) : List (Typ × Nat) → Option (Dict Key Nat)
  | [] => some t
  | (x, e) :: l => match register r t x e with
    | none => none
    | some t' => registerAll r t' l

/-- The table after the import of the module. -/
def builtin : Dict Key Nat := (registerAll roots [] registrations).getD []

end Verif.Dispatch
