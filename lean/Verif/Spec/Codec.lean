import Verif.Model.Deserializer
import Verif.Lemmas.Utf8
/-!
# Vocabulary for the packet codec properties
-/
namespace Verif

/-- Length of the serialization of a packet value (0 if it cannot be serialized). -/
def serLen (env : Env) (v : Val) : Nat :=
  match serialize env 0 v with
  | .ok b => b.length
  | .error _ => 0

mutual
/-- Every string in the value is ASCII, and every float in a field of 32 bits is one that a single can hold. -/
def asciiV : Val → Bool
  | .str s => isAscii s
  | .float true x => isSingle x
  | .list vs => asciiL vs
  | .struct fs => asciiF fs
  | .packet _ fs => asciiF fs
  | _ => true
def asciiL : VList → Bool
  | .nil => true
  | .cons v r => asciiV v && asciiL r
def asciiF : FVals → Bool
  | .nil => true
  | .unset r => asciiF r
  | .set v r => asciiV v && asciiF r
end

mutual
/-- Nesting depth of packets inside packets. -/
def depthV : Val → Nat
  | .list vs => depthL vs
  | .struct fs => depthF fs
  | .packet _ fs => depthF fs + 1
  | _ => 0
def depthL : VList → Nat
  | .nil => 0
  | .cons v r => Nat.max (depthV v) (depthL r)
def depthF : FVals → Nat
  | .nil => 0
  | .unset r => depthF r
  | .set v r => Nat.max (depthV v) (depthF r)
end

mutual
/-- "No string or buffer is longer than the packet whose header was read last": reading the value in
wire order, `m` is the length of the packet whose header was read last; `none` if some string or
buffer is longer than that. -/
def limV (len : Val → Nat) : Nat → Val → Option Nat
  | m, .str s => if s.length ≤ m then some m else none
  | m, .buf b => if b.length ≤ m then some m else none
  | m, .list vs => limL len m vs
  | m, .struct fs => limF len m fs
  | _, .packet cls fs => limF len (len (.packet cls fs)) fs
  | m, _ => some m
def limL (len : Val → Nat) : Nat → VList → Option Nat
  | m, .nil => some m
  | m, .cons v r => (limV len m v).bind fun m' => limL len m' r
def limF (len : Val → Nat) : Nat → FVals → Option Nat
  | m, .nil => some m
  | m, .unset r => limF len m r
  | m, .set v r => (limV len m v).bind fun m' => limF len m' r
end

/-- Every packet class can be found by the decoder under its identifier and version, starting from
every class it is an instance of (all in the same silo). -/
def Env.Registered (env : Env) : Prop :=
  ∀ cls d base, env.classDef cls = some d → env.isSub cls base = true →
    ∃ v, Version.fromString d.version = some v ∧ env.lookup base d.ident v = .ok (some cls)

/-- The bytes of a packet (empty if it cannot be serialized). -/
def ser (env : Env) (v : Val) : Bytes :=
  match serialize env 0 v with
  | .ok b => b
  | .error _ => []

/-- The packets the wire format can carry to a receiver looking for packets of class `base`:
an instance of `base` (or of a subclass) whose fields hold values their types accept, that
serializes, whose strings are ASCII and floats in fields of 32 bits singles, whose nesting does not exceed the recursion limit, and where no
string or buffer is longer than the packet whose header precedes it most closely. -/
structure Carried (env : Env) (depth : Nat) (base : Cls) (v : Val) : Prop where
  accepted : accepts env v (.packet base) = true
  serializes : ∃ b, serialize env 0 v = .ok b
  ascii : asciiV v = true
  nesting : depthV v ≤ depth
  limits : ∃ m, limV (serLen env) 0 v = some m

/-- An instance of `base` whose fields hold values their types accept and that `__serialize__`
accepts. -/
def Sendable (env : Env) (base : Cls) (v : Val) : Prop :=
  accepts env v (.packet base) = true ∧ ∃ b, serialize env 0 v = .ok b

/-- `base.Deserialize(b)` returns the packet `v`. -/
def Decodes (env : Env) (depth : Nat) (base : Cls) (b : Bytes) (v : Val) : Prop :=
  ∃ m n, deserialize env depth base b = (.done (v, m), n)

/-- No position inside the garbage `g` (followed by `b`) holds a 64-bit number followed by its
bitwise complement. -/
def CleanGarbage (g b : Bytes) : Prop :=
  ∀ i < g.length, ∀ n < 2 ^ 64, ((g ++ b).drop i).take 16 ≠ beEnc 8 n ++ beEnc 8 (compl64 n)

/-- What arrives: each packet possibly preceded by garbage. -/
def wire (env : Env) (items : List (Bytes × Val)) : Bytes :=
  items.flatMap fun x => x.1 ++ ser env x.2

mutual
/-- The value contains no packet. -/
def flatV : Val → Bool
  | .list vs => flatL vs
  | .struct fs => flatF fs
  | .packet _ _ => false
  | _ => true
def flatL : VList → Bool
  | .nil => true
  | .cons v r => flatV v && flatL r
def flatF : FVals → Bool
  | .nil => true
  | .unset r => flatF r
  | .set v r => flatV v && flatF r
end

/-- Bytes of a complete packet (announced length = actual length, identifier, version, arbitrary
content) whose identifier and version no definition visible from `base` carries. -/
def UnknownPacket (env : Env) (base : Cls) (u : Bytes) : Prop :=
  ∃ (ident ver : Str) (version : Version) (content : Bytes),
    u.length < 2 ^ 64 ∧ (utf8 ident).length < 256 ∧ (utf8 ver).length < 256 ∧
    Version.fromString ver = some version ∧ env.lookup base ident version = .ok none ∧
    u = beEnc 8 u.length ++ beEnc 8 (compl64 u.length) ++ [UInt8.ofNat (utf8 ident).length] ++ utf8 ident
      ++ [UInt8.ofNat (utf8 ver).length] ++ utf8 ver ++ content

/-- Bytes of a packet of class `cls` with field values `fs` as a newer sender would write it: the
encodings of the known fields, followed by a field with the unknown tag `tag` and by `junk` (the
content of this field and `more` further fields). -/
def ExtendedPacket (env : Env) (cls : Cls) (fs : FVals) (tag more : Nat) (junk : Bytes) (u : Bytes) : Prop :=
  ∃ (d : PDef) (tags : List Nat) (n : Nat) (body : Bytes),
    env.classDef cls = some d ∧ processFields d.fields = .ok tags ∧ countSet fs d.fields = .ok n ∧
    encF env fs d.fields tags = .ok body ∧ tag ∉ tags ∧ tag < 2 ^ 16 ∧ n + 1 + more < 2 ^ 16 ∧
    u.length < 2 ^ 64 ∧ (utf8 d.ident).length < 256 ∧ (utf8 d.version).length < 256 ∧
    u = beEnc 8 u.length ++ beEnc 8 (compl64 u.length) ++ [UInt8.ofNat (utf8 d.ident).length] ++ utf8 d.ident
      ++ [UInt8.ofNat (utf8 d.version).length] ++ utf8 d.version
      ++ beEnc 2 (n + 1 + more) ++ body ++ beEnc 2 tag ++ junk

end Verif
