import Verif.Spec.Float
import Verif.Model.Deserializer
/-! # What may be expected of packets that arrive -/
namespace Verif

/-- The fields have different tags; tags and the number of fields fit into 16 bits. -/
def TagsFit (ds : FDecls) : Prop := ∃ tags, processFields ds = .ok tags ∧ tags.length < 2 ^ 16 ∧ ∀ g ∈ tags, g < 2 ^ 16

mutual
/-- This holds for all structs inside of the type. -/
def encodableT : FType → Prop
  | .list t => encodableT t
  | .struct ds => TagsFit ds ∧ encodableD ds
  | _ => True
def encodableD : FDecls → Prop
  | .nil => True
  | .cons _ _ _ t ds => encodableT t ∧ encodableD ds
end

/-- Every class can be sent: this holds for its fields, and its name and version fit into 255 bytes. -/
def Env.Encodable (env : Env) : Prop := ∀ cls d, env.classDef cls = some d →
  TagsFit d.fields ∧ encodableD d.fields ∧ (utf8 d.ident).length < 256 ∧ (utf8 d.version).length < 256

mutual
/-- The number of bytes on the wire (an upper limit). -/
def sizeV (env : Env) : Val → Nat
  | .num _ => 8
  | .float _ _ => 8
  | .bool _ => 1
  | .str s => 2 + s.length
  | .buf b => 8 + b.length
  | .list vs => 2 + sizeL env vs
  | .struct fs => 2 + sizeF env fs
  | .packet cls fs => 2 ^ 10 + sizeF env fs
def sizeL (env : Env) : VList → Nat
  | .nil => 0
  | .cons v r => sizeV env v + sizeL env r
def sizeF (env : Env) : FVals → Nat
  | .nil => 0
  | .unset r => sizeF env r
  | .set v r => 2 + sizeV env v + sizeF env r
end

/-- A packet that an application gets: returned by `base.Deserialize(b)` for some bytes, or yielded by `nextPackets()` of a deserializer of the class, after
any history of `update` and `nextPackets`. -/
def Arrived (env : Env) (depth : Nat) (base : Cls) (v : Val) : Prop :=
  (∃ b, Decodes env depth base b v) ∨ ∃ ops, Event.packet v ∈ (runOps env depth base (.init env depth base) ops).1

end Verif
