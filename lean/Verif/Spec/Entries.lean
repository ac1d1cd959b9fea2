import Verif.Spec.Codec
import Verif.Lemmas.Tags
/-! # Vocabulary for packets whose fields are written in any order, and more than once (C87) -/
namespace Verif

/-- The type of the `i`-th field. -/
def FDecls.typeAt : FDecls → Nat → Option FType
  | .nil, _ => none
  | .cons _ _ _ t _, 0 => some t
  | .cons _ _ _ _ r, i + 1 => r.typeAt i

/-- The value of the `i`-th field; `none` if it is unset (or there is no such field). -/
def FVals.at' : FVals → Nat → Option Val
  | .nil, _ => none
  | .unset _, 0 => none
  | .set v _, 0 => some v
  | .unset r, i + 1 => r.at' i
  | .set _ r, i + 1 => r.at' i

def FVals.length : FVals → Nat
  | .nil => 0
  | .unset r => r.length + 1
  | .set _ r => r.length + 1

mutual
/-- A value that arrives for a field that already has one: it takes its place, except that a struct that arrives for a struct
changes only the fields that arrive. -/
def arriveOver : Val → Val → Val
  | .struct old, .struct new => .struct (arriveFields old new)
  | _, new => new
/-- The same for the fields of a struct. -/
def arriveFields : FVals → FVals → FVals
  | .unset o, .unset r => .unset (arriveFields o r)
  | .unset o, .set v r => .set v (arriveFields o r)
  | .set w o, .unset r => .set w (arriveFields o r)
  | .set w o, .set v r => .set (arriveOver w v) (arriveFields o r)
  | o, _ => o
end

/-- A value that arrives for a field, which may be unset. -/
def arrive : Option Val → Val → Val
  | none, v => v
  | some w, v => arriveOver w v

/-- What a field has after the values that came for it, one after the other. -/
def lastOf (vs : List Val) : Option Val := vs.foldl (fun c v => some (arrive c v)) none

/-- The values that came for field `i`. -/
def cameFor (es : List (Nat × Val)) (i : Nat) : List Val := (es.filter (·.1 == i)).map (·.2)

/-- The bytes `b` are field `i` of `ds` with value `v`: the tag of the field and the encoding of a value that the field accepts. -/
def EntryBytes (env : Env) (ds : FDecls) (tags : List Nat) (i : Nat) (v : Val) (b : Bytes) : Prop :=
  ∃ t tag vb, ds.typeAt i = some t ∧ tags[i]? = some tag ∧ tag < 2 ^ 16 ∧ accepts env v t = true ∧ encV env v t = .ok vb ∧ b = beEnc 2 tag ++ vb

/-- The bytes of several fields, one after the other, in any order. -/
inductive EntriesBytes (env : Env) (ds : FDecls) (tags : List Nat) : List (Nat × Val) → Bytes → Prop where
  | nil : EntriesBytes env ds tags [] []
  | cons {i v b es bs} : EntryBytes env ds tags i v b → EntriesBytes env ds tags es bs → EntriesBytes env ds tags ((i, v) :: es) (b ++ bs)

/-- Bytes of a packet of class `cls` in the wire format, with the fields `es` written one after the other. -/
def PacketOf (env : Env) (cls : Cls) (es : List (Nat × Val)) (u : Bytes) : Prop :=
  ∃ (d : PDef) (tags : List Nat) (body : Bytes),
    env.classDef cls = some d ∧ processFields d.fields = .ok tags ∧ EntriesBytes env d.fields tags es body ∧
    es.length < 2 ^ 16 ∧ u.length < 2 ^ 64 ∧ (utf8 d.ident).length < 256 ∧ (utf8 d.version).length < 256 ∧
    u = beEnc 8 u.length ++ beEnc 8 (compl64 u.length) ++ [UInt8.ofNat (utf8 d.ident).length] ++ utf8 d.ident
      ++ [UInt8.ofNat (utf8 d.version).length] ++ utf8 d.version ++ beEnc 2 es.length ++ body

end Verif
