import Verif.Model.Types
/-!
# PlaygroundStandardPacketEncoder: encoding

An exception during encoding discards the output stream (`PacketType.__serialize__`,
PacketType.py:234-240, creates it locally), so encoding is `Except Err Bytes`.
-/
namespace Verif

/-- `except Exception as e: raise PacketEncodingError(...) from e`
(PlaygroundStandardPacketEncoder.py:296-297). -/
def wrapE {α} : Except Err α → Except Err α
  | .ok a => .ok a
  | .error _ => .error .encoding

/-- `_maxValueToPackCode` (PlaygroundStandardPacketEncoder.py:185-195): size in bytes of the pack
code chosen from the `MaxValue` attribute, default `2**32-1`. -/
def numWidth (a : NumAttrs) : Except Err Nat :=
  let m := a.effMax.getD (2 ^ 32 - 1)
  if m < 2 ^ 8 then .ok 1
  else if m < 2 ^ 16 then .ok 2
  else if m < 2 ^ 32 then .ok 4
  else if m < 2 ^ 64 then .ok 8
  else .error .encoding

/-- `while autoTag in fieldToTag.inverse(): autoTag += 1`
(PlaygroundStandardPacketEncoder.py:266-267); the fuel is the number of used tags, after which
a free tag has been found (`skipUsed_not_mem`). -/
def skipUsed (used : List Nat) : Nat → Nat → Nat
  | 0, t => t
  | f + 1, t => if t ∈ used then skipUsed used f (t + 1) else t

/-- Loop of `_processFields` (PlaygroundStandardPacketEncoder.py:255-270). `acc` is the Bijection
`fieldToTag` (insertions only of new names and new tags, so a list of pairs). -/
def processLoop : FDecls → Nat → List (String × Nat) → Except Err (List (String × Nat))
  | .nil, _, acc => .ok acc
  | .cons name tag _ _ rest, auto, acc =>
    if name ∈ acc.map Prod.fst then .error .duplicateField
    else match tag with
      | some g =>
        if g ∈ acc.map Prod.snd then .error .duplicateTag
        else processLoop rest auto (acc ++ [(name, g)])
      | none =>
        let a := skipUsed (acc.map Prod.snd) acc.length auto
        processLoop rest a (acc ++ [(name, a)])

/-- `_processFields(FIELDS)`: the tags, in the order of `FIELDS`. -/
def processFields (ds : FDecls) : Except Err (List Nat) :=
  match processLoop ds 0 [] with
  | .ok acc => .ok (acc.map Prod.snd)
  | .error e => .error e

/-- Number of fields to encode; `PacketEncodingError` if a field not marked optional is unset
(PlaygroundStandardPacketEncoder.py:276-285). -/
def countSet : FVals → FDecls → Except Err Nat
  | .nil, .nil => .ok 0
  | .unset r, .cons _ _ opt _ ds => if opt then countSet r ds else .error .encoding
  | .set _ r, .cons _ _ _ _ ds =>
    match countSet r ds with
    | .ok n => .ok (n + 1)
    | .error e => .error e
  | _, _ => .error .value

/-- Packet header `"!QQB{}sB{}s"` with the final length in place
(PlaygroundStandardPacketEncoder.py:349-371). -/
def encHeader (total : Nat) (idb verb : Bytes) : Except Err Bytes := do
  let q1 ← packU 8 total
  let q2 ← packU 8 (compl64 total)
  let l1 ← packU 1 idb.length
  let l2 ← packU 1 verb.length
  .ok (q1 ++ (q2 ++ (l1 ++ (idb ++ (l2 ++ verb)))))

/-- `FloatEncoder` (PlaygroundStandardPacketEncoder.py:149-151, 158-172): the bytes of a float in a field; `KeyError` for other numbers of bits,
`OverflowError` for numbers too large for a single. -/
def encFloat (a : NumAttrs) (x : F64) : Except Err Bytes :=
  match a.bits with
  | some 64 => .ok (beEnc 8 x.toNat)
  | none | some 32 => match narrow x with
    | some y => .ok (beEnc 4 y.toNat)
    | none => .error .value
  | _ => .error .value

mutual
/-- `topEncoder.encode(stream, field)` (PlaygroundStandardPacketEncoder.py:127-131) dispatching on
the field type: intrinsic types 149-151, strings 219-224, buffers 239-243, structs 272-297, lists
327-330, packets 349-371. -/
def encV (env : Env) : Val → FType → Except Err Bytes
  | .num i, .num signed a => do
    let w ← numWidth a
    if signed then packS w i else packU w i
  | .float _ x, .float a => encFloat a x
  | .bool b, .bool => .ok [if b then 1 else 0]
  | .str s, .str =>
    if s.length > 2 ^ 16 then .error .encoding
    else do
      let h ← packU 2 s.length
      .ok (h ++ (utf8 s).take s.length)
  | .buf b, .buf =>
    if b.length > 2 ^ 64 then .error .encoding
    else do
      let h ← packU 8 b.length
      .ok (h ++ b)
  | .list vs, .list t => do
    let h ← packU 2 vs.length
    let body ← encL env vs t
    .ok (h ++ body)
  | .struct fs, .struct ds => do
    let tags ← processFields ds
    let n ← countSet fs ds
    let h ← packU 2 n
    let body ← encF env fs ds tags
    .ok (h ++ body)
  | .packet cls fs, .packet _ =>
    match env.classDef cls with
    | none => .error .value
    | some d => do
      let tags ← processFields d.fields
      let n ← countSet fs d.fields
      let h ← packU 2 n
      let body ← encF env fs d.fields tags
      let idb := utf8 d.ident
      let verb := utf8 d.version
      let total := 16 + (1 + idb.length) + (1 + verb.length) + (h.length + body.length)
      let hdr ← encHeader total idb verb
      .ok (hdr ++ (h ++ body))
  | _, _ => .error .value
/-- List elements one after the other (PlaygroundStandardPacketEncoder.py:329-330). -/
def encL (env : Env) : VList → FType → Except Err Bytes
  | .nil, _ => .ok []
  | .cons v r, t => do
    let b ← encV env v t
    let bs ← encL env r t
    .ok (b ++ bs)
/-- Tag and content of each set field (PlaygroundStandardPacketEncoder.py:291-297). -/
def encF (env : Env) : FVals → FDecls → List Nat → Except Err Bytes
  | .nil, .nil, [] => .ok []
  | .unset r, .cons _ _ _ _ ds, _ :: tags => encF env r ds tags
  | .set v r, .cons _ _ _ t ds, tag :: tags => do
    let tb ← wrapE (packU 2 tag)
    let b ← wrapE (encV env v t)
    let bs ← encF env r ds tags
    .ok (tb ++ (b ++ bs))
  | _, _, _ => .error .value
end

/-- `packet.__serialize__()` (PacketType.py:234-240: the wrapper type is
`ComplexFieldType(PacketType)`; `base` stands for the root class `PacketType`). -/
def serialize (env : Env) (base : Cls) (p : Val) : Except Err Bytes := encV env p (.packet base)

end Verif
