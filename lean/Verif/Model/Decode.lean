import Verif.Model.Encode
/-!
# PlaygroundStandardPacketEncoder: decoding

The Python decoders are generators: they `yield` while the stream has fewer bytes than the next
`struct.unpack` needs and are resumed later.  `Dec α` is such a (suspendable) program; `Dec.run`
executes it on the bytes present and returns the suspended rest when it has to wait.
-/
namespace Verif

/-- A decoding generator.
* `read n k`: wait until `n` bytes are available, then read them
  (`unpackIterator`, PlaygroundStandardPacketEncoder.py:51-53);
* `tell k`: `stream.tell()`;
* `skip n k`: `stream.read(n)` without waiting; reads at most what is there, everything if `n < 0`
  (line 434);
* `sync start q k`: the loop looking for a packet length (lines 374-395). `start` is
  `packetStartPosition`; `q = none`: about to read the first `!Q` at position `start`,
  `q = some x`: the first `!Q` was `x`, about to read the second at `start + 8`.
  `k len start'` is the rest after the loop. -/
inductive Dec (α : Type) where
  | ret (a : α)
  | fail (e : Err)
  | read (n : Nat) (k : Bytes → Dec α)
  | tell (k : Nat → Dec α)
  | skip (n : Int) (k : Dec α)
  | sync (start : Nat) (q : Option Nat) (k : Nat → Nat → Dec α)

namespace Dec

/-- Sequencing (`yield from`). -/
def bind {α β} : Dec α → (α → Dec β) → Dec β
  | ret a, f => f a
  | fail e, _ => fail e
  | read n k, f => read n fun b => (k b).bind f
  | tell k, f => tell fun p => (k p).bind f
  | skip n k, f => skip n (k.bind f)
  | sync s q k, f => sync s q fun len st => (k len st).bind f

/-- `try: yield from ... except Exception: raise PacketEncodingError`
(PlaygroundStandardPacketEncoder.py:318-321, 338-341). -/
def wrap {α} : Dec α → Dec α
  | ret a => ret a
  | fail _ => fail .encoding
  | read n k => read n fun b => (k b).wrap
  | tell k => tell fun p => (k p).wrap
  | skip n k => skip n k.wrap
  | sync s q k => sync s q fun len st => (k len st).wrap

instance : Monad Dec where
  pure := ret
  bind := bind

end Dec

/-- `unpackIterator(code)` for a code of `n` bytes (PlaygroundStandardPacketEncoder.py:47-61);
`max` is the adapter's `_max_size`, `0` standing for both `None` and `0` (both falsy). -/
def unpack (max n : Nat) : Dec Bytes :=
  if max ≠ 0 ∧ max < n then .fail .tooBig else .read n .ret

/-- `unpackIterator` of an unsigned integer code. -/
def unpackU (max n : Nat) : Dec Nat := (unpack max n).bind fun b => .ret (beDec b)

/-- Intrinsic numeric type: `IntrinsicTypeStandardEncoder.decodeIterator` 153-156 followed by
`setData` (Uint.py:4-10 and the validators, PacketFieldType.py:55-63). -/
def decNum (signed : Bool) (a : NumAttrs) (max : Nat) : Dec Val :=
  match numWidth a with
  | .error e => .fail e
  | .ok w => (unpack max w).bind fun b =>
      let i : Int := if signed then unpackS w b else (beDec b : Int)
      if (signed || decide (0 ≤ i)) && a.validates i then .ret (.num i) else .fail .value

/-- `setData` of a float field (FloatFieldType.py:9-14 and the validators, PacketFieldType.py:55-63). -/
def setFloat (a : NumAttrs) (x : F64) : Dec Val := if a.validatesFloat x then .ret (.float a.single x) else .fail .value

/-- `FloatEncoder` with `decodeIterator` (PlaygroundStandardPacketEncoder.py:153-172), followed by `setData`. -/
def decFloat (a : NumAttrs) (max : Nat) : Dec Val :=
  match a.bits with
  | some 64 => (unpackU max 8).bind fun n => setFloat a (UInt64.ofNat n)
  | none | some 32 => (unpackU max 4).bind fun n => setFloat a (widen (UInt32.ofNat n))
  | _ => .fail .value

/-- `listSize` elements, each appended to the list (PlaygroundStandardPacketEncoder.py:332-341). -/
def listLoop (elem : Nat → Dec (Val × Nat)) : Nat → VList → Nat → Dec (VList × Nat)
  | 0, acc, max => .ret (acc, max)
  | n + 1, acc, max => (elem max).wrap.bind fun r => listLoop elem n (acc.snoc r.1) r.2

/-- Result of decoding a field list: the values, the limit, and whether the loop was left by an
`UnknownExtensionFieldError`. -/
structure FRes where
  vals : FVals
  max : Nat
  ext : Bool

/-- The field loop of `PacketFieldsEncoder.decodeIterator`
(PlaygroundStandardPacketEncoder.py:307-321). `one i vals max` decodes the `i`-th field. -/
def fieldLoop (tags : List Nat) (one : Nat → FVals → Nat → Dec (FVals × Nat)) :
    Nat → FVals → Nat → Dec FRes
  | 0, vals, max => .ret ⟨vals, max, false⟩
  | n + 1, vals, max => (unpackU max 2).bind fun tag =>
      match tags.findIdx? (· == tag) with
      | none => if tag < 200 then .fail .encoding else .ret ⟨vals, max, true⟩
      | some i => (one i vals max).wrap.bind fun r => fieldLoop tags one n r.1 r.2

/-- `PacketFieldsEncoder.decodeIterator` (PlaygroundStandardPacketEncoder.py:299-321), given the
decoder of single fields. -/
def decBody (ds : FDecls) (one : Nat → FVals → Nat → Dec (FVals × Nat)) (vals : FVals) (max : Nat) :
    Dec FRes :=
  match processFields ds with
  | .error e => .fail e
  | .ok tags => (unpackU max 2).bind fun n => fieldLoop tags one n vals max

mutual
/-- `topDecoder.decodeIterator(stream, field)` (PlaygroundStandardPacketEncoder.py:138-142) by field
type. `cur` is the field's present value: a struct that is already set is decoded into
(`initializeData`, ComplexFieldType.py:19-22). `pk` decodes nested packets. Returns the value and
the adapter's `_max_size` afterwards. -/
def decT (env : Env) (pk : Cls → Nat → Dec (Val × Nat)) :
    FType → Option Val → Nat → Dec (Val × Nat)
  | .num signed a, _, max => (decNum signed a max).bind fun v => .ret (v, max)
  | .float a, _, max => (decFloat a max).bind fun v => .ret (v, max)
  | .bool, _, max => (unpackU max 1).bind fun n => .ret (.bool (n != 0), max)
  | .str, _, max => (unpackU max 2).bind fun n => (unpack max n).bind fun b =>
      match utf8Dec b with
      | none => .fail .unicode
      | some s => .ret (.str s, max)
  | .buf, _, max => (unpackU max 8).bind fun n => (unpack max n).bind fun b => .ret (.buf b, max)
  | .list t, _, max => (unpackU max 2).bind fun n =>
      (listLoop (fun m => decT env pk t none m) n .nil max).bind fun r => .ret (.list r.1, r.2)
  | .struct ds, cur, max =>
      let vals := match cur with | some (.struct fs) => fs | _ => ds.blank
      (decBody ds (fun i fs m => decNth env pk ds i fs m) vals max).bind fun r =>
        if r.ext then .fail .unknownExt else .ret (.struct r.vals, r.max)
  | .packet base, _, max => pk base max
/-- Decode the `i`-th field of the list into its place. -/
def decNth (env : Env) (pk : Cls → Nat → Dec (Val × Nat)) :
    FDecls → Nat → FVals → Nat → Dec (FVals × Nat)
  | .cons _ _ _ t _, 0, .unset r, max => (decT env pk t none max).bind fun x => .ret (.set x.1 r, x.2)
  | .cons _ _ _ t _, 0, .set v r, max =>
      (decT env pk t (some v) max).bind fun x => .ret (.set x.1 r, x.2)
  | .cons _ _ _ _ ds, i + 1, .unset r, max =>
      (decNth env pk ds i r max).bind fun x => .ret (.unset x.1, x.2)
  | .cons _ _ _ _ ds, i + 1, .set v r, max =>
      (decNth env pk ds i r max).bind fun x => .ret (.set v x.1, x.2)
  | _, _, _, _ => .fail .value      -- no such field: cannot happen, `i` comes from the tag table
end

/-- After the fields: compare the bytes used with the announced length
(PlaygroundStandardPacketEncoder.py:428-443). `res = none`: no packet type was found. -/
def finishPacket (len start : Nat) (res : Option (Val × Nat × Bool)) : Dec (Val × Nat) :=
  .tell fun pos =>
    let unread : Int := (len : Int) - ((pos : Int) - (start : Int))
    let final : Dec (Val × Nat) := match res with
      | none => .fail .badPacket
      | some (v, max, _) => .ret (v, max)
    if unread ≠ 0 then
      .skip unread (match res with
        | some (_, _, true) => final
        | _ => .fail .badPacket)
    else final

/-- `PacketEncoder.decodeIterator` after the length was found
(PlaygroundStandardPacketEncoder.py:397-443). From here on `_max_size` is the packet length. -/
def packetRest (env : Env) (body : PDef → Nat → Dec FRes) (base : Cls) (len start : Nat) :
    Dec (Val × Nat) :=
  (unpackU len 1).bind fun nameLen => (unpack len nameLen).bind fun nameB =>
  match utf8Dec nameB with
  | none => .fail .unicode
  | some name =>
  (unpackU len 1).bind fun verLen => (unpack len verLen).bind fun verB =>
  match utf8Dec verB with
  | none => .fail .unicode
  | some ver =>
  match Version.fromString ver with
  | none => .fail .attribute
  | some version =>
  match env.lookup base name version with
  | .error e => .fail e
  | .ok none => finishPacket len start none
  | .ok (some cls) =>
    match env.classDef cls with
    | none => .fail .value
    | some d =>
      if env.isSub cls base then                  -- complexType.setData(packet), line 422
        (body d len).bind fun r =>
          finishPacket len start (some (.packet cls r.vals, r.max, r.ext))
      else .fail .value

/-- `PacketEncoder.decodeIterator` (PlaygroundStandardPacketEncoder.py:373-443). The first argument
is the remaining depth of packets inside packets before Python's recursion limit is hit. -/
def decPacket (env : Env) : Nat → Cls → Nat → Dec (Val × Nat)
  | 0, _, _ => .fail .recursion
  | f + 1, base, max =>
    .tell fun start =>
      if max ≠ 0 ∧ max < 8 then .fail .tooBig
      else .sync start none fun len start' =>
        packetRest env
          (fun d m => decBody d.fields
            (fun i fs m => decNth env (decPacket env f) d.fields i fs m) d.fields.blank m)
          base len start'

/-! ## Execution -/

/-- The bytes `[pos, pos+n)` of the stream. -/
def window (buf : Bytes) (pos n : Nat) : Bytes := (buf.drop pos).take n

/-- Where the search for a packet length (PlaygroundStandardPacketEncoder.py:378-395) stops. -/
inductive ScanRes where
  | found (len start : Nat)
  | wait1 (start : Nat)          -- fewer than 8 bytes at `start`
  | wait2 (start q1 : Nat)       -- the first `!Q` was read, fewer than 8 bytes at `start + 8`
  deriving DecidableEq, Repr

/-- Search from position `start` in `buf`; the fuel bounds the number of positions tried. -/
def scanFrom (buf : Bytes) : Nat → Nat → ScanRes
  | 0, start => .wait1 start
  | f + 1, start =>
    if buf.length < start + 8 then .wait1 start
    else
      let q1 := beDec (window buf start 8)
      if buf.length < start + 16 then .wait2 start q1
      else
        let q2 := beDec (window buf (start + 8) 8)
        if q1 = compl64 q2 then .found q1 start
        else scanFrom buf f (start + 1)

/-- Resume the search with the first `!Q` possibly read already. -/
def scan (buf : Bytes) (start : Nat) : Option Nat → ScanRes
  | none => scanFrom buf (buf.length + 1) start
  | some q1 =>
    if buf.length < start + 16 then .wait2 start q1
    else
      let q2 := beDec (window buf (start + 8) 8)
      if q1 = compl64 q2 then .found q1 start
      else scanFrom buf (buf.length + 1) (start + 1)

/-- Outcome of running a generator until it returns, raises, or yields. -/
inductive Out (α : Type) where
  | done (a : α)
  | error (e : Err)
  | wait (d : Dec α)

/-- `next(generator)` on a stream with contents `buf` at position `pos`; also returns the new
position. -/
def Dec.run {α} (buf : Bytes) : Dec α → Nat → Out α × Nat
  | .ret a, pos => (.done a, pos)
  | .fail e, pos => (.error e, pos)
  | .read n k, pos =>
    if buf.length < pos + n then (.wait (.read n k), pos)
    else (k (window buf pos n)).run buf (pos + n)
  | .tell k, pos => (k pos).run buf pos
  | .skip n k, pos =>
    k.run buf (if n < 0 then buf.length else Nat.min buf.length (pos + n.toNat))
  | .sync start q k, _ =>
    match scan buf start q with
    | .found len start' => (k len start').run buf (start' + 16)
    | .wait1 start' => (.wait (.sync start' none k), start')
    | .wait2 start' q1 => (.wait (.sync start' (some q1) k), start' + 8)

/-- `PacketType.Deserialize(buffer)` (PacketType.py:149-158). `wait`: the Python code spins forever
(`decode` ignores the "waiting" yields, PlaygroundStandardPacketEncoder.py:133-136). -/
def deserialize (env : Env) (depth : Nat) (base : Cls) (buffer : Bytes) : Out (Val × Nat) × Nat :=
  (decPacket env depth base 0).run buffer 0

end Verif
