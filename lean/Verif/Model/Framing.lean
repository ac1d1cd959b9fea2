import Verif.Model.StreamIO
/-!
# network/packet/encoders/PacketFramingStream.py: the framing adapter

The underlying stream is an `UpdateableBytesIO` (`Bio`). Functions that can raise return the result
together with the state left behind.
-/
namespace Verif

/-- `MAGIC` (PacketFramingStream.py:40). -/
def MAGIC : Bytes := [0x05, 0x08, 0x0D, 0x15]
/-- `REV_MAGIC` (PacketFramingStream.py:41). -/
def REV_MAGIC : Bytes := [0x51, 0xD0, 0x80, 0x50]

/-- One byte of Adler-32: the pair of sums modulo 65521. -/
def adlerStep (s : Nat × Nat) (x : UInt8) : Nat × Nat :=
  let a := (s.1 + x.toNat) % 65521
  (a, (s.2 + a) % 65521)

/-- `zlib.adler32(data)`; `zlib.adler32(d2, zlib.adler32(d1))` is `adler32 (d1 ++ d2)`
(PacketFramingStream.py:93-95, 126-127). -/
def adler32 (d : Bytes) : Nat :=
  let s := d.foldl adlerStep (1, 0)
  s.2 * 65536 + s.1

/-- State of a `PacketFramingStreamAdapter` (PacketFramingStream.py:46-52). -/
structure Frm where
  s : Bio
  start : Nat                -- _prefixStart
  startChecked : Bool
  endChecked : Bool
  size : Option Nat          -- _dataSize
  deriving DecidableEq, Repr

namespace Frm

/-- Move the underlying stream (`self._stream.seek(p)`). -/
def goto (f : Frm) (p : Nat) : Frm := { f with s := { f.s with pos := p } }

/-- How many bytes the loop of `_fail` reads (PacketFramingStream.py:59-61): until fewer than 4 bytes
are left or the next four are `MAGIC`. -/
def skipMagic : Bytes → Nat
  | [] => 0
  | x :: t => if 4 ≤ (x :: t).length ∧ (x :: t).take 4 ≠ MAGIC then skipMagic t + 1 else 0

/-- `_fail` (PacketFramingStream.py:54-62): the state left behind when it raises. -/
def failed (f : Frm) : Frm := f.goto (f.s.pos + skipMagic (f.s.buf.drop f.s.pos))

/-- `_rawStreamSize` (PacketFramingStream.py:64-69); the prefix never starts beyond the end. -/
def rawSize (f : Frm) : Nat := f.s.buf.length - f.start

/-- `_rawAvailable` (PacketFramingStream.py:71-77). -/
def rawAvailable (f : Frm) : Nat := f.s.buf.length - f.s.pos

/-- `_checkStreamStart` (PacketFramingStream.py:79-104). -/
def checkStart (f : Frm) : Except Err Unit × Frm :=
  if f.startChecked then (.ok (), f)
  else
    let f := f.goto f.start
    if f.rawAvailable < 12 then (.ok (), { f with size := none })
    else
      let pfx := f.s.peek 12
      let magic := pfx.take 4
      let sizeBytes := (pfx.drop 4).take 4
      let checkBytes := (pfx.drop 8).take 4
      if magic ≠ MAGIC then (.error .frame, f.failed)
      else if beDec checkBytes ≠ adler32 (magic ++ sizeBytes) then (.error .frame, f.failed)
      else (.ok (), { f.goto (f.s.pos + 12) with size := some (beDec sizeBytes), startChecked := true })

/-- `_checkStreamEnd` (PacketFramingStream.py:106-134). -/
def checkEnd (f : Frm) : Except Err Unit × Frm :=
  match f.size with
  | none => (.ok (), f)
  | some size =>
    if f.endChecked then (.ok (), f)
    else if f.rawSize < 12 + size + 12 then (.ok (), f)
    else
      let cur := f.s.pos
      let f := f.goto (f.start + 12 + size)
      let checkBytes := (f.s.read 4).1
      let f := { f with s := (f.s.read 4).2 }
      let sizeBytes := (f.s.read 4).1
      let f := { f with s := (f.s.read 4).2 }
      if beDec sizeBytes ≠ size then (.error .frame, f.failed)
      else
        let magic := (f.s.read 4).1
        let f := { f with s := (f.s.read 4).2 }
        if magic ≠ REV_MAGIC then (.error .frame, f.failed)
        else if beDec checkBytes ≠ adler32 (sizeBytes ++ magic) then (.error .frame, f.failed)
        else (.ok (), { f.goto cur with endChecked := true })

/-- `checkStart` followed by `checkEnd` (PacketFramingStream.py:51-52, 180-181). -/
def check (f : Frm) : Except Err Unit × Frm :=
  match f.checkStart with
  | (.error e, f) => (.error e, f)
  | (.ok _, f) => f.checkEnd

/-- `PacketFramingStreamAdapter(stream)` (PacketFramingStream.py:46-52). -/
def init (s : Bio) : Except Err Unit × Frm := check ⟨s, s.pos, false, false, none⟩

/-- `available` (PacketFramingStream.py:136-150). -/
def available (f : Frm) : Int :=
  if f.rawSize < 24 then 0 else (f.s.buf.length : Int) - 12 - f.s.pos

/-- `seek(offset)` with `SEEK_SET` (PacketFramingStream.py:152-158). -/
def seekSet (f : Frm) (offset : Nat) : Frm :=
  if f.rawSize < 24 then f else f.goto (f.start + 12 + offset)

/-- `seek(0, SEEK_END)` (PacketFramingStream.py:161-166). -/
def seekEnd (f : Frm) : Frm :=
  if f.rawSize < 24 then f else f.goto (f.s.buf.length - 12)

/-- `tell` (PacketFramingStream.py:168-177): never negative. -/
def tell (f : Frm) : Nat :=
  if f.rawSize < 24 then 0 else f.s.pos - f.start - 12

/-- `read(count)` (PacketFramingStream.py:179-201). -/
def read (f : Frm) (count : Int) : Except Err Bytes × Frm :=
  match f.check with
  | (.error e, f) => (.error e, f)
  | (.ok _, f) =>
    if f.startChecked = false then (.error .frame, f.failed)
    else
      let readMin := f.start + 12
      let readMax := if f.endChecked then readMin + f.size.getD 0 else f.s.buf.length - 1
      if f.s.pos < readMin ∨ readMax < f.s.pos then (.error .frame, f)
      else if f.available < count then
        if count = 1 then (.error .frame, f)
        else ((.ok (f.s.read f.available).1), { f with s := (f.s.read f.available).2 })
      else ((.ok (f.s.read count).1), { f with s := (f.s.read count).2 })

/-- `write(data)` (PacketFramingStream.py:203-233). -/
def write (f : Frm) (d : Bytes) : Except Err Unit × Frm :=
  if f.endChecked then (.error .frame, f)
  else if f.startChecked = false ∧ f.start + 12 < f.s.pos then (.error .frame, f)
  else
    let f := if f.startChecked then f
      else { f with s := (((({ f.s with pos := f.start } : Bio).write MAGIC).write MAGIC).write MAGIC),
                    startChecked := true, size := some 0 }
    let f := { f with s := f.s.write d }
    let est := f.s.pos - f.start - 12
    (.ok (), if f.size.getD 0 < est then { f with size := some est } else f)

/-- The stream operations of `writeFrame` (PacketFramingStream.py:239-252), the position being
`start + 4`. -/
def writeDelimiters (s : Bio) (start size : Nat) (sizeBytes : Bytes) : Bio :=
  let s := (s.write sizeBytes).write (beEnc 4 (adler32 (MAGIC ++ sizeBytes)))
  let s : Bio := ⟨s.buf, start + 12 + size⟩
  ((s.write (beEnc 4 (adler32 (sizeBytes ++ REV_MAGIC)))).write sizeBytes).write REV_MAGIC

/-- The rest of `writeFrame` once `struct.pack("!I", size)` (PacketFramingStream.py:241) has answered. -/
def putFrame (f : Frm) (size : Nat) : Except Err Bytes → Except Err Unit × Frm
  | .error e => (.error e, f.goto (f.start + 4))
  | .ok sizeBytes =>
    (.ok (), { f with s := writeDelimiters ⟨f.s.buf, f.start + 4⟩ f.start size sizeBytes, endChecked := true })

/-- `writeFrame` (PacketFramingStream.py:235-254). `struct.pack("!I", None)` (nothing was written)
and a size of 2^32 or more raise `struct.error`. -/
def writeFrame (f : Frm) : Except Err Unit × Frm :=
  if f.endChecked then (.error .frame, f)
  else
    match f.size with
    | none => (.error .structError, f.goto (f.start + 4))
    | some size => f.putFrame size (packU 4 size)

/-- `closeFrame` (PacketFramingStream.py:256-263). -/
def closeFrame (f : Frm) : Except Err Unit × Frm :=
  if f.endChecked = false then (.error .frame, f.failed)
  else (.ok (), f.goto (f.start + 12 + f.size.getD 0 + 12))

/-- A sequence of `write` calls, then `writeFrame`. -/
def writeAll : Frm → List Bytes → Except Err Unit × Frm
  | f, [] => f.writeFrame
  | f, d :: ds =>
    match f.write d with
    | (.error e, f) => (.error e, f)
    | (.ok _, f) => writeAll f ds

/-- A sequence of `read` calls; the bytes read, all together. -/
def readAll : Frm → List Int → Except Err Bytes × Frm
  | f, [] => (.ok [], f)
  | f, n :: ns =>
    match f.read n with
    | (.error e, f) => (.error e, f)
    | (.ok b, f) =>
      match readAll f ns with
      | (.error e, f) => (.error e, f)
      | (.ok r, f) => (.ok (b ++ r), f)

end Frm
end Verif
