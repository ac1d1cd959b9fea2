/-!
# Byte strings and `struct` pack codes

Python `bytes` is modelled by `List UInt8`.  The big-endian ("!") integer pack codes of the
`struct` module used in /repo (`B H I Q b h i q ?`, `{n}s`) are modelled here.
-/
namespace Verif

abbrev Bytes := List UInt8

/-- Exceptions of the packet layer, as values.  Python exception classes that no caller in the
modelled code distinguishes are kept apart only for readability. -/
inductive Err where
  | encoding            -- PacketEncodingError
  | structError         -- struct.error
  | value               -- ValueError
  | tooBig              -- "Unpack size ... exceeds limit" (EncoderStreamAdapter.unpackIterator)
  | unicode             -- UnicodeDecodeError
  | nameError           -- NameError (PacketDefinitionRegistration.py:27)
  | attribute           -- AttributeError (Version.FromString)
  | duplicateField      -- Exception("Duplicate Field")
  | duplicateTag        -- Exception("Duplicate Explicit Tag")
  | unknownExt          -- UnknownExtensionFieldError
  | badPacket           -- Exception("Packet deserialization error...")
  | recursion           -- RecursionError (Python's recursion limit)
  | frame               -- Exception raised by PacketFramingStreamAdapter
  deriving DecidableEq, Repr

/-- The `w`-byte big-endian digits of `v` (what `struct.pack("!B"/"!H"/"!I"/"!Q", v)` writes for
`w = 1, 2, 4, 8` when `v` is in range). -/
def beEnc : Nat → Nat → Bytes
  | 0, _ => []
  | w + 1, v => beEnc w (v / 256) ++ [UInt8.ofNat (v % 256)]

/-- Big-endian value of a byte string (`struct.unpack("!B"/"!H"/"!I"/"!Q", b)`). -/
def beDec (b : Bytes) : Nat := b.foldl (fun acc x => acc * 256 + x.toNat) 0

/-- `struct.pack` of an unsigned code of `w` bytes: `struct.error` when out of range.
PlaygroundStandardPacketEncoder.py:39-40 (`stream.pack`), codes from lines 176-181. -/
def packU (w : Nat) (v : Int) : Except Err Bytes :=
  if 0 ≤ v ∧ v < 256 ^ w then .ok (beEnc w v.toNat) else .error .structError

/-- `struct.pack` of a signed code of `w` bytes (two's complement).
PlaygroundStandardPacketEncoder.py:39-40, codes from lines 199-204. -/
def packS (w : Nat) (v : Int) : Except Err Bytes :=
  if -((256 : Int) ^ w / 2) ≤ v ∧ v < (256 : Int) ^ w / 2 then
    .ok (beEnc w (if v < 0 then (v + 256 ^ w).toNat else v.toNat))
  else .error .structError

/-- `struct.unpack` of a signed code of `w` bytes. -/
def unpackS (w : Nat) (b : Bytes) : Int :=
  let u := beDec b
  if (u : Int) < (256 : Int) ^ w / 2 then u else (u : Int) - 256 ^ w

/-- The 64-bit complement `x ^ 0xFFFFFFFFFFFFFFFF` (PlaygroundStandardPacketEncoder.py:370, 382). -/
def compl64 (x : Nat) : Nat := x ^^^ 0xFFFFFFFFFFFFFFFF

/-- UTF-8 bytes of one character. -/
def utf8Char (c : Char) : Bytes :=
  let n := c.toNat
  if n < 0x80 then [UInt8.ofNat n]
  else if n < 0x800 then [UInt8.ofNat (0xC0 + n / 64), UInt8.ofNat (0x80 + n % 64)]
  else if n < 0x10000 then
    [UInt8.ofNat (0xE0 + n / 4096), UInt8.ofNat (0x80 + n / 64 % 64), UInt8.ofNat (0x80 + n % 64)]
  else
    [UInt8.ofNat (0xF0 + n / 262144), UInt8.ofNat (0x80 + n / 4096 % 64),
     UInt8.ofNat (0x80 + n / 64 % 64), UInt8.ofNat (0x80 + n % 64)]

/-- `str.encode("utf-8")` (PlaygroundStandardPacketEncoder.py:23, 223, 353-354) of a Python string
given as a list of characters. Simplification: a Lean `Char` is a Unicode scalar value, so a lone
surrogate (for which `encode` raises) is not representable. -/
def utf8 (s : List Char) : Bytes := s.flatMap utf8Char

/-- Is `x` a UTF-8 continuation byte? -/
def isCont (x : UInt8) : Bool := 0x80 ≤ x.toNat && x.toNat < 0xC0

/-- `bytes.decode("utf-8")` (PlaygroundStandardPacketEncoder.py:229, 401, 405): strict decoding
(no overlong forms, no surrogates, at most U+10FFFF); `none` = UnicodeDecodeError. -/
def utf8Dec : Bytes → Option (List Char)
  | [] => some []
  | a :: t =>
    if a.toNat < 0x80 then (utf8Dec t).map (Char.ofNat a.toNat :: ·)
    else match t with
    | [] => none
    | b :: t =>
      if 0xC2 ≤ a.toNat && a.toNat < 0xE0 then
        if isCont b then
          (utf8Dec t).map (Char.ofNat ((a.toNat - 0xC0) * 64 + (b.toNat - 0x80)) :: ·)
        else none
      else match t with
      | [] => none
      | c :: t =>
        if 0xE0 ≤ a.toNat && a.toNat < 0xF0 then
          let n := (a.toNat - 0xE0) * 4096 + (b.toNat - 0x80) * 64 + (c.toNat - 0x80)
          if isCont b && isCont c && 0x800 ≤ n && !(0xD800 ≤ n && n < 0xE000) then
            (utf8Dec t).map (Char.ofNat n :: ·)
          else none
        else match t with
        | [] => none
        | d :: t =>
          let n := (a.toNat - 0xF0) * 262144 + (b.toNat - 0x80) * 4096 + (c.toNat - 0x80) * 64
                    + (d.toNat - 0x80)
          if 0xF0 ≤ a.toNat && isCont b && isCont c && isCont d && 0x10000 ≤ n && n ≤ 0x10FFFF then
            (utf8Dec t).map (Char.ofNat n :: ·)
          else none

end Verif
