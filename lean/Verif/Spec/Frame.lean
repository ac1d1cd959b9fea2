import Verif.Model.Framing
/-! # The frame format, as documented in PacketFramingStream.py:16-38 (the checksum is Adler-32, not
the CRC-32 the comment announces). -/
namespace Verif

/-- `MAGIC, X, checksum(MAGIC + X)`. -/
def framePrefix (n : Nat) : Bytes := MAGIC ++ beEnc 4 n ++ beEnc 4 (adler32 (MAGIC ++ beEnc 4 n))

/-- `checksum(X + REV_MAGIC), X, REV_MAGIC`. -/
def frameSuffix (n : Nat) : Bytes := beEnc 4 (adler32 (beEnc 4 n ++ REV_MAGIC)) ++ beEnc 4 n ++ REV_MAGIC

/-- The frame of a payload. -/
def frame (payload : Bytes) : Bytes :=
  framePrefix payload.length ++ payload ++ frameSuffix payload.length

/-- Twelve bytes are there and they are no frame prefix. -/
def BadStart (x : Bytes) : Prop := 12 ≤ x.length ∧ ∀ n < 2 ^ 32, x.take 12 ≠ framePrefix n

/-- A frame prefix announcing `n` bytes, all bytes of the frame are there, and the last twelve are not
the suffix belonging to it. -/
def BadEnd (x : Bytes) : Prop := ∃ n < 2 ^ 32, x.take 12 = framePrefix n ∧ 24 + n ≤ x.length ∧
  (x.drop (12 + n)).take 12 ≠ frameSuffix n

end Verif
