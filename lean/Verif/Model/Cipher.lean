import Verif.Model.Bytes
/-! # common/CipherUtil.py: `CIPHER_AES128_CBC`, `MAC_HMAC_SHA1`, `EncryptThenMac`

The block cipher (AES with a key) is a pair of functions on blocks of 16 bytes, the MAC a pair of functions; the theorems assume
only that decryption inverts encryption and that the MAC verifies its own tags. CBC, PKCS7 and the life cycle of the cipher contexts of the
`cryptography` library are modelled as that library documents them: a context raises `AlreadyFinalized` after `finalize`; `update`
gives the complete blocks and keeps the rest; `finalize` raises `ValueError` when there is a rest. -/
namespace Verif.Cipher

inductive Err where
  | alreadyFinalized
  | valueError
  deriving DecidableEq, Repr

/-- A block cipher with a key. -/
structure Block where
  enc : Bytes → Bytes
  dec : Bytes → Bytes

/-- A MAC with a key (CipherUtil.py:66-78 and 81-124). -/
structure Mac where
  size : Nat                       -- MAC_SIZE, not 0
  mac : Bytes → Bytes
  verify : Bytes → Bytes → Bool    -- verifyMac

def xor (a b : Bytes) : Bytes := List.zipWith (· ^^^ ·) a b

/-- CBC encryption of `n` blocks: the output and the last block of it. -/
def cbcEnc (B : Block) : Nat → Bytes → Bytes → Bytes × Bytes
  | 0, prev, _ => ([], prev)
  | n + 1, prev, data =>
    let c := B.enc (xor prev (data.take 16))
    let r := cbcEnc B n c (data.drop 16)
    (c ++ r.1, r.2)

/-- CBC decryption of `n` blocks: the output and the last block of the input. -/
def cbcDec (B : Block) : Nat → Bytes → Bytes → Bytes × Bytes
  | 0, prev, _ => ([], prev)
  | n + 1, prev, data =>
    let r := cbcDec B n (data.take 16) (data.drop 16)
    (xor prev (B.dec (data.take 16)) ++ r.1, r.2)

/-- A cipher context of the library. -/
structure Ctx where
  prev : Bytes          -- initialisation vector or last block
  buf : Bytes           -- incomplete block
  finalized : Bool
  deriving DecidableEq

/-- `Cipher(AES(key), CBC(iv), backend).encryptor()` or `.decryptor()`. -/
def Ctx.new (iv : Bytes) : Ctx := ⟨iv, [], false⟩

/-- `update` of a context. -/
def Ctx.update (mode : Nat → Bytes → Bytes → Bytes × Bytes) (c : Ctx) (data : Bytes) : Ctx × Except Err Bytes :=
  if c.finalized then (c, .error .alreadyFinalized)
  else
    let all := c.buf ++ data
    let n := all.length / 16
    let r := mode n c.prev all
    (⟨r.2, all.drop (16 * n), false⟩, .ok r.1)

/-- `finalize` of a context. -/
def Ctx.finalize (c : Ctx) : Ctx × Except Err Bytes :=
  if c.finalized then (c, .error .alreadyFinalized)
  else if c.buf ≠ [] then (c, .error .valueError)
  else ({ c with finalized := true }, .ok [])

/-- PKCS7 padding with blocks of 16 bytes: `update` and `finalize` of the padder. -/
def pad (data : Bytes) : Bytes := data ++ List.replicate (16 - data.length % 16) (UInt8.ofNat (16 - data.length % 16))

/-- `update` and `finalize` of the unpadder. -/
def unpad (data : Bytes) : Except Err Bytes :=
  if data.length % 16 ≠ 0 then .error .valueError
  else match data.getLast? with
    | none => .error .valueError
    | some x =>
      if x.toNat = 0 ∨ x.toNat > 16 ∨ data.drop (data.length - x.toNat) ≠ List.replicate x.toNat x then .error .valueError
      else .ok (data.take (data.length - x.toNat))

/-- `CIPHER_AES128_CBC` (CipherUtil.py:49-54). -/
structure Cbc where
  encrypter : Ctx
  decrypter : Ctx
  deriving DecidableEq

def Cbc.new (iv : Bytes) : Cbc := ⟨.new iv, .new iv⟩

/-- The second operand of `+`: `ctx.finalize()`, after `first` was computed. -/
def andFinalize (first : Bytes) (c : Ctx) : Ctx × Except Err Bytes := match c.finalize with
  | (c', .ok r) => (c', .ok (first ++ r))
  | (c', .error e) => (c', .error e)

/-- `encrypt` (CipherUtil.py:56-59). -/
def Cbc.encrypt (B : Block) (s : Cbc) (data : Bytes) : Cbc × Except Err Bytes :=
  match s.encrypter.update (cbcEnc B) (pad data) with
  | (c, .error e) => ({ s with encrypter := c }, .error e)
  | (c, .ok r) => match andFinalize r c with
    | (c', x) => ({ s with encrypter := c' }, x)

/-- `decrypt` (CipherUtil.py:61-64); it is the encrypter that is finalized. -/
def Cbc.decrypt (B : Block) (s : Cbc) (data : Bytes) : Cbc × Except Err Bytes :=
  match s.decrypter.update (cbcDec B) data with
  | (c, .error e) => ({ s with decrypter := c }, .error e)
  | (c, .ok r) => match andFinalize r s.encrypter with
    | (c', .error e) => (⟨c', c⟩, .error e)
    | (c', .ok padded) => (⟨c', c⟩, unpad padded)

/-- `EncryptThenMac.encrypt` (CipherUtil.py:136-138). -/
def encrypt (B : Block) (M : Mac) (s : Cbc) (data : Bytes) : Cbc × Except Err Bytes :=
  match s.encrypt B data with
  | (s', .error e) => (s', .error e)
  | (s', .ok c) => (s', .ok (c ++ M.mac c))

/-- `EncryptThenMac.decrypt` (CipherUtil.py:140-144); `none`: `None` is returned. -/
def decrypt (B : Block) (M : Mac) (s : Cbc) (data : Bytes) : Cbc × Except Err (Option Bytes) :=
  let cipherText := data.take (data.length - M.size)
  let storedMac := data.drop (data.length - M.size)
  if M.verify cipherText storedMac then
    match s.decrypt B cipherText with
    | (s', .error e) => (s', .error e)
    | (s', .ok m) => (s', .ok (some m))
  else (s, .ok none)

/-- `MAC_HMAC_SHA1` (CipherUtil.py:66-78) for a tag function. -/
def hmac (tag : Bytes → Bytes) : Mac := ⟨20, tag, fun data check => tag data == check⟩

end Verif.Cipher
