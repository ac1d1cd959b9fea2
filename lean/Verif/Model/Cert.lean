import Verif.Model.Cipher
import Verif.Model.Dict
/-! # common/CipherUtil.py: `RSA_SIGNATURE_MAC`, `EncryptThenRsaSign`, `DefaultSign` and certificates

The keys and certificates of the `cryptography` library are given by what is used of them. A public key is a function that tells for a padding, a signature and data whether
`verify` returns (`false`: it raises InvalidSignature). Not modelled: reading and writing PEM, which is done by the library, and PBKDF2. Hash algorithms are part of the
functions. -/
namespace Verif.Cert
open Cipher (Cbc Block)

inductive Padding where
  | pkcs1   -- PKCS1v15()
  | pss     -- PSS(...)
  deriving DecidableEq

inductive Err where
  | cipher (e : Cipher.Err)
  | type        -- TypeError: None is called
  | attribute   -- AttributeError
  deriving DecidableEq

/-- The public half of an RSA key. -/
structure Pub where
  verify : Padding → Bytes → Bytes → Bool   -- signature, data

/-- A key: an RSA private key, an RSA public key, a key of another kind. -/
inductive Key where
  | priv (sign : Padding → Bytes → Bytes) (p : Pub)
  | pub (p : Pub)
  | other

/-- `RSA_SIGNATURE_MAC`: its attributes, if they are set; the signer may be `None`. -/
structure RsaMac where
  signer : Option (Option (Padding → Bytes → Bytes))
  verifier : Option (Padding → Bytes → Bytes → Bool)

/-- `MAC_SIZE` (CipherUtil.py:82). -/
def macSize : Nat := 256

/-- `__init__` (CipherUtil.py:84-90). -/
def RsaMac.new : Key → RsaMac
  | .priv sign p => ⟨some (some sign), some p.verify⟩
  | .pub p => ⟨some none, some p.verify⟩
  | .other => ⟨none, none⟩

/-- `mac` and `sign` (CipherUtil.py:92-105). -/
def RsaMac.mac (m : RsaMac) (data : Bytes) : Except Err Bytes := match m.signer with
  | none => .error .attribute
  | some none => .error .type
  | some (some f) => .ok (f .pkcs1 data)

/-- `verifyMac` and `verify` (CipherUtil.py:107-124). -/
def RsaMac.verify (m : RsaMac) (data check : Bytes) : Except Err Bool := match m.verifier with
  | none => .error .attribute
  | some v => .ok (v .pkcs1 check data)

/-- `EncryptThenMac.encrypt` (CipherUtil.py:136-138) of `EncryptThenRsaSign` (CipherUtil.py:127-134, 148). -/
def encrypt (B : Block) (m : RsaMac) (s : Cbc) (data : Bytes) : Cbc × Except Err Bytes := match s.encrypt B data with
  | (s', .error e) => (s', .error (.cipher e))
  | (s', .ok c) => match m.mac c with
    | .error e => (s', .error e)
    | .ok t => (s', .ok (c ++ t))

/-- `EncryptThenMac.decrypt` (CipherUtil.py:140-144) of `EncryptThenRsaSign`; `none`: `None` is returned. -/
def decrypt (B : Block) (m : RsaMac) (s : Cbc) (data : Bytes) : Cbc × Except Err (Option Bytes) :=
  match m.verify (data.take (data.length - macSize)) (data.drop (data.length - macSize)) with
  | .error e => (s, .error e)
  | .ok false => (s, .ok none)
  | .ok true => match s.decrypt B (data.take (data.length - macSize)) with
    | (s', .error e) => (s', .error (.cipher e))
    | (s', .ok x) => (s', .ok (some x))

/-- `DefaultSign` (CipherUtil.py:152-160) with the functions of a private key. -/
def defaultSign (sign : Padding → Bytes → Bytes) (msg : Bytes) : Bytes := sign .pss msg

/-- A certificate: the signed part, the signature, the public key, and the names in their order. -/
structure Cert where
  tbs : Bytes
  signature : Bytes
  key : Key
  issuer : List (Bytes × Bytes)
  subject : List (Bytes × Bytes)

/-- The loop of `getCertIssuer` and `getCertSubject` (CipherUtil.py:207-210, 215-218). -/
def nameLoop (d : Dict Bytes Bytes) : List (Bytes × Bytes) → Dict Bytes Bytes
  | [] => d
  | a :: l => nameLoop (d.set a.1 a.2) l

/-- `getCertIssuer` (CipherUtil.py:205-210). -/
def getIssuer (c : Cert) : Dict Bytes Bytes := nameLoop [] c.issuer

/-- `getCertSubject` (CipherUtil.py:213-218). -/
def getSubject (c : Cert) : Dict Bytes Bytes := nameLoop [] c.subject

/-- `ValidateCertChainSigs` (CipherUtil.py:226-232). -/
def validate : List Cert → Except Err Bool
  | this :: next :: rest => match (RsaMac.new next.key).verify this.tbs this.signature with
    | .error e => .error e
    | .ok false => .ok false
    | .ok true => validate (next :: rest)
  | _ => .ok true

end Verif.Cert
