import Verif.Model.Cert
import Verif.Spec.Cipher
/-! # Specification vocabulary for C107 and C108 -/
namespace Verif.Cert

/-- The public half of an RSA key. -/
def Key.rsa : Key → Option Pub
  | .priv _ p => some p
  | .pub p => some p
  | .other => none

/-- A certificate is signed with an RSA key. -/
def SignedBy (c : Cert) (p : Pub) : Prop := p.verify .pkcs1 c.signature c.tbs = true

/-- In the chain every certificate is signed with the key of the one that follows. -/
def Chain (l : List Cert) : Prop := ∀ (i : Nat) (c n : Cert), l[i]? = some c → l[i + 1]? = some n → ∃ p, n.key.rsa = some p ∧ SignedBy c p

/-- A pair of keys: what the private one signs the public one verifies, and all signatures have `n` bytes. -/
structure GoodPair (sign : Padding → Bytes → Bytes) (p : Pub) (n : Nat) : Prop where
  verify : ∀ pad d, p.verify pad (sign pad d) d = true
  length : ∀ pad d, (sign pad d).length = n
  reject : ∀ pad s d, s.length ≠ n → p.verify pad s d = false

end Verif.Cert
