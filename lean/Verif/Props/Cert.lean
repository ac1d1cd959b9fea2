import Verif.Spec.Cert
import Verif.Props.Cipher
import Verif.Lemmas.Dict
import Verif.Model.PyStr
/-! # C107: chains of certificates; C108: RSA signatures as a MAC -/
namespace Verif.Cert
open Cipher (Cbc Block)

theorem new_verify (k : Key) (d s : Bytes) : (RsaMac.new k).verify d s = match k.rsa with
    | some p => .ok (p.verify .pkcs1 s d)
    | none => .error .attribute := by
  cases k <;> rfl

theorem chain_cons (c n : Cert) (l : List Cert) : Chain (c :: n :: l) ↔ (∃ p, n.key.rsa = some p ∧ SignedBy c p) ∧ Chain (n :: l) := by
  constructor
  · intro h
    exact ⟨h 0 c n rfl rfl, fun i a b ha hb => h (i + 1) a b ha hb⟩
  · rintro ⟨h1, h2⟩ i a b ha hb
    cases i with
    | zero =>
      simp only [List.getElem?_cons_zero, Option.some.injEq] at ha
      simp only [List.getElem?_cons_succ, List.getElem?_cons_zero, Option.some.injEq] at hb
      subst ha; subst hb
      exact h1
    | succ i => exact h2 i a b ha hb

/-- C107. The chain is accepted exactly when every certificate in it is signed with the RSA key of the next. -/
theorem C107_accepts : ∀ l : List Cert, validate l = .ok true ↔ Chain l
  | [] => ⟨fun _ i c n h _ => (by cases h), fun _ => rfl⟩
  | [c] => ⟨fun _ i c n _ h => (by simp at h), fun _ => rfl⟩
  | c :: n :: l => by
    rw [chain_cons, ← C107_accepts (n :: l)]
    rw [show validate (c :: n :: l) = (match (RsaMac.new n.key).verify c.tbs c.signature with
      | .error e => .error e
      | .ok false => .ok false
      | .ok true => validate (n :: l)) from rfl, new_verify]
    cases hk : n.key.rsa with
    | none => simp
    | some p =>
      dsimp only
      cases hv : p.verify .pkcs1 c.signature c.tbs with
      | false => simp [SignedBy, hv]
      | true => simp [SignedBy, hv]

/-- C107. Otherwise the first certificate that is not signed so decides: with an RSA key after it the chain is rejected, with another key there is an exception. -/
theorem C107_rejects (good : List Cert) (c n : Cert) (rest : List Cert) (hg : Chain (good ++ [c])) :
    (∀ p, n.key.rsa = some p → ¬ SignedBy c p → validate (good ++ c :: n :: rest) = .ok false) ∧
    (n.key.rsa = none → validate (good ++ c :: n :: rest) = .error .attribute) := by
  induction good with
  | nil =>
    refine ⟨fun p hp hs => ?_, fun hk => ?_⟩
    · show validate (c :: n :: rest) = _
      unfold validate
      rw [new_verify, hp]
      have : p.verify .pkcs1 c.signature c.tbs = false := by simpa [SignedBy] using hs
      dsimp only
      rw [this]
    · show validate (c :: n :: rest) = _
      unfold validate
      rw [new_verify, hk]
  | cons a l ih =>
    have hn : ∃ b t, l ++ [c] = b :: t := by cases l <;> exact ⟨_, _, rfl⟩
    obtain ⟨b, t, hbt⟩ := hn
    have hg' : Chain (a :: b :: t) := by rw [← hbt]; exact hg
    obtain ⟨⟨p, hp, hs⟩, h2⟩ := (chain_cons a b t).1 hg'
    rw [← hbt] at h2
    have hc : l ++ c :: n :: rest = b :: (t ++ n :: rest) := by
      have : l ++ c :: n :: rest = (l ++ [c]) ++ (n :: rest) := by simp
      rw [this, hbt]; rfl
    have step : validate (a :: l ++ c :: n :: rest) = validate (l ++ c :: n :: rest) := by
      rw [List.cons_append, hc]
      conv => lhs; unfold validate
      rw [new_verify, hp]
      have : p.verify .pkcs1 a.signature a.tbs = true := hs
      dsimp only
      rw [this]
    rw [step]
    exact ih h2

/-- C107. A chain is accepted exactly when its parts are, where the last certificate of the first is the first of the second. -/
theorem C107_parts (a : List Cert) (x : Cert) (b : List Cert) : validate (a ++ x :: b) = .ok true ↔ validate (a ++ [x]) = .ok true ∧ validate (x :: b) = .ok true := by
  rw [C107_accepts, C107_accepts, C107_accepts]
  induction a with
  | nil => exact ⟨fun h => ⟨(C107_accepts [x]).1 rfl, h⟩, fun h => h.2⟩
  | cons y l ih =>
    cases l with
    | nil =>
      show Chain (y :: x :: b) ↔ Chain (y :: x :: []) ∧ Chain (x :: b)
      rw [chain_cons, chain_cons]
      exact ⟨fun ⟨h1, h2⟩ => ⟨⟨h1, (C107_accepts [x]).1 rfl⟩, h2⟩, fun ⟨⟨h1, _⟩, h2⟩ => ⟨h1, h2⟩⟩
    | cons z l =>
      show Chain (y :: z :: (l ++ x :: b)) ↔ Chain (y :: z :: (l ++ [x])) ∧ _
      rw [chain_cons, chain_cons]
      have ih' : Chain (z :: (l ++ x :: b)) ↔ Chain (z :: (l ++ [x])) ∧ Chain (x :: b) := ih
      rw [ih']
      exact ⟨fun ⟨h1, h2, h3⟩ => ⟨⟨h1, h2⟩, h3⟩, fun ⟨⟨h1, h2⟩, h3⟩ => ⟨h1, h2, h3⟩⟩

/-- That an accepted chain is one of trust is false, as the code says: no chain at all and every single certificate is accepted, whoever has signed it; the names
do not matter; and of the last certificate nothing matters but the key. -/
theorem C107_false_trust : validate [] = .ok true ∧ (∀ c, validate [c] = .ok true) ∧
    (∀ (l : List Cert) (f : Cert → Cert), (∀ c, (f c).tbs = c.tbs ∧ (f c).signature = c.signature ∧ (f c).key = c.key) → validate (l.map f) = validate l) ∧
    (∀ (l : List Cert) (c d : Cert), c.key = d.key → validate (l ++ [c]) = validate (l ++ [d])) := by
  refine ⟨rfl, fun _ => rfl, fun l f hf => ?_, fun l c d hk => ?_⟩
  · induction l with
    | nil => rfl
    | cons a l ih =>
      cases l with
      | nil => rfl
      | cons b l =>
        simp only [List.map_cons] at ih ⊢
        unfold validate
        rw [(hf a).1, (hf a).2.1, (hf b).2.2, ih]
  · induction l with
    | nil => rfl
    | cons a l ih =>
      cases l with
      | nil =>
        show validate [a, c] = validate [a, d]
        simp only [validate, hk]
      | cons b l =>
        simp only [List.cons_append] at ih ⊢
        unfold validate
        rw [ih]

/-! ## Names -/

theorem nameLoop_get (l : List (Bytes × Bytes)) : ∀ (d : Dict Bytes Bytes) (k : Bytes), (nameLoop d l).get k = ((l.reverse.find? (·.1 = k)).map (·.2)).or (d.get k) := by
  induction l with
  | nil => intro d k; rfl
  | cons a l ih =>
    intro d k
    rw [nameLoop, ih, List.reverse_cons, List.find?_append]
    cases hf : l.reverse.find? (·.1 = k) with
    | some x => rfl
    | none =>
      rw [Dict.get_set]
      by_cases h : a.1 = k
      · simp [h]
      · have h' : ¬ k = a.1 := fun e => h e.symm
        simp [h]

/-- C107. The dictionary of the names has for each kind of name the last one of this kind in the certificate. -/
theorem C107_names (c : Cert) (k : Bytes) : (getSubject c).get k = (c.subject.reverse.find? (·.1 = k)).map (·.2) ∧
    (getIssuer c).get k = (c.issuer.reverse.find? (·.1 = k)).map (·.2) := by
  constructor
  · rw [getSubject, nameLoop_get]; simp [Dict.get]
  · rw [getIssuer, nameLoop_get]; simp [Dict.get]

/-- So different names may give the same dictionary: of two units only the last one counts. -/
theorem C107_false_names (c : Cert) (k a b : Bytes) : getSubject { c with subject := [(k, a), (k, b)] } = getSubject { c with subject := [(k, b)] } := by
  simp [getSubject, nameLoop, Dict.set]

/-! ## RSA signatures -/

/-- C108. What an object made from the private key signs, one made from the private or from the public key verifies. -/
theorem C108_verifies {sign p n} (h : GoodPair sign p n) (d : Bytes) : ∃ t, (RsaMac.new (.priv sign p)).mac d = .ok t ∧
    (RsaMac.new (.priv sign p)).verify d t = .ok true ∧ (RsaMac.new (.pub p)).verify d t = .ok true :=
  ⟨_, rfl, by rw [new_verify]; exact congrArg _ (h.verify _ _), by rw [new_verify]; exact congrArg _ (h.verify _ _)⟩

/-- C108. An object made from a public key cannot sign, and one made from a key of another kind can do nothing. -/
theorem C108_public (p : Pub) (d t : Bytes) : (RsaMac.new (.pub p)).mac d = .error .type ∧ (RsaMac.new .other).mac d = .error .attribute ∧
    (RsaMac.new .other).verify d t = .error .attribute := ⟨rfl, rfl, rfl⟩

/-- The signature is that of C45. -/
def asMac (sign : Padding → Bytes → Bytes) (p : Pub) : Cipher.Mac := ⟨macSize, sign .pkcs1, fun d t => p.verify .pkcs1 t d⟩

theorem encrypt_asMac (B : Block) (sign : Padding → Bytes → Bytes) (p : Pub) (s : Cbc) (m x : Bytes) (h : (Cipher.encrypt B (asMac sign p) s m).2 = .ok x) :
    (encrypt B (RsaMac.new (.priv sign p)) s m).2 = .ok x := by
  unfold Cipher.encrypt at h
  unfold encrypt
  cases hx : s.encrypt B m with
  | mk s' r =>
    rw [hx] at h
    cases r with
    | error e => cases h
    | ok c =>
      have : c ++ sign .pkcs1 c = x := by simpa [asMac] using h
      exact congrArg _ this

theorem decrypt_asMac (B : Block) (sign : Padding → Bytes → Bytes) (k : Key) (p : Pub) (hk : k.rsa = some p) (s : Cbc) (x : Bytes) (m : Option Bytes)
    (h : (Cipher.decrypt B (asMac sign p) s x).2 = .ok m) : (decrypt B (RsaMac.new k) s x).2 = .ok m := by
  unfold Cipher.decrypt at h
  unfold decrypt
  rw [new_verify, hk]
  dsimp only at h ⊢
  have hs : (asMac sign p).size = macSize := rfl
  rw [hs] at h
  cases hv : p.verify .pkcs1 (x.drop (x.length - macSize)) (x.take (x.length - macSize)) with
  | true =>
    rw [if_pos (show (asMac sign p).verify _ _ = true from hv)] at h
    dsimp only
    cases hx : s.decrypt B (x.take (x.length - macSize)) with
    | mk s' r =>
      rw [hx] at h
      cases r with
      | error e => cases h
      | ok c =>
        have : some c = m := by simpa using h
        exact congrArg _ this
  | false =>
    rw [if_neg (show ¬ (asMac sign p).verify _ _ = true from by show ¬ p.verify _ _ _ = true; rw [hv]; decide)] at h
    have : none = m := by simpa using h
    exact congrArg _ this

/-- C108. With a key of 2048 bits, what is encrypted and signed is decrypted by a new object with the public key. -/
theorem C108_roundtrip_partial {B : Block} (hB : Cipher.GoodBlock B) {sign p} (h : GoodPair sign p 256) {iv : Bytes} (hiv : iv.length = 16) (m : Bytes) :
    ∃ x, (encrypt B (RsaMac.new (.priv sign p)) (.new iv) m).2 = .ok x ∧ (decrypt B (RsaMac.new (.pub p)) (.new iv) x).2 = .ok (some m) := by
  obtain ⟨x, h1, h2⟩ := Cipher.C45_roundtrip_partial hB (M := asMac sign p) ⟨fun c => h.length _ _, fun c => h.verify _ _⟩ hiv m
  exact ⟨x, encrypt_asMac B sign p _ m x h1, decrypt_asMac B sign (.pub p) p rfl _ x _ h2⟩

/-- C108 is false for all keys of another size: whatever is encrypted and signed is taken for a forgery. -/
theorem C108_false_size {B : Block} (hB : Cipher.GoodBlock B) {sign p n} (h : GoodPair sign p n) (hn : n ≠ 256) {iv : Bytes} (hiv : iv.length = 16) (m : Bytes) :
    ∃ x, (encrypt B (RsaMac.new (.priv sign p)) (.new iv) m).2 = .ok x ∧ ∀ s, decrypt B (RsaMac.new (.pub p)) s x = (s, .ok none) := by
  have h1 := Cipher.encrypt_new (B := B) (M := asMac sign p) (iv := iv) m
  have hlen := Cipher.cbc_length hB (m.length / 16 + 1) iv (Cipher.pad m) hiv (Cipher.pad_length m)
  generalize (Cipher.cbcEnc B (m.length / 16 + 1) iv (Cipher.pad m)).1 = c at h1 hlen
  refine ⟨_, encrypt_asMac B sign p _ m _ h1, fun s => ?_⟩
  unfold decrypt
  rw [new_verify]
  dsimp only [Key.rsa]
  have hl : ((c ++ (asMac sign p).mac c).drop ((c ++ (asMac sign p).mac c).length - macSize)).length ≠ n := by
    have h2 : ((asMac sign p).mac c).length = n := h.length _ _
    rw [List.length_drop, List.length_append, h2]
    unfold macSize
    omega
  rw [h.reject _ _ _ hl]

/-- C108. What does not end with a signature of the rest gives None, and the cipher is not touched. -/
theorem C108_rejects (B : Block) (p : Pub) (s : Cbc) (c t : Bytes) (ht : t.length = 256) (hv : p.verify .pkcs1 t c = false) :
    decrypt B (RsaMac.new (.pub p)) s (c ++ t) = (s, .ok none) := by
  unfold decrypt
  rw [new_verify]
  dsimp only [Key.rsa]
  have h1 : (c ++ t).length - macSize = c.length := by rw [List.length_append, ht]; unfold macSize; omega
  rw [h1, List.take_left, List.drop_left, hv]

/-- That a signature made with DefaultSign is verified by `RSA_SIGNATURE_MAC` is false, when the padding matters to the key. -/
theorem C108_false_default (sign : Padding → Bytes → Bytes) (p : Pub) (hp : ∀ d, p.verify .pkcs1 (sign .pss d) d = false) (d : Bytes) :
    (RsaMac.new (.priv sign p)).verify d (defaultSign sign d) = .ok false := by
  rw [new_verify]
  exact congrArg _ (hp d)

/-! ## Cases -/

/-- A key whose signatures have `n` bytes: the length of the data, the padding and the name of the key. -/
def exSign (n : Nat) (name : UInt8) : Padding → Bytes → Bytes := fun pad d => (if n = 0 then [] else if pad = .pkcs1 then [name] else [name + 100]) ++ List.replicate (n - 1) (UInt8.ofNat d.length)
def exPub (n : Nat) (name : UInt8) : Pub := ⟨fun pad s d => s == exSign n name pad d⟩

theorem exGood (n : Nat) (name : UInt8) : GoodPair (exSign n name) (exPub n name) n where
  verify := fun pad d => by simp [exPub]
  length := fun pad d => by
    unfold exSign
    split
    · next h => simp [h]
    · split <;> (simp; omega)
  reject := fun pad s d hs => by
    have hl : (exSign n name pad d).length = n := by
      unfold exSign
      split
      · next h => simp [h]
      · split <;> (simp; omega)
    show (s == exSign n name pad d) = false
    apply beq_false_of_ne
    intro e
    rw [e] at hs
    exact hs hl

def exCert (name : UInt8) (signer : UInt8) : Cert := ⟨[name, name], exSign 4 signer .pkcs1 [name, name], .pub (exPub 4 name), [], [([1], [name])]⟩

example : validate [exCert 1 2, exCert 2 3, exCert 3 3] = .ok true := by decide +kernel
example : validate [exCert 1 2, exCert 2 4, exCert 3 3] = .ok false := by decide +kernel
example : validate [exCert 1 2, { exCert 2 3 with key := .other }, exCert 3 3] = .error .attribute := by decide +kernel
example : Chain [exCert 1 2, exCert 2 3] := (C107_accepts _).1 (by decide +kernel)
example : ∀ d, (exPub 4 1).verify .pkcs1 (exSign 4 1 .pss d) d = false := by
  intro d
  show (exSign 4 1 .pss d == exSign 4 1 .pkcs1 d) = false
  apply beq_false_of_ne
  simp [exSign]
example : (getSubject { exCert 1 2 with subject := [([1], [5]), ([2], [6]), ([1], [7])] }).get [1] = some [7] := by decide +kernel
/-- A cipher that does nothing. -/
example : Cipher.GoodBlock ⟨fun b => b, fun b => b⟩ := ⟨fun _ h => h, fun _ _ => rfl⟩
example : (decrypt ⟨fun b => b, fun b => b⟩ (RsaMac.new (.pub (exPub 512 1))) (.new (List.replicate 16 0))
    ((match (encrypt ⟨fun b => b, fun b => b⟩ (RsaMac.new (.priv (exSign 512 1) (exPub 512 1))) (.new (List.replicate 16 0)) [1, 2, 3]).2 with | .ok x => x | .error _ => []))).2 = .ok none := by
  decide +kernel

end Verif.Cert
