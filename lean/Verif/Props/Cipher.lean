import Verif.Spec.Cipher
/-! # C45: encrypt-then-MAC -/
namespace Verif.Cipher

theorem xor_length {a b : Bytes} (h : a.length = b.length) : (xor a b).length = a.length := by simp [xor, h]

theorem xor_xor : ∀ {a b : Bytes}, a.length = b.length → xor a (xor a b) = b
  | [], [], _ => rfl
  | x :: a, y :: b, h => by
    have := xor_xor (a := a) (b := b) (by simpa using h)
    simp only [xor, List.zipWith_cons_cons] at this ⊢
    rw [this]
    simp [← UInt8.xor_assoc]

theorem cbc_length {B : Block} (hB : GoodBlock B) : ∀ (n : Nat) (prev data : Bytes), prev.length = 16 → data.length = 16 * n → (cbcEnc B n prev data).1.length = 16 * n
  | 0, _, _, _, _ => rfl
  | n + 1, prev, data, hp, hd => by
    have h1 : (data.take 16).length = 16 := by simp; omega
    have h2 := hB.length (xor prev (data.take 16)) (by rw [xor_length (by omega)]; exact hp)
    have h3 := cbc_length hB n (B.enc (xor prev (data.take 16))) (data.drop 16) h2 (by simp; omega)
    show (_ ++ _ : Bytes).length = _
    rw [List.length_append, h2, h3]; omega

/-- CBC decryption inverts CBC encryption. -/
theorem cbc_inverse {B : Block} (hB : GoodBlock B) : ∀ (n : Nat) (prev data : Bytes), prev.length = 16 → data.length = 16 * n →
    (cbcDec B n prev (cbcEnc B n prev data).1).1 = data
  | 0, _, data, _, hd => by
    have : data = [] := List.eq_nil_of_length_eq_zero (by omega)
    subst this; rfl
  | n + 1, prev, data, hp, hd => by
    have h1 : (data.take 16).length = 16 := by simp; omega
    have hx : (xor prev (data.take 16)).length = 16 := by rw [xor_length (by omega)]; exact hp
    have h2 := hB.length _ hx
    have h3 := cbc_inverse hB n (B.enc (xor prev (data.take 16))) (data.drop 16) h2 (by simp; omega)
    have e1 : (cbcEnc B (n + 1) prev data).1 = B.enc (xor prev (data.take 16)) ++ (cbcEnc B n (B.enc (xor prev (data.take 16))) (data.drop 16)).1 := rfl
    rw [e1]
    generalize (cbcEnc B n (B.enc (xor prev (data.take 16))) (data.drop 16)).1 = t at h3
    unfold cbcDec
    dsimp only
    rw [List.take_left' h2, List.drop_left' h2, hB.inverse _ hx, h3, xor_xor (by omega), List.take_append_drop]

theorem pad_length (m : Bytes) : (pad m).length = 16 * (m.length / 16 + 1) := by
  simp [pad]; omega

theorem unpad_pad (m : Bytes) : unpad (pad m) = .ok m := by
  have hk : 1 ≤ 16 - m.length % 16 ∧ 16 - m.length % 16 ≤ 16 := by omega
  generalize hkk : 16 - m.length % 16 = k at hk
  have hx : (UInt8.ofNat k).toNat = k := by simp [UInt8.toNat_ofNat]; omega
  have hp : pad m = m ++ List.replicate k (UInt8.ofNat k) := by unfold pad; rw [hkk]
  have hlast : (pad m).getLast? = some (UInt8.ofNat k) := by
    rw [hp]
    obtain ⟨j, rfl⟩ : ∃ j, k = j + 1 := ⟨k - 1, by omega⟩
    rw [List.replicate_succ', ← List.append_assoc]
    simp
  have hl : (pad m).length - k = m.length := by rw [hp]; simp
  unfold unpad
  rw [if_neg (by rw [pad_length]; omega), hlast]
  dsimp only
  rw [hx, hl, if_neg]
  · rw [hp, List.take_left]
  · rw [hp, List.drop_left]
    simp; omega

theorem update_new (mode : Nat → Bytes → Bytes → Bytes × Bytes) (iv data : Bytes) (n : Nat) (h : data.length = 16 * n) :
    (Ctx.new iv).update mode data = (⟨(mode n iv data).2, [], false⟩, .ok (mode n iv data).1) := by
  unfold Ctx.update Ctx.new
  have : data.length / 16 = n := by omega
  simp [this, ← h]

/-- Encryption with a new object. -/
theorem encrypt_new {B : Block} {M : Mac} {iv : Bytes} (m : Bytes) :
    (encrypt B M (.new iv) m).2 = .ok ((cbcEnc B (m.length / 16 + 1) iv (pad m)).1 ++ M.mac (cbcEnc B (m.length / 16 + 1) iv (pad m)).1) := by
  unfold encrypt Cbc.encrypt Cbc.new
  dsimp only
  rw [update_new _ _ _ _ (pad_length m)]
  simp [andFinalize, Ctx.finalize]

/-- C45: what one object encrypts another new object with the same keys decrypts. -/
theorem C45_roundtrip_partial {B : Block} {M : Mac} (hB : GoodBlock B) (hM : GoodMac M) {iv : Bytes} (hiv : iv.length = 16) (m : Bytes) :
    ∃ x, (encrypt B M (.new iv) m).2 = .ok x ∧ (decrypt B M (.new iv) x).2 = .ok (some m) := by
  refine ⟨_, encrypt_new m, ?_⟩
  have hlen := cbc_length hB (m.length / 16 + 1) iv (pad m) hiv (pad_length m)
  have hinv := cbc_inverse hB (m.length / 16 + 1) iv (pad m) hiv (pad_length m)
  generalize (cbcEnc B (m.length / 16 + 1) iv (pad m)).1 = c at hlen hinv
  unfold decrypt
  have h1 : (c ++ M.mac c).length - M.size = c.length := by rw [List.length_append, hM.length]; omega
  dsimp only
  rw [h1, List.take_left, List.drop_left, if_pos (hM.verify c)]
  have hdec : (Cbc.decrypt B (.new iv) c).2 = .ok m := by
    unfold Cbc.decrypt Cbc.new
    dsimp only
    rw [update_new _ _ _ _ hlen]
    simp only [andFinalize, Ctx.finalize, Ctx.new]
    simp [hinv, unpad_pad]
  cases hx : Cbc.decrypt B (.new iv) c with
  | mk s' r =>
    rw [hx] at hdec
    dsimp only at hdec
    rw [hdec]

/-- The encrypted message is the message filled up to whole blocks, and the tag. -/
theorem C45_length {B : Block} {M : Mac} (hB : GoodBlock B) (hM : GoodMac M) {iv : Bytes} (hiv : iv.length = 16) (m x : Bytes)
    (h : (encrypt B M (.new iv) m).2 = .ok x) : x.length = 16 * (m.length / 16 + 1) + M.size := by
  rw [encrypt_new] at h
  cases h
  rw [List.length_append, hM.length, cbc_length hB _ iv (pad m) hiv (pad_length m)]

/-- C45: whatever the state of the object, data whose tag does not verify is answered with `None`, and the cipher is not touched. -/
theorem C45_rejects (B : Block) (M : Mac) (s : Cbc) (c t : Bytes) (ht : t.length = M.size) (hv : M.verify c t = false) :
    decrypt B M s (c ++ t) = (s, .ok none) := by
  unfold decrypt
  have h1 : (c ++ t).length - M.size = c.length := by rw [List.length_append, ht]; omega
  dsimp only
  rw [h1, List.take_left, List.drop_left, if_neg (by simp [hv])]

/-- Data too short to hold a tag is answered with `None`, unless the tag of the empty string verifies. -/
theorem C45_short (B : Block) (M : Mac) (s : Cbc) (x : Bytes) (hx : x.length ≤ M.size) (hv : M.verify [] x = false) :
    decrypt B M s x = (s, .ok none) := by
  unfold decrypt
  have h1 : x.length - M.size = 0 := by omega
  dsimp only
  rw [h1, List.take_zero, List.drop_zero, if_neg (by simp [hv])]

/-- With HMAC, only data that ends with the tag of the rest is ever given to the cipher. -/
theorem C45_authentic (B : Block) (tag : Bytes → Bytes) (htag : ∀ c, (tag c).length = 20) (s : Cbc) (x : Bytes)
    (h : decrypt B (hmac tag) s x ≠ (s, .ok none)) : ∃ c, x = c ++ tag c := by
  unfold decrypt at h
  dsimp only at h
  split at h
  · next hv =>
    refine ⟨x.take (x.length - 20), ?_⟩
    have : tag (x.take (x.length - 20)) = x.drop (x.length - 20) := by simpa [hmac] using hv
    rw [this, List.take_append_drop]
  · exact absurd rfl h

/-- C45 is false for an object that decrypts what it encrypted itself: `decrypt` finalizes the encrypter, which is finalized already. -/
theorem C45_false_same_object {B : Block} {M : Mac} (hB : GoodBlock B) (hM : GoodMac M) {iv : Bytes} (hiv : iv.length = 16) (m : Bytes) :
    ∃ x, (encrypt B M (.new iv) m).2 = .ok x ∧ (decrypt B M (encrypt B M (.new iv) m).1 x).2 = .error .alreadyFinalized := by
  refine ⟨_, encrypt_new m, ?_⟩
  have hlen := cbc_length hB (m.length / 16 + 1) iv (pad m) hiv (pad_length m)
  have hs : (encrypt B M (.new iv) m).1 = ⟨⟨(cbcEnc B (m.length / 16 + 1) iv (pad m)).2, [], true⟩, .new iv⟩ := by
    unfold encrypt Cbc.encrypt Cbc.new
    dsimp only
    rw [update_new _ _ _ _ (pad_length m)]
    simp [andFinalize, Ctx.finalize]
  rw [hs]
  generalize (cbcEnc B (m.length / 16 + 1) iv (pad m)).1 = c at hlen
  unfold decrypt
  have h1 : (c ++ M.mac c).length - M.size = c.length := by rw [List.length_append, hM.length]; omega
  dsimp only
  rw [h1, List.take_left, List.drop_left, if_pos (hM.verify c)]
  unfold Cbc.decrypt
  dsimp only
  rw [update_new _ _ _ _ hlen]
  simp [andFinalize, Ctx.finalize]

/-- Likewise, an object encrypts only one message and decrypts only one. -/
theorem C45_false_second (B : Block) (M : Mac) (s : Cbc) (m x : Bytes) :
    (encrypt B M s m).2 = .ok x → ∀ m', (encrypt B M (encrypt B M s m).1 m').2 = .error .alreadyFinalized := by
  intro h m'
  have hfin : (encrypt B M s m).1.encrypter.finalized = true := by
    unfold encrypt Cbc.encrypt at h ⊢
    cases hu : s.encrypter.update (cbcEnc B) (pad m) with
    | mk c r =>
      rw [hu] at h
      cases r with
      | error e => cases h
      | ok r =>
        dsimp only at h ⊢
        unfold andFinalize Ctx.finalize at h ⊢
        by_cases h1 : c.finalized = true
        · simp [h1] at h
        · by_cases h2 : c.buf ≠ []
          · simp [h1, h2] at h
          · simp [h1, h2]
  generalize (encrypt B M s m).1 = t at hfin
  unfold encrypt Cbc.encrypt Ctx.update
  simp [hfin]

/-! ## Example: a toy cipher and MAC meet the assumptions -/
def toyBlock : Block := ⟨List.map (· ^^^ 0x5A), List.map (· ^^^ 0x5A)⟩
def toyMac : Mac := hmac fun c => List.replicate 20 (c.foldl (· + ·) 7)

example : GoodBlock toyBlock ∧ GoodMac toyMac := by
  refine ⟨⟨fun b h => by simpa [toyBlock] using h, fun b _ => ?_⟩, ⟨fun c => by simp [toyMac, hmac], fun c => by simp [toyMac, hmac]⟩⟩
  simp only [toyBlock, List.map_map]
  have : ((fun x : UInt8 => x ^^^ 0x5A) ∘ fun x => x ^^^ 0x5A) = id := by funext x; simp [UInt8.xor_assoc]
  rw [this, List.map_id]

example : (match (encrypt toyBlock toyMac (.new (List.replicate 16 9)) [1, 2, 3]).2 with
    | .ok x => (decrypt toyBlock toyMac (.new (List.replicate 16 9)) x).2.toOption
    | .error _ => none) = some (some [1, 2, 3]) := by decide +kernel

end Verif.Cipher
