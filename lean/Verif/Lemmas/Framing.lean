import Verif.Spec.Frame
import Verif.Lemmas.Bytes
import Verif.Props.Streams
/-! Lemmas about the framing adapter. -/
namespace Verif

theorem adler_fold_lt (d : Bytes) : ∀ s : Nat × Nat, s.1 < 65521 → s.2 < 65521 →
    (d.foldl adlerStep s).1 < 65521 ∧ (d.foldl adlerStep s).2 < 65521 := by
  induction d with
  | nil => intro s h1 h2; exact ⟨h1, h2⟩
  | cons x d ih =>
    intro s h1 h2
    rw [List.foldl_cons]
    exact ih _ (Nat.mod_lt _ (by decide)) (Nat.mod_lt _ (by decide))

theorem adler32_lt (d : Bytes) : adler32 d < 2 ^ 32 := by
  have := adler_fold_lt d (1, 0) (by decide) (by decide)
  unfold adler32
  dsimp only
  omega

theorem dec4 {n : Nat} (h : n < 2 ^ 32) : beDec (beEnc 4 n) = n := beDec_beEnc_lt h

theorem enc4 {b : Bytes} (h : b.length = 4) : beEnc 4 (beDec b) = b := by rw [← h]; exact beEnc_beDec b

theorem dec4_lt {b : Bytes} (h : b.length = 4) : beDec b < 2 ^ 32 := by
  have := beDec_lt b; rw [h] at this; exact this

theorem MAGIC_length : MAGIC.length = 4 := rfl
theorem REV_length : REV_MAGIC.length = 4 := rfl

@[simp] theorem framePrefix_length (n : Nat) : (framePrefix n).length = 12 := by
  simp [framePrefix, MAGIC]
@[simp] theorem frameSuffix_length (n : Nat) : (frameSuffix n).length = 12 := by
  simp [frameSuffix, REV_MAGIC]
@[simp] theorem frame_length (p : Bytes) : (frame p).length = p.length + 24 := by
  simp [frame]; omega

/-- A list in three parts of 4. -/
theorem split12 {w : Bytes} (h : w.length = 12) : w = w.take 4 ++ ((w.drop 4).take 4 ++ (w.drop 8).take 4) := by
  have e : (w.drop 8).take 4 = w.drop 8 := List.take_of_length_le (by simp; omega)
  rw [e]
  have : w.drop 8 = (w.drop 4).drop 4 := by simp
  rw [this, List.take_append_drop, List.take_append_drop]

theorem parts12 {a b c : Bytes} (ha : a.length = 4) (hb : b.length = 4) (hc : c.length = 4) :
    (a ++ (b ++ c)).take 4 = a ∧ ((a ++ (b ++ c)).drop 4).take 4 = b ∧ ((a ++ (b ++ c)).drop 8).take 4 = c := by
  refine ⟨by rw [← ha, List.take_left], ?_, ?_⟩
  · rw [← ha, List.drop_left, ha, ← hb, List.take_left]
  · rw [show a ++ (b ++ c) = (a ++ b) ++ c by simp, show 8 = (a ++ b).length by simp [ha, hb],
      List.drop_left, ← hc, List.take_length]

theorem prefix_iff {w : Bytes} (h : w.length = 12) :
    (w.take 4 = MAGIC ∧ beDec ((w.drop 8).take 4) = adler32 (w.take 4 ++ (w.drop 4).take 4)) ↔
    w = framePrefix (beDec ((w.drop 4).take 4)) := by
  have l1 : ((w.drop 4).take 4).length = 4 := by simp; omega
  have l2 : ((w.drop 8).take 4).length = 4 := by simp; omega
  unfold framePrefix
  rw [enc4 l1, List.append_assoc]
  constructor
  · rintro ⟨h1, h2⟩
    conv => lhs; rw [split12 h]
    rw [h1] at h2 ⊢
    rw [← h2, enc4 l2]
  · intro hw
    have := parts12 MAGIC_length l1 (beEnc_length 4 (adler32 (MAGIC ++ (w.drop 4).take 4)))
    rw [← hw] at this
    obtain ⟨h1, _, h3⟩ := this
    exact ⟨h1, by rw [h3, h1, dec4 (adler32_lt _)]⟩

theorem framePrefix_size {n : Nat} (hn : n < 2 ^ 32) : beDec (((framePrefix n).drop 4).take 4) = n := by
  have := parts12 MAGIC_length (beEnc_length 4 n) (beEnc_length 4 (adler32 (MAGIC ++ beEnc 4 n)))
  unfold framePrefix
  rw [List.append_assoc, this.2.1, dec4 hn]

theorem suffix_iff {w : Bytes} (h : w.length = 12) {n : Nat} (hn : n < 2 ^ 32) :
    (beDec ((w.drop 4).take 4) = n ∧ (w.drop 8).take 4 = REV_MAGIC ∧
      beDec (w.take 4) = adler32 ((w.drop 4).take 4 ++ (w.drop 8).take 4)) ↔ w = frameSuffix n := by
  have l0 : (w.take 4).length = 4 := by simp; omega
  have l1 : ((w.drop 4).take 4).length = 4 := by simp; omega
  unfold frameSuffix
  rw [List.append_assoc]
  constructor
  · rintro ⟨h1, h2, h3⟩
    have e1 : beEnc 4 n = (w.drop 4).take 4 := by rw [← h1, enc4 l1]
    conv => lhs; rw [split12 h]
    rw [e1]
    rw [h2] at h3
    rw [← h3, enc4 l0, h2]
  · intro hw
    have := parts12 (beEnc_length 4 (adler32 (beEnc 4 n ++ REV_MAGIC))) (beEnc_length 4 n) REV_length
    rw [← hw] at this
    obtain ⟨h1, h2, h3⟩ := this
    refine ⟨by rw [h2, dec4 hn], h3, ?_⟩
    rw [h1, h2, h3, dec4 (adler32_lt _)]

theorem peek12 (s : Bio) : s.peek 12 = (s.buf.drop s.pos).take 12 := rfl

theorem read4 {s : Bio} (h : s.pos + 4 ≤ s.buf.length) :
    s.read 4 = ((s.buf.drop s.pos).take 4, ⟨s.buf, s.pos + 4⟩) := by
  rw [Bio.read_eq]
  have : wanted 4 (s.buf.length - s.pos) = 4 := by
    unfold wanted; rw [if_neg (by decide)]
    exact Nat.min_eq_left (by show 4 ≤ _; omega)
  rw [this]

theorem checkStart_cases (f : Frm) (h : f.startChecked = false) :
    ((f.s.buf.drop f.start).length < 12 ∧
      f.checkStart = (.ok (), { f.goto f.start with size := none })) ∨
    (∃ n < 2 ^ 32, 12 ≤ (f.s.buf.drop f.start).length ∧ (f.s.buf.drop f.start).take 12 = framePrefix n ∧
      f.checkStart = (.ok (), { f.goto (f.start + 12) with size := some n, startChecked := true })) ∨
    (BadStart (f.s.buf.drop f.start) ∧ f.checkStart = (.error .frame, (f.goto f.start).failed)) := by
  unfold Frm.checkStart Frm.rawAvailable Frm.goto
  rw [if_neg (by rw [h]; simp)]
  dsimp only
  by_cases h12 : f.s.buf.length - f.start < 12
  · left; exact ⟨by simpa using h12, by rw [if_pos h12]⟩
  right
  rw [if_neg h12]
  rw [peek12]
  have hlen : ((f.s.buf.drop f.start).take 12).length = 12 := by simp; omega
  have hiff := prefix_iff hlen
  by_cases hp : (f.s.buf.drop f.start).take 12
      = framePrefix (beDec ((((f.s.buf.drop f.start).take 12).drop 4).take 4))
  · left
    obtain ⟨h1, h2⟩ := hiff.mpr hp
    refine ⟨_, dec4_lt ?_, by simp; omega, hp, ?_⟩
    · simp; omega
    · rw [if_neg (by simpa using h1), if_neg (by simpa using h2)]
  · right
    refine ⟨⟨by simp; omega, ?_⟩, ?_⟩
    · intro n hn he
      apply hp
      rw [he, framePrefix_size hn]
    · by_cases h1 : ((f.s.buf.drop f.start).take 12).take 4 = MAGIC
      · rw [if_neg (by simpa using h1), if_pos]
        intro h2
        exact hp (hiff.mp ⟨h1, h2⟩)
      · rw [if_pos h1]

theorem checkEnd_cases (f : Frm) {n : Nat} (hn : n < 2 ^ 32) (hz : f.size = some n) (h : f.endChecked = false)
    (hs : f.start ≤ f.s.buf.length) :
    ((f.s.buf.drop f.start).length < 24 + n ∧ f.checkEnd = (.ok (), f)) ∨
    (24 + n ≤ (f.s.buf.drop f.start).length ∧
      ((f.s.buf.drop f.start).drop (12 + n)).take 12 = frameSuffix n ∧
      f.checkEnd = (.ok (), { f with endChecked := true })) ∨
    (24 + n ≤ (f.s.buf.drop f.start).length ∧
      ((f.s.buf.drop f.start).drop (12 + n)).take 12 ≠ frameSuffix n ∧
      ∃ p, (p = f.start + 12 + n + 8 ∨ p = f.start + 12 + n + 12) ∧
      f.checkEnd = (.error .frame, (f.goto p).failed)) := by
  unfold Frm.checkEnd Frm.rawSize Frm.goto
  rw [hz]
  dsimp only
  rw [if_neg (by rw [h]; simp)]
  by_cases h24 : f.s.buf.length - f.start < 12 + n + 12
  · left; refine ⟨by simp; omega, ?_⟩
    rw [if_pos h24]
  right
  rw [if_neg h24]
  rw [read4 (s := ⟨f.s.buf, f.start + 12 + n⟩) (by dsimp only; omega)]
  dsimp only
  rw [read4 (s := ⟨f.s.buf, f.start + 12 + n + 4⟩) (by dsimp only; omega)]
  dsimp only
  rw [read4 (s := ⟨f.s.buf, f.start + 12 + n + 4 + 4⟩) (by dsimp only; omega)]
  dsimp only
  have e0 : f.s.buf.drop (f.start + 12 + n) = (f.s.buf.drop f.start).drop (12 + n) := by
    rw [List.drop_drop]; congr 1; omega
  have e1 : f.s.buf.drop (f.start + 12 + n + 4) = ((f.s.buf.drop f.start).drop (12 + n)).drop 4 := by
    rw [List.drop_drop, List.drop_drop]; congr 1; omega
  have e2 : f.s.buf.drop (f.start + 12 + n + 4 + 4) = ((f.s.buf.drop f.start).drop (12 + n)).drop 8 := by
    rw [List.drop_drop, List.drop_drop]; congr 1; omega
  rw [e0, e1, e2]
  generalize hw : (f.s.buf.drop f.start).drop (12 + n) = w
  have hwl : 12 ≤ w.length := by rw [← hw]; simp; omega
  have hlen : (w.take 12).length = 12 := by simp; omega
  have t0 : (w.take 12).take 4 = w.take 4 := by rw [List.take_take]; rfl
  have t1 : ((w.take 12).drop 4).take 4 = (w.drop 4).take 4 := by
    rw [List.drop_take, List.take_take]; rfl
  have t2 : ((w.take 12).drop 8).take 4 = (w.drop 8).take 4 := by
    rw [List.drop_take, List.take_take]; rfl
  have hiff := suffix_iff hlen hn
  rw [t0, t1, t2] at hiff
  by_cases hp : w.take 12 = frameSuffix n
  · left
    obtain ⟨h1, h2, h3⟩ := hiff.mpr hp
    refine ⟨by simp; omega, hp, ?_⟩
    rw [if_neg (by simpa using h1), if_neg (by simpa using h2), if_neg (by simpa using h3)]
  · right
    refine ⟨by simp; omega, hp, ?_⟩
    by_cases h1 : beDec ((w.drop 4).take 4) = n
    · rw [if_neg (by simpa using h1)]
      refine ⟨_, .inr rfl, ?_⟩
      by_cases h2 : (w.drop 8).take 4 = REV_MAGIC
      · rw [if_neg (by simpa using h2), if_pos]
        intro h3
        exact hp (hiff.mp ⟨h1, h2, h3⟩)
      · rw [if_pos h2]
    · rw [if_pos h1]
      exact ⟨_, .inl rfl, rfl⟩

theorem checkEnd_done (f : Frm) (h : f.endChecked = true ∨ f.size = none) : f.checkEnd = (.ok (), f) := by
  unfold Frm.checkEnd
  cases hz : f.size with
  | none => rfl
  | some n =>
    rcases h with h | h
    · dsimp only; rw [if_pos h]
    · rw [hz] at h; cases h

theorem checkStart_done (f : Frm) (h : f.startChecked = true) : f.checkStart = (.ok (), f) := by
  unfold Frm.checkStart; rw [if_pos h]

/-! ### `_fail` -/

theorem skipMagic_le : ∀ x : Bytes, Frm.skipMagic x ≤ x.length
  | [] => Nat.le_refl _
  | x :: t => by
    rw [Frm.skipMagic]
    split
    · have := skipMagic_le t; simp; omega
    · simp

/-- `_fail` stops at the next magic number, or within the last three bytes. -/
theorem skipMagic_spec : ∀ x : Bytes,
    ((x.drop (Frm.skipMagic x)).take 4 = MAGIC ∨ (x.drop (Frm.skipMagic x)).length < 4) ∧
    ∀ i < Frm.skipMagic x, (x.drop i).take 4 ≠ MAGIC
  | [] => ⟨.inr (by simp [Frm.skipMagic]), by intro i hi; simp [Frm.skipMagic] at hi⟩
  | x :: t => by
    rw [Frm.skipMagic]
    have ih := skipMagic_spec t
    split
    next h =>
      refine ⟨by simpa using ih.1, ?_⟩
      intro i hi
      cases i with
      | zero => exact h.2
      | succ i => simpa using ih.2 i (by omega)
    next h =>
      refine ⟨?_, by intro i hi; omega⟩
      by_cases h4 : 4 ≤ (x :: t).length
      · left
        by_cases hm : (x :: t).take 4 = MAGIC
        · exact hm
        · exact absurd ⟨h4, hm⟩ h
      · right; rw [List.drop_zero]; omega

end Verif
