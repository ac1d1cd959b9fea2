import Verif.Lemmas.Framing
/-! # C14, C15: the framing adapter -/
namespace Verif

theorem framePrefix_inj {n m : Nat} (hn : n < 2 ^ 32) (hm : m < 2 ^ 32) (h : framePrefix n = framePrefix m) :
    n = m := by
  rw [← framePrefix_size hn, h, framePrefix_size hm]

theorem is_frame_iff {x : Bytes} {n : Nat} :
    (x.take 12 = framePrefix n ∧ 24 + n ≤ x.length ∧ (x.drop (12 + n)).take 12 = frameSuffix n) ↔
    ∃ p rest, p.length = n ∧ x = frame p ++ rest := by
  constructor
  · rintro ⟨h1, h2, h3⟩
    refine ⟨(x.drop 12).take n, x.drop (24 + n), by simp; omega, ?_⟩
    have hl : ((x.drop 12).take n).length = n := by simp; omega
    unfold frame
    rw [hl, ← h1, ← h3]
    have e1 : x.drop (24 + n) = (x.drop (12 + n)).drop 12 := by rw [List.drop_drop]; congr 1; omega
    have e2 : x.drop (12 + n) = (x.drop 12).drop n := by rw [List.drop_drop]
    rw [e1, List.append_assoc, List.append_assoc, List.take_append_drop, e2, List.take_append_drop,
      List.take_append_drop]
  · rintro ⟨p, rest, rfl, rfl⟩
    unfold frame
    refine ⟨?_, by simp; omega, ?_⟩
    · rw [List.append_assoc, List.append_assoc]
      exact List.take_left' (by simp)
    · rw [List.append_assoc, List.drop_left' (by simp)]
      exact List.take_left' (by simp)

/-- What `check` does on an adapter that has seen nothing yet. -/
theorem check_cases (f : Frm) (h : f.startChecked = false) (he : f.endChecked = false)
    (hs : f.start ≤ f.s.buf.length) :
    ((f.s.buf.drop f.start).length < 12 ∧ f.check = (.ok (), { f.goto f.start with size := none })) ∨
    (∃ n < 2 ^ 32, (f.s.buf.drop f.start).take 12 = framePrefix n ∧ 12 ≤ (f.s.buf.drop f.start).length ∧
      (((f.s.buf.drop f.start).length < 24 + n ∧
        f.check = (.ok (), { f.goto (f.start + 12) with size := some n, startChecked := true })) ∨
       ((∃ p rest, p.length = n ∧ f.s.buf.drop f.start = frame p ++ rest) ∧
        f.check = (.ok (), { f.goto (f.start + 12) with size := some n, startChecked := true, endChecked := true })))) ∨
    ((BadStart (f.s.buf.drop f.start) ∨ BadEnd (f.s.buf.drop f.start)) ∧
      ∃ g : Frm, g.s.buf = f.s.buf ∧ f.start ≤ g.s.pos ∧ g.s.pos ≤ f.s.buf.length ∧ g.start = f.start ∧
        f.check = (.error .frame, g.failed)) := by
  unfold Frm.check
  rcases checkStart_cases f h with ⟨h1, h2⟩ | ⟨n, hn, h0, h1, h2⟩ | ⟨h1, h2⟩
  · left; refine ⟨h1, ?_⟩
    rw [h2]; dsimp only
    rw [checkEnd_done _ (.inr rfl)]
  · right
    rw [h2]; dsimp only
    have := checkEnd_cases { f.goto (f.start + 12) with size := some n, startChecked := true } hn rfl he hs
    dsimp only [Frm.goto] at this
    rcases this with ⟨h3, h4⟩ | ⟨h3, h4, h5⟩ | ⟨h3, h4, p, hp, h5⟩
    · left; exact ⟨n, hn, h1, h0, .inl ⟨h3, h4⟩⟩
    · left; exact ⟨n, hn, h1, h0, .inr ⟨is_frame_iff.mp ⟨h1, h3, h4⟩, h5⟩⟩
    · right
      refine ⟨.inr ⟨n, hn, h1, h3, h4⟩, _, ?_, ?_, ?_, ?_, h5⟩
      · rfl
      · dsimp only; omega
      · dsimp only; simp at h3; omega
      · rfl
  · right; right
    rw [h2]
    exact ⟨.inl h1, f.goto f.start, rfl, Nat.le_refl _, hs, rfl, rfl⟩

theorem not_bad_of_short {x : Bytes} (h : x.length < 12) : ¬ (BadStart x ∨ BadEnd x) := by
  rintro (⟨h1, _⟩ | ⟨n, _, _, h1, _⟩) <;> omega

theorem not_bad_of_prefix {x : Bytes} {n : Nat} (hn : n < 2 ^ 32) (h : x.take 12 = framePrefix n)
    (h' : x.length < 24 + n ∨ ∃ p rest, p.length = n ∧ x = frame p ++ rest) : ¬ (BadStart x ∨ BadEnd x) := by
  rintro (⟨_, h1⟩ | ⟨m, hm, h1, h2, h3⟩)
  · exact h1 n hn h
  · have : n = m := framePrefix_inj hn hm (by rw [← h, h1])
    subst this
    rcases h' with h' | h'
    · omega
    · exact h3 (is_frame_iff.mpr h').2.2

/-- C15. Opening an adapter on the bytes `x` raises exactly when twelve bytes are there that are no
frame prefix, or all bytes announced are there and the suffix is wrong; and it reports a complete
frame exactly when `x` begins with the frame of some payload. -/
theorem C15_outcome (s : Bio) (h : s.pos ≤ s.buf.length) :
    ((∃ e, (Frm.init s).1 = .error e) ↔ BadStart (s.buf.drop s.pos) ∨ BadEnd (s.buf.drop s.pos)) ∧
    (((Frm.init s).1 = .ok () ∧ (Frm.init s).2.endChecked = true) ↔
      ∃ p rest, p.length < 2 ^ 32 ∧ s.buf.drop s.pos = frame p ++ rest) := by
  unfold Frm.init
  rcases check_cases ⟨s, s.pos, false, false, none⟩ rfl rfl h with
    ⟨h1, h2⟩ | ⟨n, hn, h1, h0, ⟨h2, h3⟩ | ⟨h2, h3⟩⟩ | ⟨h1, g, g1, g2, g3, g4, h2⟩
  all_goals dsimp only [Frm.goto] at *
  · rw [h2]
    refine ⟨⟨fun ⟨e, he⟩ => by simp at he, fun hb => absurd hb (not_bad_of_short h1)⟩, ?_⟩
    refine ⟨fun ⟨_, he⟩ => by simp at he, ?_⟩
    rintro ⟨p, rest, hp, hx⟩
    rw [hx] at h1; simp at h1; omega
  · rw [h3]
    refine ⟨⟨fun ⟨e, he⟩ => by simp at he, fun hb => absurd hb (not_bad_of_prefix hn h1 (.inl h2))⟩, ?_⟩
    refine ⟨fun ⟨_, he⟩ => by simp at he, ?_⟩
    rintro ⟨p, rest, hp, hx⟩
    have h4 := is_frame_iff.mpr ⟨p, rest, rfl, hx⟩
    have : n = p.length := framePrefix_inj hn hp (by rw [← h1, h4.1])
    omega
  · rw [h3]
    refine ⟨⟨fun ⟨e, he⟩ => by simp at he, fun hb => absurd hb (not_bad_of_prefix hn h1 (.inr h2))⟩, ?_⟩
    obtain ⟨p, rest, hp, hx⟩ := h2
    exact ⟨fun _ => ⟨p, rest, by omega, hx⟩, fun _ => ⟨rfl, rfl⟩⟩
  · rw [h2]
    refine ⟨⟨fun _ => h1, fun _ => ⟨_, rfl⟩⟩, ⟨fun ⟨he, _⟩ => by simp at he, ?_⟩⟩
    rintro ⟨p, rest, hp, hx⟩
    exact absurd h1 (not_bad_of_prefix hp (is_frame_iff.mpr ⟨p, rest, rfl, hx⟩).1 (.inr ⟨p, rest, rfl, hx⟩))

/-- C15. After opening raised, the stream contains the same bytes and stands, not before where it
stood, at a magic number or within its last three bytes. -/
theorem C15_position (s : Bio) (h : s.pos ≤ s.buf.length) {e : Err} (he : (Frm.init s).1 = .error e) :
    (Frm.init s).2.s.buf = s.buf ∧ s.pos ≤ (Frm.init s).2.s.pos ∧
    ((s.buf.drop (Frm.init s).2.s.pos).take 4 = MAGIC ∨ (s.buf.drop (Frm.init s).2.s.pos).length < 4) := by
  unfold Frm.init at *
  rcases check_cases ⟨s, s.pos, false, false, none⟩ rfl rfl h with
    ⟨h1, h2⟩ | ⟨n, hn, h1, h0, ⟨h2, h3⟩ | ⟨h2, h3⟩⟩ | ⟨h1, g, g1, g2, g3, g4, h2⟩
  · rw [h2] at he; cases he
  · rw [h3] at he; cases he
  · rw [h3] at he; cases he
  · rw [h2]
    dsimp only [Frm.failed, Frm.goto] at *
    rw [g1]
    refine ⟨rfl, by omega, ?_⟩
    have := (skipMagic_spec (s.buf.drop g.s.pos)).1
    rwa [List.drop_drop] at this

/-- C15. An adapter that has not delivered anything yet does not deliver from a bad frame: every `read`
raises. -/
theorem C15_read_raises_start (f : Frm) (h : f.startChecked = false) (he : f.endChecked = false)
    (hs : f.start ≤ f.s.buf.length)
    (hb : BadStart (f.s.buf.drop f.start) ∨ BadEnd (f.s.buf.drop f.start)) (count : Int) :
    ∃ e, (f.read count).1 = .error e := by
  unfold Frm.read
  rcases check_cases f h he hs with
    ⟨h1, h2⟩ | ⟨n, hn, h1, h0, ⟨h2, h3⟩ | ⟨h2, h3⟩⟩ | ⟨h1, g, g1, g2, g3, g4, h2⟩
  · exact absurd hb (not_bad_of_short h1)
  · exact absurd hb (not_bad_of_prefix hn h1 (.inl h2))
  · exact absurd hb (not_bad_of_prefix hn h1 (.inr h2))
  · rw [h2]; exact ⟨_, rfl⟩

/-- C15. An adapter that has accepted a prefix announcing `n` bytes (and may have delivered part of
them) raises on every `read` once all announced bytes are there and the suffix is wrong. -/
theorem C15_read_raises_end (f : Frm) (h : f.startChecked = true) (he : f.endChecked = false)
    (hs : f.start ≤ f.s.buf.length) {n : Nat} (hn : n < 2 ^ 32) (hz : f.size = some n)
    (hl : 24 + n ≤ (f.s.buf.drop f.start).length)
    (hb : ((f.s.buf.drop f.start).drop (12 + n)).take 12 ≠ frameSuffix n) (count : Int) :
    ∃ e, (f.read count).1 = .error e := by
  unfold Frm.read Frm.check
  rw [checkStart_done f h]
  dsimp only
  rcases checkEnd_cases f hn hz he hs with ⟨h3, _⟩ | ⟨_, h4, _⟩ | ⟨h3, h4, p, hp, h5⟩
  · omega
  · exact absurd h4 hb
  · rw [h5]; exact ⟨_, rfl⟩

/-- Concrete cases: a frame whose suffix has one byte changed, and a wrong magic number. -/
example : BadEnd (framePrefix 1 ++ [7] ++ (frameSuffix 1).take 11 ++ [0]) :=
  ⟨1, by decide, by decide, by decide, by decide⟩
example : BadStart [9, 8, 13, 21, 0, 0, 0, 1, 0, 0, 0, 0] :=
  ⟨by decide, by
    intro n _ h
    have := congrArg (List.take 1) h
    simp [framePrefix, MAGIC] at this⟩

/-- The class comment promises to skip "ahead to a new magic sequence": with a correct magic number
and a wrong checksum the stream does not move at all. -/
theorem C15_no_progress : ∃ s : Bio, s.pos + 12 ≤ s.buf.length ∧ Frm.init s =
    (.error .frame, ⟨s, s.pos, false, false, none⟩) :=
  ⟨⟨[5, 8, 13, 21, 0, 0, 0, 1, 0, 0, 0, 0], 0⟩, by decide, rfl⟩

/-! ## C14: writing -/

theorem Bio.write_end {s : Bio} (h : s.pos = s.buf.length) (d : Bytes) :
    s.write d = ⟨s.buf ++ d, (s.buf ++ d).length⟩ := by
  obtain ⟨buf, pos⟩ := s
  simp only at h
  subst h
  unfold Bio.write
  split
  · next hd => subst hd; simp
  · simp

theorem Bio.write_at (b d : Bytes) : Bio.write ⟨b, b.length⟩ d = ⟨b ++ d, (b ++ d).length⟩ :=
  Bio.write_end rfl d

theorem Bio.write_mid {a old c d : Bytes} {p : Nat} (hp : p = a.length) (hd : d.length = old.length)
    (h0 : d ≠ []) : Bio.write ⟨a ++ (old ++ c), p⟩ d = ⟨a ++ (d ++ c), a.length + d.length⟩ := by
  subst hp
  unfold Bio.write
  rw [if_neg h0]
  simp only [List.take_left, Bio.mk.injEq, and_true]
  have e : List.drop (a.length + d.length) (a ++ (old ++ c)) = c := by
    rw [← List.append_assoc, hd]
    exact List.drop_left' (by simp)
  rw [e]
  simp

/-- The state of a writer after writing `data`. -/
def Writing (pre data : Bytes) (f : Frm) : Prop :=
  f.s = ⟨pre ++ (MAGIC ++ MAGIC ++ MAGIC ++ data), (pre ++ (MAGIC ++ MAGIC ++ MAGIC ++ data)).length⟩ ∧
  f.start = pre.length ∧ f.startChecked = true ∧ f.endChecked = false ∧ f.size = some data.length

theorem Writing.first {f : Frm} {pre : Bytes} (h1 : f.s = ⟨pre, pre.length⟩) (h2 : f.start = pre.length)
    (h3 : f.startChecked = false) (h4 : f.endChecked = false) (d : Bytes) :
    ∃ g, f.write d = (.ok (), g) ∧ Writing pre d g := by
  unfold Frm.write
  rw [if_neg (by simp [h4]), if_neg (by rw [h1, h2]; simp), if_neg (by simp [h3])]
  refine ⟨_, rfl, ?_⟩
  dsimp only
  rw [h1, h2]
  dsimp only
  rw [Bio.write_at, Bio.write_at, Bio.write_at, Bio.write_at]
  dsimp only
  have e : (pre ++ MAGIC ++ MAGIC ++ MAGIC ++ d).length - pre.length - 12 = d.length := by
    simp [MAGIC]
  rw [e]
  split
  · exact ⟨by simp, rfl, rfl, h4, rfl⟩
  · next h =>
    refine ⟨by simp, rfl, rfl, h4, ?_⟩
    dsimp only at h ⊢
    rw [Option.getD_some] at h
    congr 1; omega

theorem Writing.more {f : Frm} {pre data : Bytes} (h : Writing pre data f) (d : Bytes) :
    ∃ g, f.write d = (.ok (), g) ∧ Writing pre (data ++ d) g := by
  obtain ⟨h1, h2, h3, h4, h5⟩ := h
  unfold Frm.write
  rw [if_neg (by simp [h4]), if_neg (by simp [h3]), if_pos h3]
  refine ⟨_, rfl, ?_⟩
  dsimp only
  rw [h1, h2, h5]
  rw [Bio.write_at]
  have e : (pre ++ (MAGIC ++ MAGIC ++ MAGIC ++ data) ++ d).length - pre.length - 12 = (data ++ d).length := by
    simp [MAGIC]
  simp only [Option.getD_some]
  rw [e]
  split
  · exact ⟨by simp, rfl, h3, h4, rfl⟩
  · next h =>
    refine ⟨by simp, rfl, h3, h4, ?_⟩
    dsimp only
    rw [List.length_append] at h ⊢
    congr 1; omega

theorem writeFrame_eq {f : Frm} {n : Nat} (h4 : f.endChecked = false) (h5 : f.size = some n) {sb : Bytes}
    (hp : packU 4 (n : Int) = .ok sb) :
    f.writeFrame = (.ok (), { f with s := Frm.writeDelimiters ⟨f.s.buf, f.start + 4⟩ f.start n sb,
                                     endChecked := true }) := by
  unfold Frm.writeFrame
  rw [if_neg (by rw [h4]; decide), h5]
  dsimp only
  rw [hp, Frm.putFrame, h5]

theorem Writing.finish {f : Frm} {pre data : Bytes} (h : Writing pre data f) (hl : data.length < 2 ^ 32) :
    ∃ g, f.writeFrame = (.ok (), g) ∧ g.s.buf = pre ++ frame data ∧ g.endChecked = true := by
  obtain ⟨h1, h2, h3, h4, h5⟩ := h
  refine ⟨_, writeFrame_eq h4 h5 (packU_nat hl), ?_, rfl⟩
  dsimp only
  rw [h1, h2]
  unfold Frm.writeDelimiters
  dsimp only
  rw [show pre ++ (MAGIC ++ MAGIC ++ MAGIC ++ data) = (pre ++ MAGIC) ++ (MAGIC ++ (MAGIC ++ data)) by simp]
  rw [Bio.write_mid (by simp [MAGIC]) (by simp [MAGIC]) (by intro h; have := congrArg List.length h; simp at this)]
  rw [show (pre ++ MAGIC) ++ (beEnc 4 data.length ++ (MAGIC ++ data))
    = (pre ++ MAGIC ++ beEnc 4 data.length) ++ (MAGIC ++ data) by simp]
  rw [Bio.write_mid (by simp; omega) (by simp [MAGIC]) (by intro h; have := congrArg List.length h; simp at this)]
  have hend : pre.length + 12 + data.length = (pre ++ MAGIC ++ beEnc 4 data.length ++
    (beEnc 4 (adler32 (MAGIC ++ beEnc 4 data.length)) ++ data)).length := by simp [MAGIC]; omega
  rw [hend, Bio.write_at, Bio.write_at, Bio.write_at]
  simp [frame, framePrefix, frameSuffix]

/-- C14. Writing `d`, then `ds`, into an adapter opened at the end of a stream and closing with
`writeFrame` appends exactly the frame of the concatenation. -/
theorem C14_write (pre d : Bytes) (ds : List Bytes) (hl : (d ++ ds.flatten).length < 2 ^ 32) :
    (Frm.init ⟨pre, pre.length⟩).1 = .ok () ∧
    ((Frm.init ⟨pre, pre.length⟩).2.writeAll (d :: ds)).1 = .ok () ∧
    ((Frm.init ⟨pre, pre.length⟩).2.writeAll (d :: ds)).2.s.buf = pre ++ frame (d ++ ds.flatten) := by
  have hi : Frm.init ⟨pre, pre.length⟩ = (.ok (), ⟨⟨pre, pre.length⟩, pre.length, false, false, none⟩) := by
    unfold Frm.init
    rcases check_cases ⟨⟨pre, pre.length⟩, pre.length, false, false, none⟩ rfl rfl (Nat.le_refl _) with
      ⟨h1, h2⟩ | ⟨n, hn, h1, h0, _⟩ | ⟨h1, _⟩
    · exact h2
    · simp at h0
    · exact absurd h1 (not_bad_of_short (by simp))
  rw [hi]
  dsimp only
  obtain ⟨g, hg, hw⟩ := Writing.first (f := ⟨⟨pre, pre.length⟩, pre.length, false, false, none⟩) rfl rfl rfl rfl d
  have key : ∀ (ds : List Bytes) (data : Bytes) (f : Frm), Writing pre data f →
      (data ++ ds.flatten).length < 2 ^ 32 →
      (f.writeAll ds).1 = .ok () ∧ (f.writeAll ds).2.s.buf = pre ++ frame (data ++ ds.flatten) := by
    intro ds
    induction ds with
    | nil =>
      intro data f hf hl
      simp only [List.flatten_nil, List.append_nil] at hl ⊢
      obtain ⟨g, h1, h2, _⟩ := hf.finish hl
      rw [Frm.writeAll, h1]; exact ⟨rfl, h2⟩
    | cons d ds ih =>
      intro data f hf hl
      obtain ⟨g, h1, h2⟩ := hf.more d
      rw [Frm.writeAll, h1]
      have := ih (data ++ d) g h2 (by simpa using hl)
      simpa using this
  refine ⟨rfl, ?_⟩
  rw [Frm.writeAll, hg]
  exact key ds d g hw hl

/-! ## C14: reading -/

/-- The state of a reader that has read `k` bytes of the payload `p`. -/
def Reading (pre p rest : Bytes) (k : Nat) : Frm :=
  ⟨⟨pre ++ (frame p ++ rest), pre.length + 12 + k⟩, pre.length, true, true, some p.length⟩

theorem Reading.init (pre p rest : Bytes) (hp : p.length < 2 ^ 32) :
    Frm.init ⟨pre ++ (frame p ++ rest), pre.length⟩ = (.ok (), Reading pre p rest 0) := by
  have hx : (pre ++ (frame p ++ rest)).drop pre.length = frame p ++ rest := List.drop_left
  unfold Frm.init
  rcases check_cases ⟨⟨pre ++ (frame p ++ rest), pre.length⟩, pre.length, false, false, none⟩ rfl rfl
    (by simp) with ⟨h1, h2⟩ | ⟨n, hn, h1, h0, ⟨h2, h3⟩ | ⟨h2, h3⟩⟩ | ⟨h1, _⟩
  all_goals dsimp only [Frm.goto] at *
  all_goals rw [hx] at *
  · simp at h1; omega
  · have h4 := is_frame_iff.mpr ⟨p, rest, rfl, rfl⟩
    have : n = p.length := framePrefix_inj hn hp (by rw [← h1, h4.1])
    omega
  · have h4 := is_frame_iff.mpr ⟨p, rest, rfl, rfl⟩
    have : n = p.length := framePrefix_inj hn hp (by rw [← h1, h4.1])
    rw [h3, this]; rfl
  · exact absurd h1 (not_bad_of_prefix hp (is_frame_iff.mpr ⟨p, rest, rfl, rfl⟩).1 (.inr ⟨p, rest, rfl, rfl⟩))

theorem payload_window (pre p rest : Bytes) {k n : Nat} (h : k + n ≤ p.length) :
    ((pre ++ (frame p ++ rest)).drop (pre.length + 12 + k)).take n = (p.drop k).take n := by
  have e : pre ++ (frame p ++ rest) = (pre ++ framePrefix p.length) ++ (p ++ (frameSuffix p.length ++ rest)) := by
    simp [frame]
  rw [e, show pre.length + 12 + k = (pre ++ framePrefix p.length).length + k by simp, ← List.drop_drop,
    List.drop_left, List.drop_append_of_le_length (by omega),
    List.take_append_of_le_length (by simp; omega)]

theorem bio_read_ok {s : Bio} {n : Nat} (h : s.pos + n ≤ s.buf.length) :
    s.read (n : Int) = ((s.buf.drop s.pos).take n, ⟨s.buf, s.pos + n⟩) := by
  rw [Bio.read_eq]
  have : wanted n (s.buf.length - s.pos) = n := by
    unfold wanted; rw [if_neg (by omega)]
    rw [Int.toNat_natCast]
    exact Nat.min_eq_left (by omega)
  rw [this]

theorem Reading.read {pre p rest : Bytes} {k n : Nat} (h : k + n ≤ p.length) :
    (Reading pre p rest k).read n = (.ok ((p.drop k).take n), Reading pre p rest (k + n)) := by
  have hc : (Reading pre p rest k).check = (.ok (), Reading pre p rest k) := by
    unfold Frm.check
    rw [checkStart_done _ rfl]
    exact checkEnd_done _ (.inl rfl)
  have hav : (Reading pre p rest k).available = ((p.length - k + rest.length : Nat) : Int) := by
    unfold Frm.available Frm.rawSize Reading
    dsimp only
    rw [if_neg (by simp; omega)]
    simp only [List.length_append, frame_length]
    omega
  unfold Frm.read
  rw [hc]
  dsimp only
  rw [hav, if_neg (by simp [Reading]), if_neg (by simp [Reading]; omega), if_neg (by omega)]
  rw [bio_read_ok (by simp [Reading]; omega)]
  unfold Reading
  dsimp only
  rw [payload_window pre p rest h]
  simp only [Nat.add_assoc]

theorem Reading.close {pre p rest : Bytes} {k : Nat} :
    (Reading pre p rest k).closeFrame =
      (.ok (), ⟨⟨pre ++ (frame p ++ rest), (pre ++ frame p).length⟩, pre.length, true, true, some p.length⟩) := by
  unfold Frm.closeFrame Reading Frm.goto
  rw [if_neg (by simp)]
  simp only [Option.getD_some, List.length_append, frame_length]
  congr 3
  omega

theorem Reading.all {pre p rest : Bytes} : ∀ (counts : List Nat) (k : Nat), k + counts.sum ≤ p.length →
    (Reading pre p rest k).readAll (counts.map Int.ofNat) =
      (.ok ((p.drop k).take counts.sum), Reading pre p rest (k + counts.sum)) := by
  intro counts
  induction counts with
  | nil => intro k _; simp [Frm.readAll]
  | cons n ns ih =>
    intro k h
    rw [List.sum_cons] at h ⊢
    rw [List.map_cons, Frm.readAll]
    have hr : (Reading pre p rest k).read (Int.ofNat n) = _ := Reading.read (n := n) (by omega)
    rw [hr]
    dsimp only
    rw [ih (k + n) (by omega)]
    dsimp only
    rw [show p.drop (k + n) = (p.drop k).drop n by rw [List.drop_drop], ← List.take_add, Nat.add_assoc]

/-- C14. A reader opened at a frame reads, with any sequence of reads, exactly the payload bytes it
asks for, and `closeFrame` puts the stream directly behind the frame, whatever follows. -/
theorem C14_read (pre p rest : Bytes) (hp : p.length < 2 ^ 32) (counts : List Nat) (hc : counts.sum ≤ p.length) :
    (Frm.init ⟨pre ++ (frame p ++ rest), pre.length⟩).1 = .ok () ∧
    ∃ f, (Frm.init ⟨pre ++ (frame p ++ rest), pre.length⟩).2.readAll (counts.map Int.ofNat)
        = (.ok (p.take counts.sum), f) ∧
      f.closeFrame.1 = .ok () ∧
      f.closeFrame.2.s = ⟨pre ++ (frame p ++ rest), (pre ++ frame p).length⟩ := by
  rw [Reading.init pre p rest hp]
  refine ⟨rfl, Reading pre p rest (0 + counts.sum), ?_, ?_, ?_⟩
  · exact Reading.all counts 0 (by omega)
  · rw [Reading.close]
  · rw [Reading.close]

/-- C14, write and read together: the payload written in any pieces is the payload read in any pieces. -/
theorem C14_roundtrip (pre rest d : Bytes) (ds : List Bytes) (hl : (d ++ ds.flatten).length < 2 ^ 32)
    (counts : List Nat) (hc : counts.sum = (d ++ ds.flatten).length) :
    let w := ((Frm.init ⟨pre, pre.length⟩).2.writeAll (d :: ds)).2.s.buf
    ∃ f, (Frm.init ⟨w ++ rest, pre.length⟩).2.readAll (counts.map Int.ofNat) = (.ok (d ++ ds.flatten), f) ∧
      f.closeFrame.1 = .ok () ∧ f.closeFrame.2.s.pos = w.length := by
  intro w
  have hw : w = pre ++ frame (d ++ ds.flatten) := (C14_write pre d ds hl).2.2
  rw [hw, List.append_assoc]
  obtain ⟨_, f, h1, h2, h3⟩ := C14_read pre (d ++ ds.flatten) rest hl counts (by omega)
  refine ⟨f, ?_, h2, by rw [h3]⟩
  rw [h1, hc, List.take_length]

example : ((Frm.init ⟨[7], 1⟩).2.writeAll [[1, 2], [], [3]]).2.s.buf = [7] ++ frame [1, 2, 3] := by decide

/-- Asking for more than the payload when something follows the frame gives bytes that do not belong
to the payload (`available` counts to the end of the stream, PacketFramingStream.py:145-150). -/
theorem C14_false_overread : ∃ f, (Frm.init ⟨frame [1, 2] ++ frame [3], 0⟩).2.readAll [6]
    = (.ok [1, 2, 5, 22, 1, 244], f) := by
  refine ⟨((Frm.init ⟨frame [1, 2] ++ frame [3], 0⟩).2.readAll [6]).2, ?_⟩
  rfl

/-! ## Closing a frame that is not complete -/

/-- What stays true of an adapter opened at a proper prefix of `frame p`. -/
structure Incomplete (p : Bytes) (f : Frm) : Prop where
  len : f.s.buf.length < f.start + (frame p).length
  bytes : f.start ≤ f.s.buf.length ∧ (f.s.buf.drop f.start) <+: frame p
  notEnd : f.endChecked = false
  size : f.startChecked = true → f.size = some p.length
  noSize : f.startChecked = false → f.size = none

theorem Incomplete.checkStart {p : Bytes} (hp : p.length < 2 ^ 32) {f : Frm} (h : Incomplete p f) :
    Incomplete p f.checkStart.2 := by
  unfold Frm.checkStart
  by_cases hs : f.startChecked = true
  · rw [if_pos hs]; exact h
  · rw [if_neg hs]
    dsimp only
    by_cases ha : (f.goto f.start).rawAvailable < 12
    · rw [if_pos ha]
      exact ⟨h.len, h.bytes, h.notEnd, fun hc => absurd hc hs, fun _ => rfl⟩
    · rw [if_neg ha]
      have ha' : 12 ≤ (f.s.buf.drop f.start).length := by
        simp only [Frm.rawAvailable, Frm.goto] at ha
        rw [List.length_drop]; omega
      have hpfx : (f.goto f.start).s.peek 12 = framePrefix p.length := by
        obtain ⟨t, ht⟩ := h.bytes.2
        have h1 : (f.s.buf.drop f.start).take 12 = (frame p).take 12 := by
          rw [← ht, List.take_append_of_le_length ha']
        have h2 : (frame p).take 12 = framePrefix p.length := by
          unfold frame
          rw [List.append_assoc]
          exact List.take_left' (by simp [framePrefix, MAGIC])
        rw [← h2, ← h1]
        simp only [Bio.peek, Frm.goto]
        rfl
      rw [hpfx]
      have e1 : (framePrefix p.length).take 4 = MAGIC := rfl
      have e2 : ((framePrefix p.length).drop 4).take 4 = beEnc 4 p.length := by
        simp [framePrefix, MAGIC, beEnc]
      have e3 : ((framePrefix p.length).drop 8).take 4 = beEnc 4 (adler32 (MAGIC ++ beEnc 4 p.length)) := by
        simp [framePrefix, MAGIC, beEnc]
      rw [e1, e2, e3]
      have e4 : beDec (beEnc 4 p.length) = p.length := beDec_beEnc_lt hp
      split
      · exact ⟨h.len, h.bytes, h.notEnd, fun hc => absurd hc hs, fun hc => h.noSize hc⟩
      · split
        · exact ⟨h.len, h.bytes, h.notEnd, fun hc => absurd hc hs, fun hc => h.noSize hc⟩
        · rw [e4]
          exact ⟨h.len, h.bytes, h.notEnd, fun _ => rfl, fun hc => by cases hc⟩

theorem Incomplete.checkEnd {p : Bytes} {f : Frm} (h : Incomplete p f) : f.checkEnd = (.ok (), f) := by
  unfold Frm.checkEnd
  cases hsz : f.size with
  | none => rfl
  | some n =>
    dsimp only
    rw [if_neg (by rw [h.notEnd]; simp)]
    have hn : n = p.length := by
      cases hc : f.startChecked with
      | false => rw [h.noSize hc] at hsz; cases hsz
      | true => rw [h.size hc] at hsz; cases hsz; rfl
    rw [if_pos]
    have := h.len
    rw [frame_length] at this
    simp only [Frm.rawSize]
    omega

theorem Incomplete.check {p : Bytes} (hp : p.length < 2 ^ 32) {f : Frm} (h : Incomplete p f) :
    Incomplete p f.check.2 := by
  have h1 := h.checkStart hp
  unfold Frm.check
  split
  · next heq => rw [heq] at h1; exact h1
  · next heq => rw [heq] at h1; rw [h1.checkEnd]; exact h1

theorem Incomplete.moved {p : Bytes} {f : Frm} (h : Incomplete p f) (s : Bio) (hs : s.buf = f.s.buf) :
    Incomplete p { f with s := s } :=
  ⟨by dsimp only; rw [hs]; exact h.len, by dsimp only; rw [hs]; exact h.bytes, h.notEnd, h.size, h.noSize⟩

theorem Incomplete.read {p : Bytes} (hp : p.length < 2 ^ 32) {f : Frm} (h : Incomplete p f) (n : Int) :
    Incomplete p (f.read n).2 := by
  have h1 := h.check hp
  unfold Frm.read
  split
  · next heq => rw [heq] at h1; exact h1
  · next g heq =>
    rw [heq] at h1
    dsimp only at h1 ⊢
    split
    · exact h1.moved _ rfl
    · repeat' split
      all_goals first | exact h1 | exact h1.moved _ rfl

theorem Incomplete.all {p : Bytes} (hp : p.length < 2 ^ 32) : ∀ (ns : List Int) (f : Frm), Incomplete p f →
    Incomplete p (f.readAll ns).2
  | [], f, h => h
  | n :: ns, f, h => by
    have h1 := h.read hp n
    unfold Frm.readAll
    split
    · next heq => rw [heq] at h1; exact h1
    · next heq =>
      rw [heq] at h1
      have h2 := Incomplete.all hp ns _ h1
      split
      · next heq2 => rw [heq2] at h2; exact h2
      · next heq2 => rw [heq2] at h2; exact h2

/-- C15. As long as only a part of the frame is there, `closeFrame` raises, whatever was read (or
attempted) before. -/
theorem C15_close_incomplete (pre p : Bytes) (hp : p.length < 2 ^ 32) (k : Nat) (hk : k < (frame p).length)
    (counts : List Int) :
    ((Frm.init ⟨pre ++ (frame p).take k, pre.length⟩).2.readAll counts).2.closeFrame.1 = .error .frame := by
  have h0 : Incomplete p ⟨⟨pre ++ (frame p).take k, pre.length⟩, pre.length, false, false, none⟩ := by
    refine ⟨by simp only [List.length_append, List.length_take]; omega, ⟨by simp, ?_⟩, rfl, fun h => (by cases h), fun _ => rfl⟩
    dsimp only
    rw [List.drop_left]
    exact List.take_prefix _ _
  have h1 := Incomplete.all hp counts _ (h0.check hp)
  unfold Frm.init
  unfold Frm.closeFrame
  rw [if_pos h1.notEnd]

example : ((Frm.init ⟨[7] ++ (frame [1, 2, 3]).take 20, 1⟩).2.readAll [2]).2.closeFrame.1 = .error .frame :=
  C15_close_incomplete [7] [1, 2, 3] (by decide) 20 (by decide) [2]

end Verif
