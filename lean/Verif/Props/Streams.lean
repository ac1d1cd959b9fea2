import Verif.Spec.Stream
/-! # C23, C24: the update streams -/
namespace Verif

theorem Bio.update_eq {s : Bio} (d : Bytes) : s.update d = ⟨s.buf ++ d, s.pos⟩ := by
  unfold Bio.update Bio.write
  by_cases h : d = []
  · subst h; simp
  · simp only [if_neg h]
    simp

theorem Bio.read_eq (s : Bio) (n : Int) :
    s.read n = ((s.buf.drop s.pos).take (wanted n (s.buf.length - s.pos)),
      ⟨s.buf, s.pos + wanted n (s.buf.length - s.pos)⟩) := rfl

theorem Bio.peek_eq {s : Bio} (h : s.pos ≤ s.buf.length) {n : Int} (hn : n ≠ 0) :
    s.peek n = (s.buf.drop s.pos).take (wanted n (s.buf.length - s.pos)) := by
  unfold Bio.peek wanted Bio.available
  dsimp only
  by_cases h0 : n < 0
  · rw [if_pos (by omega), if_pos h0]
    congr 1; omega
  · rw [if_neg (by omega), if_neg h0]
    have : (s.buf.drop s.pos).length = s.buf.length - s.pos := by simp
    rw [← this, Nat.min_def]
    split
    · rfl
    · rw [List.take_length, List.take_of_length_le (by omega)]

/-- C23. Every history of `update`, `read(n)` and `peek(n)` (`n ≠ 0` for peek) on the standard stream
has exactly the results of a queue of bytes, and leaves the queue's contents. -/
theorem C23_refines_fifo : ∀ (ops : List SOp) (s : Bio), s.pos ≤ s.buf.length →
    (∀ n, SOp.peek n ∈ ops → n ≠ 0) →
    (s.ops ops).1 = (fifo (s.buf.drop s.pos) ops).1 ∧
    (s.ops ops).2.buf.drop (s.ops ops).2.pos = (fifo (s.buf.drop s.pos) ops).2 := by
  intro ops
  induction ops with
  | nil => intro s _ _; exact ⟨rfl, rfl⟩
  | cons op ops ih =>
    intro s hs hp
    have hp' : ∀ n, SOp.peek n ∈ ops → n ≠ 0 := fun n h => hp n (List.mem_cons_of_mem _ h)
    cases op with
    | update d =>
      rw [Bio.ops, fifo, Bio.update_eq]
      have := ih ⟨s.buf ++ d, s.pos⟩ (by simp only [List.length_append]; omega) hp'
      simpa [List.drop_append_of_le_length hs] using this
    | read n =>
      have hw : wanted n (s.buf.length - s.pos) ≤ s.buf.length - s.pos := by
        unfold wanted; split
        · exact Nat.le_refl _
        · exact Nat.min_le_right _ _
      have := ih ⟨s.buf, s.pos + wanted n (s.buf.length - s.pos)⟩ (by simp only; omega) hp'
      simp only [Bio.ops, fifo, Bio.read_eq, List.length_drop]
      simp only [List.drop_drop]
      exact ⟨by rw [this.1], this.2⟩
    | peek n =>
      have := ih s hs hp'
      simp only [Bio.ops, fifo, List.length_drop]
      rw [Bio.peek_eq hs (hp n (by simp)), this.1]
      exact ⟨rfl, this.2⟩

theorem fifo_conserves : ∀ (ops : List SOp) (q : Bytes),
    readResults ops (fifo q ops).1 ++ (fifo q ops).2 = q ++ updated ops := by
  intro ops
  induction ops with
  | nil => intro q; simp [fifo, updated, readResults]
  | cons op ops ih =>
    intro q
    cases op with
    | update d => simp only [fifo, readResults, updated]; rw [ih]; simp
    | read n =>
      simp only [fifo, readResults, updated, List.append_assoc]
      rw [ih, ← List.append_assoc, List.take_append_drop]
    | peek n => simp only [fifo, readResults, updated]; rw [ih]

/-- C23. Nothing is lost, duplicated or reordered: what the reads returned followed by what is left
is what the stream contained followed by all updates. -/
theorem C23_conservation (initial : Bytes) (ops : List SOp) (hp : ∀ n, SOp.peek n ∈ ops → n ≠ 0) :
    readResults ops (Bio.ops ⟨initial, 0⟩ ops).1 ++
      (Bio.ops ⟨initial, 0⟩ ops).2.buf.drop (Bio.ops ⟨initial, 0⟩ ops).2.pos = initial ++ updated ops := by
  have h := C23_refines_fifo ops ⟨initial, 0⟩ (Nat.zero_le _) hp
  rw [h.1, h.2]
  simpa using fifo_conserves ops initial

/-- C23. `peek(n)`, `n ≠ 0`, returns what `read(n)` would return. -/
theorem C23_peek_is_next_read {s : Bio} (h : s.pos ≤ s.buf.length) {n : Int} (hn : n ≠ 0) :
    s.peek n = (s.read n).1 := by rw [Bio.peek_eq h hn, Bio.read_eq]

/-- `peek(0)` however returns everything while `read(0)` returns nothing. -/
theorem C23_peek_zero (s : Bio) :
    s.peek 0 = s.buf.drop s.pos ∧ (s.read 0).1 = [] := by
  refine ⟨?_, by simp [Bio.read]⟩
  unfold Bio.peek Bio.available
  simp only [Int.le_refl, if_true]
  apply List.take_of_length_le; simp

example : (∀ n, SOp.peek n ∈ [SOp.update [1, 2, 3], .peek 2, .read 1, .update [4], .read (-1)] → n ≠ 0) ∧
    (Bio.ops ⟨[], 0⟩ [SOp.update [1, 2, 3], .peek 2, .read 1, .update [4], .read (-1)]).1
      = [[1, 2], [1], [2, 3, 4]] := ⟨by simp, by decide⟩

/-! ## C24 -/

/-- C24 is false: a read that crosses a buffer boundary returns bytes of the first buffer twice. -/
theorem C24_false_boundary :
    (MinCopy.ops (.init none) [.update [1, 2], .update [3, 4], .read 3]).1 = [some [1, 2, 1]] ∧
    (Bio.ops ⟨[], 0⟩ [.update [1, 2], .update [3, 4], .read 3]).1 = [[1, 2, 3]] := by decide

/-- C24 is false already on an empty stream: `read()` returns the string `''` instead of `b''`. -/
theorem C24_false_empty :
    (MinCopy.ops (.init none) [.read (-1)]).1 = [none] ∧ (Bio.ops ⟨[], 0⟩ [.read (-1)]).1 = [[]] := by decide

/-- A read or peek stays within the first non-empty buffer: it asks for everything (`-1`), or for
between one byte and the rest of that buffer. -/
def MinCopy.inBuffer (s : MinCopy) (n : Int) : Prop :=
  n < 0 ∨ (0 < n ∧ match s.locate s.pos with
    | none => True
    | some (i, off) => n ≤ (((s.bufs[i]?).map (·.2.length)).getD 0 : Nat) - (off : Int))

/-- Every read and peek of the history stays within a buffer. -/
def MinCopy.Within : MinCopy → List SOp → Prop
  | _, [] => True
  | s, .update d :: ops => MinCopy.Within (s.update d) ops
  | s, .read n :: ops => s.inBuffer n ∧ MinCopy.Within (s.read n).2 ops
  | s, .peek n :: ops => s.inBuffer n ∧ MinCopy.Within s ops

/-- The buffers lie one behind the other from `base` to `streamEnd`. -/
def contig : Nat → List (Nat × Bytes) → Nat → Prop
  | base, [], e => base = e
  | base, (bp, b) :: r, e => bp = base ∧ contig (base + b.length) r e

def joined (l : List (Nat × Bytes)) : Bytes := (l.map (·.2)).flatten

theorem contig_len {l : List (Nat × Bytes)} : ∀ {base e}, contig base l e → e = base + (joined l).length := by
  induction l with
  | nil => intro base e h; simp [contig, joined] at *; omega
  | cons x l ih =>
    obtain ⟨bp, b⟩ := x
    intro base e h
    have := ih h.2
    simp only [joined, List.map_cons, List.flatten_cons, List.length_append] at this ⊢
    omega

theorem contig_snoc {l : List (Nat × Bytes)} {d : Bytes} : ∀ {base e}, contig base l e →
    contig base (l ++ [(e, d)]) (e + d.length) := by
  induction l with
  | nil => intro base e h; cases h; exact ⟨rfl, rfl⟩
  | cons x l ih => intro base e h; exact ⟨h.1, ih h.2⟩

/-- What the search finds: the buffer holding the position, or nothing at the end of the stream. -/
theorem findBuf_spec {l : List (Nat × Bytes)} : ∀ {base e p i}, contig base l e → base ≤ p → p ≤ e →
    (p = e ∧ MinCopy.findBuf p l i = none) ∨
    (∃ k off b bp, MinCopy.findBuf p l i = some (i + k, off) ∧ l[k]? = some (bp, b) ∧ off < b.length ∧
      bp + off = p ∧ contig bp (l.drop k) e ∧
      (joined l).drop (p - base) = b.drop off ++ joined (l.drop (k + 1))) := by
  induction l with
  | nil => intro base e p i h h1 h2; left; cases h; exact ⟨by omega, rfl⟩
  | cons x l ih =>
    obtain ⟨bp, b⟩ := x
    intro base e p i h h1 h2
    obtain ⟨rfl, h⟩ := h
    rw [MinCopy.findBuf]
    by_cases hb : bp + b.length > p
    · right
      rw [if_pos hb]
      refine ⟨0, p - bp, b, bp, rfl, rfl, by omega, by omega, ⟨rfl, h⟩, ?_⟩
      simp only [joined, List.map_cons, List.flatten_cons, List.drop_succ_cons, List.drop_zero]
      rw [List.drop_append_of_le_length (by omega)]
    · rw [if_neg hb]
      rcases ih (i := i + 1) h (by omega) h2 with ⟨h3, h4⟩ | ⟨k, off, b', bp', h3, h4, h5, h6, h7, h8⟩
      · exact .inl ⟨h3, h4⟩
      · right
        refine ⟨k + 1, off, b', bp', by rw [h3]; congr 2; omega, by simpa using h4, h5, h6,
          by simpa using h7, ?_⟩
        simp only [joined, List.map_cons, List.flatten_cons, List.drop_succ_cons]
        rw [List.drop_append, List.drop_eq_nil_of_le (by omega), List.nil_append]
        have : p - bp - b.length = p - (bp + b.length) := by omega
        rw [this]; exact h8

/-- The minimum copying stream holds the queue `q`. -/
def Holds (s : MinCopy) (q : Bytes) : Prop :=
  ∃ base, contig base s.bufs s.streamEnd ∧ base ≤ s.pos ∧ s.pos ≤ s.streamEnd ∧
    q = (joined s.bufs).drop (s.pos - base)

theorem Holds.locate {s : MinCopy} {q : Bytes} (h : Holds s q) :
    (q = [] ∧ s.locate s.pos = none ∧ s.pos = s.streamEnd) ∨
    (∃ k off b bp, s.locate s.pos = some (k, off) ∧ s.bufs[k]? = some (bp, b) ∧ off < b.length ∧
      bp + off = s.pos ∧ contig bp (s.bufs.drop k) s.streamEnd ∧
      q = b.drop off ++ joined (s.bufs.drop (k + 1))) := by
  obtain ⟨base, h1, h2, h3, rfl⟩ := h
  have hlen := contig_len h1
  unfold MinCopy.locate
  cases hb : s.bufs with
  | nil =>
    left
    rw [hb] at h1
    simp only [contig] at h1
    exact ⟨by simp [joined], rfl, by omega⟩
  | cons x l =>
    obtain ⟨bp, b⟩ := x
    have e : bp = base := by rw [hb] at h1; exact h1.1
    dsimp only
    rw [if_neg (by omega), ← hb]
    rcases findBuf_spec (i := 0) h1 h2 h3 with ⟨h4, h5⟩ | ⟨k, off, b', bp', h4, h5, h6, h7, h8, h9⟩
    · exact .inl ⟨List.drop_eq_nil_of_le (by omega), h5, h4⟩
    · exact .inr ⟨k, off, b', bp', by simpa using h4, h5, h6, h7, h8, h9⟩

theorem Holds.length {s : MinCopy} {q : Bytes} (h : Holds s q) : s.streamEnd = s.pos + q.length := by
  obtain ⟨base, h1, h2, h3, rfl⟩ := h
  have := contig_len h1
  simp only [List.length_drop]; omega

theorem gather_zero (l : List (Nat × Bytes)) : MinCopy.gather l 0 = [] := by
  cases l <;> simp [MinCopy.gather]

theorem Holds.peek {s : MinCopy} {q : Bytes} (h : Holds s q) {n : Int} (hn : s.inBuffer n) :
    (s.peek n).getD [] = q.take (wanted n q.length) := by
  have hlen := h.length
  unfold MinCopy.peek
  rcases h.locate with ⟨rfl, h1, _⟩ | ⟨k, off, b, bp, h1, h2, h3, h4, h5, h6⟩
  · rw [h1]; simp
  · rw [h1]
    dsimp only
    rw [h2]
    simp only [Option.map_some, Option.getD_some]
    by_cases h0 : n < 0
    · rw [if_pos h0, Option.getD_some, wanted, if_pos h0, List.take_length, h6]; rfl
    · rcases hn with hn | ⟨hp, hn⟩
      · omega
      · rw [h1] at hn
        simp only [h2, Option.map_some, Option.getD_some] at hn
        have hq : n.toNat ≤ (b.drop off).length := by simp; omega
        have hav : n ≤ s.available := by
          unfold MinCopy.available
          have := congrArg List.length h6
          simp only [List.length_append] at this
          omega
        rw [if_neg h0, if_pos ⟨hav, by omega⟩, Option.getD_some]
        have hl : ((b.drop off).take n.toNat).length = n.toNat := by rw [List.length_take]; omega
        rw [hl, Nat.sub_self, gather_zero, List.append_nil, wanted, if_neg h0, h6,
          Nat.min_eq_left (by simp only [List.length_append]; omega),
          List.take_append_of_le_length hq]

theorem Holds.read {s : MinCopy} {q : Bytes} (h : Holds s q) {n : Int} (hn : s.inBuffer n) :
    Holds (s.read n).2 (q.drop (wanted n q.length)) := by
  have hp := h.peek hn
  have hlen := h.length
  have hw : wanted n q.length ≤ q.length := by
    unfold wanted; split
    · exact Nat.le_refl _
    · exact Nat.min_le_right _ _
  have hl : ((s.peek n).getD []).length = wanted n q.length := by
    rw [hp, List.length_take, Nat.min_eq_left hw]
  unfold MinCopy.read
  dsimp only
  rw [hl]
  have h' : Holds ⟨s.bufs, s.streamEnd, s.pos + wanted n q.length⟩ (q.drop (wanted n q.length)) := by
    obtain ⟨base, h1, h2, h3, h4⟩ := h
    refine ⟨base, h1, by simp only; omega, by simp only; omega, ?_⟩
    simp only
    rw [h4, List.drop_drop]
    congr 1; omega
  rcases h'.locate with ⟨h1, h2, h3⟩ | ⟨k, off, b, bp, h1, h2, h3, h4, h5, h6⟩
  · simp only at h2 h3
    rw [h2]
    exact ⟨s.pos + wanted n q.length, h3, Nat.le_refl _, by simp only; omega, by rw [h1]; simp [joined]⟩
  · simp only at h1 h2 h4 h5 h6
    rw [h1]
    have hk : k < s.bufs.length := (List.getElem?_eq_some_iff.mp h2).1
    refine ⟨bp, h5, by simp only; omega, by simp only; omega, ?_⟩
    simp only
    have hd : s.bufs.drop k = (bp, b) :: s.bufs.drop (k + 1) := by
      rw [List.drop_eq_getElem_cons hk, (List.getElem?_eq_some_iff.mp h2).2]
    rw [h6, hd]
    simp only [joined, List.map_cons, List.flatten_cons]
    rw [← h4, Nat.add_sub_cancel_left, List.drop_append_of_le_length (by omega)]

theorem Holds.update {s : MinCopy} {q : Bytes} (h : Holds s q) (d : Bytes) :
    Holds (s.update d) (q ++ d) := by
  have hlen := h.length
  obtain ⟨base, h1, h2, h3, h4⟩ := h
  refine ⟨base, contig_snoc h1, h2, by simp only [MinCopy.update]; omega, ?_⟩
  have := contig_len h1
  simp only [MinCopy.update, joined, List.map_append, List.map_cons, List.map_nil, List.flatten_append,
    List.flatten_cons, List.flatten_nil, List.append_nil]
  rw [List.drop_append_of_le_length (by simp only [joined] at this; omega), h4, joined]

theorem mincopy_fifo : ∀ (ops : List SOp) (s : MinCopy) (q : Bytes), Holds s q → s.Within ops →
    ((s.ops ops).1.map fun r => r.getD []) = (fifo q ops).1 ∧ Holds (s.ops ops).2 (fifo q ops).2 := by
  intro ops
  induction ops with
  | nil => intro s q h _; exact ⟨rfl, h⟩
  | cons op ops ih =>
    intro s q h hw
    cases op with
    | update d =>
      rw [MinCopy.ops, fifo]
      exact ih _ _ (h.update d) hw
    | read n =>
      have := ih _ _ (h.read hw.1) hw.2
      simp only [MinCopy.ops, fifo, List.map_cons]
      refine ⟨?_, this.2⟩
      rw [this.1]
      congr 1
      exact h.peek hw.1
    | peek n =>
      have := ih _ _ h hw.2
      simp only [MinCopy.ops, fifo, List.map_cons]
      refine ⟨?_, this.2⟩
      rw [this.1, h.peek hw.1]

theorem wanted_nonneg {ops : List SOp} : ∀ {s : MinCopy}, s.Within ops → ∀ n, SOp.peek n ∈ ops → n ≠ 0 := by
  induction ops with
  | nil => intro s _ n h; cases h
  | cons op ops ih =>
    intro s hw n h
    cases op with
    | update d =>
      rcases List.mem_cons.mp h with h | h
      · cases h
      · exact ih hw n h
    | read m =>
      rcases List.mem_cons.mp h with h | h
      · cases h
      · exact ih hw.2 n h
    | peek m =>
      rcases List.mem_cons.mp h with h | h
      · cases h
        rcases hw.1 with h | h <;> omega
      · exact ih hw.2 n h

/-- C24, proved part: as long as no sized read or peek crosses a buffer boundary (and none asks for 0
bytes), the minimum copying stream returns the same bytes as the standard one. Missing: reads across
boundaries, `read(0)`, where the claim is false; and `''` is identified with `b''`. -/
theorem C24_within_buffers_partial (initial : Bytes) (ops : List SOp)
    (hw : (MinCopy.init (some initial)).Within ops) :
    (((MinCopy.init (some initial)).ops ops).1.map fun r => r.getD []) = (Bio.ops ⟨initial, 0⟩ ops).1 := by
  have hh : Holds (MinCopy.init (some initial)) initial := by
    refine ⟨0, ⟨rfl, by simp [contig, MinCopy.init]⟩, Nat.zero_le _, Nat.zero_le _, ?_⟩
    simp [MinCopy.init, joined]
  have h1 := mincopy_fifo ops _ _ hh hw
  have h2 := C23_refines_fifo ops ⟨initial, 0⟩ (Nat.zero_le _) (wanted_nonneg hw)
  rw [h1.1, h2.1]; rfl

example : (MinCopy.init (some [1, 2, 3])).Within [.read 2, .update [4, 5], .read 1, .update [6], .read 2,
    .peek (-1), .read (-1)] := by
  simp [MinCopy.Within, MinCopy.inBuffer, MinCopy.init, MinCopy.locate, MinCopy.findBuf, MinCopy.read,
    MinCopy.peek, MinCopy.available, MinCopy.update, MinCopy.gather]

end Verif
