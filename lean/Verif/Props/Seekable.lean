import Verif.Spec.Seekable
/-! # C99: a seekable stream is a file -/
namespace Verif.Seekable
open Verif (MinCopy)

/-- How the buffers of a stream lie, the first one at `st`. -/
def layout : Nat → List Bytes → List (Nat × Bytes)
  | _, [] => []
  | st, c :: r => (st, c) :: layout (st + c.length) r

theorem layout_snoc (d : Bytes) : ∀ (cs : List Bytes) (st : Nat),
    layout st (cs ++ [d]) = layout st cs ++ [(st + cs.flatten.length, d)]
  | [], st => by simp [layout]
  | c :: r, st => by simp [layout, layout_snoc d r, Nat.add_assoc]

theorem layout_snd : ∀ (cs : List Bytes) (st : Nat), (layout st cs).map (·.2) = cs
  | [], _ => rfl
  | c :: r, st => by simp [layout, layout_snd r]

theorem layout_nil {st : Nat} {cs : List Bytes} : layout st cs = [] ↔ cs = [] := by
  cases cs <;> simp [layout]

theorem gather_layout : ∀ (cs : List Bytes) (st n : Nat), MinCopy.gather (layout st cs) n = cs.flatten.take n
  | [], st, n => by simp [layout, MinCopy.gather]
  | c :: r, st, n => by
    unfold layout MinCopy.gather
    rcases Nat.eq_zero_or_pos n with h | h
    · simp [h]
    · rw [if_neg (Nat.ne_of_gt h)]
      simp only [gather_layout r, List.flatten_cons, List.take_append]
      split
      · next h2 => rw [List.take_of_length_le (Nat.le_of_lt h2)]
      · next h2 => simp only [List.length_take]; rw [Nat.min_eq_left (by omega)]; simp; omega

theorem find_layout (pos : Nat) : ∀ (cs : List Bytes) (st i : Nat), st ≤ pos →
    (chunkAt pos cs st = none ∧ MinCopy.findBuf pos (layout st cs) i = none ∧ st + cs.flatten.length ≤ pos) ∨
    ∃ l c r, cs = l ++ c :: r ∧ chunkAt pos cs st = some (st + l.flatten.length, st + l.flatten.length + c.length) ∧
      MinCopy.findBuf pos (layout st cs) i = some (i + l.length, pos - (st + l.flatten.length)) ∧
      st + l.flatten.length ≤ pos ∧ pos < st + l.flatten.length + c.length
  | [], st, i, h => by left; exact ⟨rfl, rfl, by simpa using h⟩
  | c :: r, st, i, h => by
    unfold chunkAt layout MinCopy.findBuf
    by_cases hc : pos < st + c.length
    · right
      refine ⟨[], c, r, rfl, ?_, ?_, by simpa using h, by simpa using hc⟩
      · simp [hc]
      · simp [hc]
    · rw [if_neg hc, if_neg (by omega)]
      rcases find_layout pos r (st + c.length) (i + 1) (by omega) with ⟨h1, h2, h3⟩ | ⟨l, c', r', h1, h2, h3, h4, h5⟩
      · left; exact ⟨h1, h2, by simp only [List.flatten_cons, List.length_append]; omega⟩
      · right
        refine ⟨c :: l, c', r', by rw [h1]; rfl, ?_, ?_, ?_, ?_⟩
        · rw [h2]; simp [Nat.add_assoc]
        · rw [h3]; simp [Nat.add_assoc, Nat.add_comm, Nat.add_left_comm]
        · simp only [List.flatten_cons, List.length_append]; omega
        · simp only [List.flatten_cons, List.length_append]; omega

/-- The stream holds these chunks. -/
structure Holds (s : Stream) (cs : List Bytes) : Prop where
  bufs : s.bufs = layout 0 cs
  len : s.streamEnd = cs.flatten.length

theorem Holds.locate {s : Stream} {cs : List Bytes} (h : Holds s cs) (hp : 0 ≤ s.pos) :
    Seekable.locate s = MinCopy.findBuf s.pos.toNat (layout 0 cs) 0 := by
  unfold Seekable.locate MinCopy.locate
  rw [if_neg (by omega)]
  simp only [h.bufs]
  cases cs with
  | nil => rfl
  | cons c r => simp [layout]

/-- What `peek` gives wherever the stream stands: the rest of the chunk, and if that is not enough, bytes from the *beginning*. -/
theorem Holds.peek {s : Stream} {cs : List Bytes} (h : Holds s cs) (hp : 0 ≤ s.pos) (n : Int) :
    Seekable.peek s n = match chunkAt s.pos.toNat cs 0 with
      | none => none
      | some (_, e) =>
        some (if n < 0 then cs.flatten.drop s.pos.toNat
          else (cs.flatten.drop s.pos.toNat).take (min (clip s n).toNat (e - s.pos.toNat)) ++
            cs.flatten.take ((clip s n).toNat - (e - s.pos.toNat))) := by
  unfold Seekable.peek
  rw [h.locate hp]
  rcases find_layout s.pos.toNat cs 0 0 (Nat.zero_le _) with ⟨h1, h2, _⟩ | ⟨l, c, r, h1, h2, h3, h4, h5⟩
  · rw [h1, h2]
  · rw [h2, h3]
    have hfirst : ((s.bufs[0 + l.length]?).map (·.2)).getD [] = c := by
      have : (s.bufs.map (·.2))[0 + l.length]? = some c := by
        rw [h.bufs, layout_snd, h1]; simp
      rw [List.getElem?_map] at this
      rw [this]; rfl
    have hrest : ((s.bufs.drop (0 + l.length + 1)).map (·.2)) = r := by
      rw [List.map_drop, h.bufs, layout_snd, h1]; simp
    dsimp only
    rw [hfirst, hrest, h.bufs, gather_layout]
    generalize hk : (clip s n).toNat = k
    have hd : cs.flatten.drop s.pos.toNat = c.drop (s.pos.toNat - (0 + l.flatten.length)) ++ r.flatten := by
      rw [h1]; simp only [List.flatten_append, List.flatten_cons]
      rw [List.drop_append, List.drop_of_length_le (by omega), List.drop_append_of_le_length (by omega)]
      simp
    rw [hd]
    have hl : (c.drop (s.pos.toNat - (0 + l.flatten.length))).length = 0 + l.flatten.length + c.length - s.pos.toNat := by
      rw [List.length_drop]; omega
    by_cases hn : n < 0
    · simp [hn]
    · rw [if_neg hn, if_neg hn]
      congr 2
      · rw [List.take_append_of_le_length (by omega)]
        apply List.ext_getElem?
        intro j
        simp only [List.getElem?_take]
        split
        · next hj =>
          split
          · rfl
          · next hj2 =>
            rw [List.getElem?_eq_none (by omega)]
        · next hj => rw [if_neg (by omega)]
      · congr 1
        rw [List.length_take]; omega

theorem chunkAt_some {pos : Nat} {cs : List Bytes} {a e : Nat} (h : chunkAt pos cs 0 = some (a, e)) :
    a ≤ pos ∧ pos < e ∧ e ≤ cs.flatten.length := by
  rcases find_layout pos cs 0 0 (Nat.zero_le _) with ⟨h1, _, _⟩ | ⟨l, c, r, h1, h2, _, h4, h5⟩
  · rw [h1] at h; exact nomatch h
  · rw [h2] at h; injection h with h; injection h with ha he
    subst ha he
    refine ⟨h4, h5, ?_⟩
    rw [h1]; simp [List.length_append]

theorem chunkAt_none {pos : Nat} {cs : List Bytes} : chunkAt pos cs 0 = none ↔ cs.flatten.length ≤ pos := by
  rcases find_layout pos cs 0 0 (Nat.zero_le _) with ⟨h1, _, h3⟩ | ⟨l, c, r, h1, h2, _, h4, h5⟩
  · exact ⟨fun _ => by simpa using h3, fun _ => h1⟩
  · have := (chunkAt_some h2).2
    rw [h2]; constructor
    · exact fun h => nomatch h
    · intro h; omega

/-- The stream and the file. -/
structure Rel (f : File) (s : Stream) : Prop where
  closed : s.closed = f.closed
  holds : f.closed = false → Holds s f.chunks ∧ s.pos = f.pos

theorem Rel.init (b : Option Bytes) : Rel (File.init b) (Seekable.init b) := by
  cases b with
  | none => exact ⟨rfl, fun _ => ⟨⟨rfl, rfl⟩, rfl⟩⟩
  | some b => exact ⟨rfl, fun _ => ⟨⟨by simp [Seekable.init, File.init, layout], by simp [Seekable.init, File.init]⟩, rfl⟩⟩

theorem Rel.peek {f : File} {s : Stream} (h : Rel f s) {n : Int} (hf : f.fine (.peek n)) :
    (Seekable.peek s n).getD [] = f.get n ∧ same (.data (f.get n)) (out (Seekable.peek s n)) := by
  obtain ⟨hc, hn⟩ := hf
  obtain ⟨hh, hpos⟩ := h.holds hc
  have hp : 0 ≤ s.pos := by omega
  have hpn : s.pos.toNat = f.pos := by omega
  rw [hh.peek hp n, hpn]
  cases ha : chunkAt f.pos f.chunks 0 with
  | none =>
    have := chunkAt_none.1 ha
    have hg : f.get n = [] := by
      unfold File.get File.contents
      split
      · exact List.drop_of_length_le this
      · rw [List.drop_of_length_le this]; simp
    rw [hg]; exact ⟨rfl, trivial⟩
  | some ae =>
    obtain ⟨a, e⟩ := ae
    obtain ⟨h1, h2, h3⟩ := chunkAt_some ha
    dsimp only
    have hlen : f.contents.length = f.chunks.flatten.length := rfl
    have key : (if n < 0 then f.chunks.flatten.drop f.pos
          else (f.chunks.flatten.drop f.pos).take (min (clip s n).toNat (e - f.pos)) ++
            f.chunks.flatten.take ((clip s n).toNat - (e - f.pos))) = f.get n := by
      unfold File.get File.contents
      by_cases hneg : n < 0
      · simp [hneg]
      · rw [if_neg hneg, if_neg hneg]
        rcases hn with hn | hn | ⟨hn, hone⟩
        · omega
        · omega
        · have := hone a e ha
          have hcl : (clip s n).toNat = min n.toNat (f.chunks.flatten.length - f.pos) := by
            unfold clip available
            rw [hh.len]
            split <;> omega
          rw [hcl]
          rw [show min n.toNat (f.chunks.flatten.length - f.pos) - (e - f.pos) = 0 by omega]
          simp only [List.take_zero, List.append_nil]
          rw [show min (min n.toNat (f.chunks.flatten.length - f.pos)) (e - f.pos)
              = min n.toNat (f.chunks.flatten.drop f.pos).length by rw [List.length_drop]; omega]
          exact (List.take_eq_take_min ..).symm
    rw [key]
    refine ⟨rfl, ?_⟩
    show same _ (.data _)
    unfold same; split <;> simp_all

theorem same_refl (o : Out) : same o o := by unfold same; split <;> simp_all

theorem Rel.step {f : File} {s : Stream} (h : Rel f s) {o : Op} (hf : f.fine o) :
    same (f.step o).1 (Seekable.step s o).1 ∧ Rel (f.step o).2 (Seekable.step s o).2 := by
  unfold File.step
  by_cases hc : f.closed = true
  · rw [if_pos hc]
    have hs : s.closed = true := by rw [h.closed, hc]
    cases o with
    | update d => exact absurd hf (by simp [File.fine, hc])
    | read n => exact absurd hf.1 (by simp [hc])
    | peek n => exact absurd hf.1 (by simp [hc])
    | tell => exact absurd hf (by simp [File.fine, hc])
    | available => exact absurd hf (by simp [File.fine, hc])
    | seek o w =>
      simp only [Seekable.step, Seekable.seek, hs, if_true]
      exact ⟨same_refl _, h⟩
    | close => exact ⟨same_refl _, ⟨by simp [Seekable.step, hc], fun h' => by rw [hc] at h'; exact nomatch h'⟩⟩
  · rw [if_neg hc]
    have hc : f.closed = false := by simpa using hc
    have hs : s.closed = false := by rw [h.closed, hc]
    obtain ⟨hh, hpos⟩ := h.holds hc
    cases o with
    | update d =>
      refine ⟨same_refl _, ⟨h.closed, fun _ => ⟨⟨?_, ?_⟩, hpos⟩⟩⟩
      · simp only [Seekable.step]; rw [hh.bufs, hh.len, layout_snoc]; simp
      · simp only [Seekable.step]; rw [hh.len]; simp
    | peek n =>
      exact ⟨(h.peek hf).2, h⟩
    | read n =>
      have := h.peek (n := n) hf
      refine ⟨this.2, ⟨h.closed, fun _ => ⟨⟨hh.bufs, hh.len⟩, ?_⟩⟩⟩
      simp only [Seekable.step]; rw [this.1, hpos]; simp
    | tell => simp only [Seekable.step]; rw [hpos]; exact ⟨same_refl _, h⟩
    | available =>
      simp only [Seekable.step, Seekable.available]; rw [hpos, hh.len]; exact ⟨same_refl _, h⟩
    | close => exact ⟨same_refl _, ⟨rfl, fun h' => nomatch h'⟩⟩
    | seek o w =>
      have go : ∀ p : Nat, ∀ q : Int, q = p → Rel { f with pos := p } { s with pos := q, closed := false } := fun p q e =>
        ⟨hc.symm, fun _ => ⟨⟨hh.bufs, hh.len⟩, e⟩⟩
      have hlen : f.contents.length = f.chunks.flatten.length := rfl
      simp only [Seekable.step, Seekable.seek, hs, File.seek, File.target]
      rcases hf with hf | hf | ⟨hf, ho⟩ | ⟨hf, ho, hne⟩ | ⟨h0, h1, h2⟩
      · rw [hc] at hf; exact nomatch hf
      · subst hf
        by_cases ho : o < 0
        · simp [ho, same_refl, h]
        · simp only [if_true, if_neg ho, Bool.false_eq_true, if_false]
          refine ⟨same_refl _, go _ _ ?_⟩; omega
      · subst hf ho
        simp only [Int.one_ne_zero, if_false, if_true, Bool.false_eq_true]
        rw [if_neg (by omega)]
        refine ⟨same_refl _, go _ _ ?_⟩; omega
      · subst hf
        simp only [show (2 : Int) ≠ 0 by decide, show (2 : Int) ≠ 1 by decide, if_false, if_true, Bool.false_eq_true]
        rw [if_neg (by omega)]
        refine ⟨same_refl _, go _ _ ?_⟩
        split
        · next hb =>
          have := layout_nil.1 (hh.bufs ▸ hb)
          rcases hne with hne | hne
          · exact absurd this hne
          · rw [hlen, this]; simp [hne]
        · rw [hh.len]; omega
      · simp only [h0, h1, h2, if_false, Bool.false_eq_true]
        exact ⟨same_refl _, h⟩

/-- C99: in every program whose calls are fine, the stream gives what a file gives, with `''` for no bytes. -/
theorem C99_file_partial (b : Option Bytes) (h : List Op) (hf : (File.init b).allFine h) :
    sameAll ((File.init b).run h).1 (run (init b) h).1 := by
  suffices ∀ (h : List Op) (f : File) (s : Stream), Rel f s → f.allFine h → sameAll (f.run h).1 (run s h).1 from
    this h _ _ (Rel.init b) hf
  intro h
  induction h with
  | nil => intro f s _ _; trivial
  | cons o h ih =>
    intro f s hr ha
    have := hr.step ha.1
    exact ⟨this.1, ih _ _ this.2 ha.2⟩

/-- What was put into the stream. -/
def chunksOf (b : Option Bytes) (h : List Op) : List Bytes :=
  b.toList ++ h.filterMap fun | .update d => some d | _ => none

theorem seek_same (s : Stream) (o w : Int) : (seek s o w).2.bufs = s.bufs ∧ (seek s o w).2.streamEnd = s.streamEnd ∧
    (seek s o w).2.closed = s.closed := by
  unfold seek
  repeat' split
  all_goals exact ⟨rfl, rfl, rfl⟩

theorem Holds.step {s : Stream} {cs : List Bytes} (h : Holds s cs) {o : Op} (ho : o ≠ .close) :
    Holds (Seekable.step s o).2 (cs ++ (([o] : List Op).filterMap fun | .update d => some d | _ => none)) := by
  cases o with
  | close => exact absurd rfl ho
  | update d =>
    refine ⟨?_, ?_⟩
    · simp only [Seekable.step]; rw [h.bufs, h.len]
      show _ = layout 0 (cs ++ [d]); rw [layout_snoc]; simp
    · simp only [Seekable.step]; rw [h.len]; simp
  | seek o w =>
    have := seek_same s o w
    exact ⟨by simp [Seekable.step, this, h.bufs], by simp [Seekable.step, this, h.len]⟩
  | _ => exact ⟨by simp [Seekable.step, h.bufs], by simp [Seekable.step, h.len]⟩

theorem Holds.run : ∀ (h : List Op) {s : Stream} {cs : List Bytes}, Holds s cs → Op.close ∉ h →
    Holds (run s h).2 (cs ++ (h.filterMap fun | .update d => some d | _ => none))
  | [], s, cs, hh, _ => by simpa [Seekable.run] using hh
  | o :: h, s, cs, hh, hc => by
    have h1 := hh.step (o := o) (fun e => hc (by simp [e]))
    have h2 := Holds.run h h1 (fun e => hc (by simp [e]))
    unfold Seekable.run
    rw [List.append_assoc, ← List.filterMap_append] at h2
    exact h2

theorem Holds.reachable (b : Option Bytes) (h : List Op) (hc : Op.close ∉ h) : Holds (Seekable.run (init b) h).2 (chunksOf b h) := by
  have : Holds (init b) b.toList := by
    cases b with
    | none => exact ⟨rfl, rfl⟩
    | some b => exact ⟨by simp [init, layout], by simp [init]⟩
  exact this.run h hc

/-- C99: wherever the program stands in the stream, whatever it did before, `read(-1)` gives all of the rest. -/
theorem C99_rest (b : Option Bytes) (h : List Op) (hc : Op.close ∉ h) (hp : 0 ≤ (run (init b) h).2.pos)
    (hlt : (run (init b) h).2.pos < (chunksOf b h).flatten.length) :
    (step (run (init b) h).2 (.read (-1))).1 = .data ((chunksOf b h).flatten.drop (run (init b) h).2.pos.toNat) := by
  have hh := Holds.reachable b h hc
  simp only [step]
  rw [hh.peek hp]
  cases ha : chunkAt (run (init b) h).2.pos.toNat (chunksOf b h) 0 with
  | none => have := chunkAt_none.1 ha; omega
  | some ae => rfl

/-- C99: exactly what `read(n)` gives: the rest of the chunk, and the bytes that are still missing from the beginning of the stream. -/
theorem C99_span (b : Option Bytes) (h : List Op) (hc : Op.close ∉ h) (p a e n : Nat) (hp : (run (init b) h).2.pos = p) (hn : 0 < n)
    (ha : chunkAt p (chunksOf b h) 0 = some (a, e)) :
    (step (run (init b) h).2 (.read n)).1 =
      .data (((chunksOf b h).flatten.drop p).take (min n (e - p)) ++
        (chunksOf b h).flatten.take (min n ((chunksOf b h).flatten.length - p) - (e - p))) := by
  have hh := Holds.reachable b h hc
  obtain ⟨h1, h2, h3⟩ := chunkAt_some ha
  simp only [step]
  rw [hh.peek (by omega), hp, Int.toNat_natCast, ha]
  have hcl : (clip (run (init b) h).2 (n : Int)).toNat = min n ((chunksOf b h).flatten.length - p) := by
    unfold clip available
    rw [hh.len, hp]
    split <;> omega
  simp only [out, if_neg (show ¬ (n : Int) < 0 by omega), hcl]
  rw [show min (min n ((chunksOf b h).flatten.length - p)) (e - p) = min n (e - p) by omega]

/-- C99: the number of bytes is always right. -/
theorem C99_length (b : Option Bytes) (h : List Op) (hc : Op.close ∉ h) (p n : Nat) (hp : (run (init b) h).2.pos = p) (hn : 0 < n) :
    (step (run (init b) h).2 (.read n)).2.pos = p + min n ((chunksOf b h).flatten.length - p) := by
  have hh := Holds.reachable b h hc
  cases ha : chunkAt p (chunksOf b h) 0 with
  | none =>
    have := chunkAt_none.1 ha
    simp only [step]
    rw [hh.peek (by omega), hp, Int.toNat_natCast, ha]
    simp only [Option.getD_none, List.length_nil]; omega
  | some ae =>
    obtain ⟨a, e⟩ := ae
    obtain ⟨h1, h2, h3⟩ := chunkAt_some ha
    have := C99_span b h hc p a e n hp hn ha
    simp only [step] at this ⊢
    cases hpk : peek (run (init b) h).2 (n : Int) with
    | none => rw [hpk] at this; exact nomatch this
    | some d =>
      rw [hpk] at this
      injection this with this
      rw [this, hp]
      simp only [Option.getD_some, List.length_append, List.length_take, List.length_drop]
      omega

/-- C99: a position below zero gives the empty string, although there are bytes. -/
theorem C99_negative (s : Stream) (hp : s.pos < 0) (n : Int) : (step s (.read n)).1 = .text ∧ (step s (.read n)).2 = s := by
  have : peek s n = none := by unfold peek locate; rw [if_pos hp]
  simp only [step]
  rw [this]
  exact ⟨rfl, by cases s; simp⟩

/-- C99: `seek` relative to the position goes one byte on, whatever the offset. -/
theorem C99_cur (s : Stream) (h : s.closed = false) (o : Int) : (step s (.seek o 1)).2.pos = s.pos + 1 := by
  simp [step, seek, h]

/-- C99: of a closed stream that was not updated since, all reads give the empty string and nothing raises but `seek`. -/
theorem C99_closed (s : Stream) (n : Int) : (step (step s .close).2 (.read n)).1 = .text ∧
    ∀ o w, (step (step s .close).2 (.seek o w)).1 = .raised := by
  refine ⟨?_, fun o w => by simp [step, seek]⟩
  simp only [step]
  have : peek { s with bufs := [], closed := true } n = none := by
    unfold peek locate
    split
    · rfl
    · rename_i heq
      split at heq
      · exact nomatch heq
      · simp [MinCopy.locate] at heq
  rw [this]; rfl

/-- C99 is false for reads over the end of a chunk: the second chunk is never reached. -/
theorem C99_false_span : (run (init (some [1, 2])) [.update [3, 4], .seek 1 0, .read 2]).1 = [.nothing, .nothing, .data [2, 1]] ∧
    ((File.init (some [1, 2])).run [.update [3, 4], .seek 1 0, .read 2]).1 = [.nothing, .nothing, .data [2, 3]] := by
  decide +kernel

/-- C99 is false for `seek(offset, SEEK_CUR)`, for `read(0)`, behind a `seek` to before the beginning, and after `close`. -/
theorem C99_false_calls :
    (run (init (some [1, 2, 3, 4])) [.seek 2 1, .read 1]).1 = [.nothing, .data [2]] ∧
    (run (init (some [1, 2, 3, 4])) [.read 0]).1 = [.data [1, 2, 3, 4]] ∧
    (run (init (some [1, 2, 3, 4])) [.seek (-5) 2, .tell, .available, .read (-1)]).1 = [.nothing, .num (-1), .num 5, .text] ∧
    (run (init (some [1, 2, 3, 4])) [.close, .read 1, .update [5], .tell]).1 = [.nothing, .text, .nothing, .num 0] := by
  decide +kernel

instance (f : File) (n : Nat) : Decidable (f.inOne n) :=
  match h : chunkAt f.pos f.chunks 0 with
  | none => isTrue fun a b e => by rw [h] at e; exact nomatch e
  | some (a, b) =>
    if hb : min (f.pos + n) f.contents.length ≤ b then isTrue fun a' b' e => by rw [h] at e; injection e with e; injection e with _ e; exact e ▸ hb
    else isFalse fun hh => hb (hh a b h)

instance (f : File) : (o : Op) → Decidable (f.fine o)
  | .update _ => inferInstanceAs (Decidable (_ = _))
  | .tell => inferInstanceAs (Decidable (_ = _))
  | .available => inferInstanceAs (Decidable (_ = _))
  | .read _ => inferInstanceAs (Decidable (_ ∧ (_ ∨ _ ∨ _ ∧ _)))
  | .peek _ => inferInstanceAs (Decidable (_ ∧ (_ ∨ _ ∨ _ ∧ _)))
  | .seek _ _ => inferInstanceAs (Decidable (_ ∨ _ ∨ _ ∨ _ ∨ _))
  | .close => inferInstanceAs (Decidable True)

instance decAll : (f : File) → (h : List Op) → Decidable (f.allFine h)
  | _, [] => isTrue trivial
  | f, _ :: h => @instDecidableAnd _ _ _ (decAll (f.step _).2 h)

/-- A case of the theorem: reads inside chunks, of everything, at the end, and all kinds of `seek`. -/
example : (File.init (some [1, 2, 3])).allFine [.update [4, 5], .read 2, .peek 1, .seek 4 0, .read 9, .read 1, .tell, .seek (-3) 2,
      .peek (-1), .seek 1 1, .available, .seek (-1) 0, .seek 0 7, .update [6], .read (-1), .close, .seek 0 0] ∧
    (run (init (some [1, 2, 3])) [.update [4, 5], .read 2, .peek 1, .seek 4 0, .read 9, .read 1, .tell, .seek (-3) 2,
      .peek (-1), .seek 1 1, .available, .seek (-1) 0, .seek 0 7, .update [6], .read (-1), .close, .seek 0 0]).1 =
    [.nothing, .data [1, 2], .data [3], .nothing, .data [5], .text, .num 5, .nothing, .data [3, 4, 5], .nothing, .num 2, .raised,
      .raised, .nothing, .data [4, 5, 6], .nothing, .raised] := by
  decide +kernel

/-- A case of `C99_span`, `C99_length` and `C99_rest`. -/
example : Op.close ∉ [Op.update [3, 4], .seek 1 0] ∧ (run (init (some [1, 2])) [.update [3, 4], .seek 1 0]).2.pos = 1 ∧
    chunkAt 1 (chunksOf (some [1, 2]) [.update [3, 4], .seek 1 0]) 0 = some (0, 2) ∧
    (step (run (init (some [1, 2])) [.update [3, 4], .seek 1 0]).2 (.read (-1))).1 = .data [2, 3, 4] := by
  decide +kernel

end Verif.Seekable
