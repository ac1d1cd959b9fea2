import Verif.Spec.Lines
/-! # C43: splitting a stream into lines -/
namespace Verif.Lines

theorem cutAt_some {d : Bytes} : ∀ {b l r : Bytes}, cutAt d b = some (l, r) →
    b = l ++ d ++ r ∧ ∀ x y, b = x ++ d ++ y → l.length ≤ x.length := by
  intro b
  induction b with
  | nil =>
    intro l r h
    unfold cutAt at h
    split at h
    · next hp =>
      cases h
      have : d = [] := by simpa using hp
      subst this
      exact ⟨rfl, fun x y _ => by simp⟩
    · cases h
  | cons a b ih =>
    intro l r h
    unfold cutAt at h
    split at h
    · next hp =>
      cases h
      refine ⟨?_, fun x y _ => by simp⟩
      obtain ⟨t, ht⟩ := List.isPrefixOf_iff_prefix.mp hp
      simp [← ht]
    · next hp =>
      cases hc : cutAt d b with
      | none => rw [hc] at h; cases h
      | some q =>
        obtain ⟨l', r'⟩ := q
        rw [hc] at h
        cases h
        obtain ⟨h1, h2⟩ := ih hc
        refine ⟨by rw [h1]; simp, fun x y hx => ?_⟩
        cases x with
        | nil => exact absurd (List.isPrefixOf_iff_prefix.mpr ⟨y, by simpa using hx.symm⟩) hp
        | cons c x =>
          simp at hx
          have := h2 x y (by simpa using hx.2)
          simpa using this

theorem cutAt_none {d : Bytes} : ∀ {b : Bytes}, cutAt d b = none → ¬ Occurs d b := by
  intro b
  induction b with
  | nil =>
    rintro h ⟨x, y, hx⟩
    unfold cutAt at h
    split at h
    · cases h
    · next hp =>
      have : d = [] := by
        have := congrArg List.length hx
        simp at this
        exact List.eq_nil_of_length_eq_zero (by omega)
      subst this
      simp at hp
  | cons a b ih =>
    rintro h ⟨x, y, hx⟩
    unfold cutAt at h
    split at h
    · cases h
    · next hp =>
      cases hc : cutAt d b with
      | some q => rw [hc] at h; cases h
      | none =>
        cases x with
        | nil => exact absurd (List.isPrefixOf_iff_prefix.mpr ⟨y, by simpa using hx.symm⟩) hp
        | cons c x =>
          simp at hx
          exact ih hc ⟨x, y, by simpa using hx.2⟩

theorem splitOnce_some {d b l r : Bytes} (h : splitOnce d b = some (l, r)) : b = l ++ d ++ r ∧ IsLine d l ∧ r.length < b.length := by
  unfold splitOnce at h
  split at h
  · cases h
  · next hd =>
    obtain ⟨h1, h2⟩ := cutAt_some h
    refine ⟨h1, fun x y hxy => ?_, ?_⟩
    · have hle := h2 x (y ++ r) (by rw [h1, hxy]; simp)
      have := congrArg List.length hxy
      simp at this
      exact List.eq_nil_of_length_eq_zero (by omega)
    · rw [h1]
      have := List.length_pos_iff.mpr hd
      simp; omega

theorem splitOnce_none {d b : Bytes} (hd : d ≠ []) (h : splitOnce d b = none) : ¬ Occurs d b := by
  unfold splitOnce at h
  rw [if_neg hd] at h
  exact cutAt_none h

theorem Split.nil {d r : Bytes} (h : ¬ Occurs d r) : Split d r [] r := ⟨rfl, by simp, h⟩

theorem Split.trans {d b c r r' : Bytes} {ls ls' : List Bytes} (h1 : Split d b ls r) (h2 : Split d (r ++ c) ls' r') : Split d (b ++ c) (ls ++ ls') r' := by
  refine ⟨?_, fun l hl => ?_, h2.last⟩
  · rw [← h1.join, List.map_append, List.flatten_append, List.append_assoc, List.append_assoc, h2.join]
  · rcases List.mem_append.mp hl with hl | hl
    · exact h1.lines l hl
    · exact h2.lines l hl

theorem Split.cons {d l b r : Bytes} {ls : List Bytes} (h1 : IsLine d l) (h2 : Split d b ls r) : Split d (l ++ d ++ b) (l :: ls) r := by
  refine ⟨by simp [← h2.join], fun x hx => ?_, h2.last⟩
  rcases List.mem_cons.mp hx with rfl | hx
  · exact h1
  · exact h2.lines x hx

/-- A line cannot be a proper beginning of another. -/
theorem line_unique {d l l' R R' : Bytes} (h' : IsLine d l') (he : l ++ d ++ R = l' ++ d ++ R') (hle : l.length ≤ l'.length) : l = l' := by
  have ht : l' ++ d = (l ++ d ++ R).take (l' ++ d).length := by rw [he, List.take_left]
  rw [List.take_append, List.take_of_length_le (by simp; omega)] at ht
  have hy := h' l _ ht
  rw [hy] at ht
  have := congrArg List.length ht
  simp at this
  have hh := congrArg (List.take l.length) he
  simpa [this] using hh

/-- The lines of a byte string are determined. -/
theorem Split.unique {d : Bytes} : ∀ {ls ls' : List Bytes} {b r r' : Bytes}, Split d b ls r → Split d b ls' r' → ls = ls' ∧ r = r'
  | [], [], b, r, r', h, h' => ⟨rfl, by rw [← h'.join] at h; simpa using h.join⟩
  | [], l' :: ls', b, r, r', h, h' => by
    have h1 : r = b := h.join
    exact absurd ⟨l', (ls'.map (· ++ d)).flatten ++ r', by rw [h1, ← h'.join]; simp⟩ h.last
  | l :: ls, [], b, r, r', h, h' => by
    have h1 : r' = b := h'.join
    exact absurd ⟨l, (ls.map (· ++ d)).flatten ++ r, by rw [h1, ← h.join]; simp⟩ h'.last
  | l :: ls, l' :: ls', b, r, r', h, h' => by
    have e1 : l ++ d ++ ((ls.map (· ++ d)).flatten ++ r) = b := by rw [← h.join]; simp
    have e2 : l' ++ d ++ ((ls'.map (· ++ d)).flatten ++ r') = b := by rw [← h'.join]; simp
    have hl : l = l' := by
      rcases Nat.le_total l.length l'.length with hle | hle
      · exact line_unique (h'.lines l' (List.mem_cons_self ..)) (e1.trans e2.symm) hle
      · exact (line_unique (h.lines l (List.mem_cons_self ..)) (e2.trans e1.symm) hle).symm
    subst hl
    have e3 : (ls.map (· ++ d)).flatten ++ r = (ls'.map (· ++ d)).flatten ++ r' := List.append_cancel_left (e1.trans e2.symm)
    obtain ⟨a, b⟩ := Split.unique (d := d) (b := (ls.map (· ++ d)).flatten ++ r) (ls := ls) (ls' := ls')
      ⟨rfl, fun x hx => h.lines x (List.mem_cons_of_mem _ hx), h.last⟩ ⟨e3.symm, fun x hx => h'.lines x (List.mem_cons_of_mem _ hx), h'.last⟩
    exact ⟨by rw [a], b⟩

/-- One `data_received` when the handler never stops and no line is too long. -/
theorem loop_spec {d : Bytes} (hd : d ≠ []) (max : Nat) : ∀ (fuel : Nat) (s : St), s.buffer.length < fuel →
    ∀ ls r, Split d s.buffer ls r → (∀ l ∈ ls, l.length ≤ max) → r.length ≤ max →
      loop d max (fun _ => false) fuel s = { s with buffer := r, lines := s.lines ++ ls }
  | 0, _, h => by omega
  | fuel + 1, s, hf => by
    intro ls r hs hm hr
    unfold loop
    split
    · next h0 =>
      have : Split d s.buffer [] [] := by
        rw [h0]
        refine .nil ?_
        rintro ⟨x, y, hx⟩
        have := congrArg List.length hx
        simp at this
        exact hd (List.eq_nil_of_length_eq_zero (by omega))
      obtain ⟨rfl, rfl⟩ := Split.unique hs this
      cases s; simp at h0 ⊢; exact h0
    · next h0 =>
      split
      · next hn =>
        obtain ⟨rfl, rfl⟩ := Split.unique hs (.nil (splitOnce_none hd hn))
        rw [if_neg (by omega)]
        cases s; simp
      · next line rest hsome =>
        obtain ⟨h1, h2, h3⟩ := splitOnce_some hsome
        match ls, hs, hm with
        | [], hs, _ =>
          have hb : r = s.buffer := hs.join
          exact absurd ⟨line, rest, by rw [hb, h1]⟩ hs.last
        | l :: ls, hs, hm =>
          have e1 : l ++ d ++ ((ls.map (· ++ d)).flatten ++ r) = s.buffer := by rw [← hs.join]; simp
          have hl : l = line := by
            rcases Nat.le_total l.length line.length with hle | hle
            · exact line_unique h2 (e1.trans h1) hle
            · exact (line_unique (hs.lines l (List.mem_cons_self ..)) (h1.symm.trans e1.symm) hle).symm
          subst hl
          have e3 : (ls.map (· ++ d)).flatten ++ r = rest := List.append_cancel_left (e1.trans h1)
          rw [if_neg (by have := hm l (List.mem_cons_self ..); omega)]
          simp only [Bool.false_eq_true, if_false]
          rw [loop_spec hd max fuel { s with buffer := rest, lines := s.lines ++ [l] } (by show rest.length < fuel; omega) ls r
            ⟨e3, fun x hx => hs.lines x (List.mem_cons_of_mem _ hx), hs.last⟩ (fun x hx => hm x (List.mem_cons_of_mem _ hx)) hr]
          simp

/-- Every byte string has lines. -/
theorem Split.exists {d : Bytes} (hd : d ≠ []) : ∀ (n : Nat) (b : Bytes), b.length < n → ∃ ls r, Split d b ls r
  | 0, _, h => by omega
  | n + 1, b, h => by
    cases hs : splitOnce d b with
    | none => exact ⟨[], b, .nil (splitOnce_none hd hs)⟩
    | some q =>
      obtain ⟨l, r⟩ := q
      obtain ⟨h1, h2, h3⟩ := splitOnce_some hs
      obtain ⟨ls, r', h4⟩ := Split.exists hd n r (by omega)
      exact ⟨l :: ls, r', h1 ▸ h4.cons h2⟩

/-- The unfinished line of a part of the data is at most a line and all but one byte of the delimiter. -/
theorem rest_bound {d b c ls ls' r r'} {m : Nat} (hd : d ≠ []) (h : Split d b ls r) (h' : Split d (b ++ c) ls' r')
    (hm : ∀ l ∈ ls', l.length + d.length ≤ m + 1) (hr : r'.length ≤ m) : (∀ l ∈ ls, l ∈ ls') ∧ r.length ≤ m := by
  obtain ⟨xs, r2, h2⟩ := Split.exists hd ((r ++ c).length + 1) (r ++ c) (by omega)
  obtain ⟨h3, h4⟩ := Split.unique h' (h.trans h2)
  refine ⟨fun l hl => by rw [h3]; exact List.mem_append_left _ hl, ?_⟩
  cases xs with
  | nil =>
    have : r2 = r ++ c := h2.join
    rw [h4, this] at hr
    simp at hr; omega
  | cons x xs =>
    have hx := hm x (by rw [h3]; exact List.mem_append_right _ (List.mem_cons_self ..))
    rcases Nat.lt_or_ge m r.length with hlt | hge
    · exfalso
      have e : x ++ d ++ ((xs.map (· ++ d)).flatten ++ r2) = r ++ c := by rw [← h2.join]; simp
      have : x ++ d = (r ++ c).take (x ++ d).length := by rw [← e, List.take_left]
      rw [List.take_append_of_le_length (by simp; omega)] at this
      have hocc : Occurs d r := ⟨x, r.drop (x ++ d).length, by
        conv => lhs; rw [← List.take_append_drop (x ++ d).length r, ← this]⟩
      exact h.last hocc
    · exact hge

/-- C43: with a delimiter that is not empty, a handler that returns nothing and lines that with the delimiter are at most one byte longer
than the maximum, the lines handed over are those of the concatenated data, the rest is kept, and nothing is
reported as too long. -/
theorem C43_lines_partial {d : Bytes} (hd : d ≠ []) (max : Nat) (cs : List Bytes) {ls : List Bytes} {r : Bytes} (h : Split d cs.flatten ls r)
    (hm : ∀ l ∈ ls, l.length + d.length ≤ max + 1) (hr : r.length ≤ max) :
    receive d max (fun _ => false) .init cs = ⟨r, ls, []⟩ := by
  have key : ∀ (cs : List Bytes) (b : Bytes) (ls0 : List Bytes) (r0 : Bytes), Split d b ls0 r0 → Split d (b ++ cs.flatten) ls r →
      receive d max (fun _ => false) ⟨r0, ls0, []⟩ cs = ⟨r, ls, []⟩ := by
    intro cs
    induction cs with
    | nil =>
      intro b ls0 r0 h0 h1
      simp at h1
      obtain ⟨rfl, rfl⟩ := Split.unique h0 h1
      rfl
    | cons c cs ih =>
      intro b ls0 r0 h0 h1
      obtain ⟨xs, r1, h2⟩ := Split.exists hd ((r0 ++ c).length + 1) (r0 ++ c) (by omega)
      have h3 := h0.trans h2
      have h1' : Split d (b ++ c ++ cs.flatten) ls r := by simpa using h1
      obtain ⟨b1, b2⟩ := rest_bound hd h3 h1' hm hr
      have hstep : dataReceived d max (fun _ => false) ⟨r0, ls0, []⟩ c = ⟨r1, ls0 ++ xs, []⟩ := by
        unfold dataReceived
        exact loop_spec hd max _ ⟨r0 ++ c, ls0, []⟩ (by show (r0 ++ c).length < (r0 ++ c).length + 1; omega) xs r1 h2
          (fun l hl => by
            have := hm l (b1 l (List.mem_append_right _ hl))
            have := List.length_pos_iff.mpr hd
            omega) b2
      show receive d max _ (dataReceived d max _ _ c) cs = _
      rw [hstep]
      exact ih (b ++ c) _ _ h3 h1'
  have h0 : ¬ Occurs d [] := by
    rintro ⟨x, y, hx⟩
    have := congrArg List.length hx
    simp at this
    exact hd (List.eq_nil_of_length_eq_zero (by omega))
  exact key cs [] [] [] (.nil h0) (by simpa using h)

/-- C43: two ways of cutting the same data into chunks give the same lines and leave the same rest. -/
theorem C43_chunking_partial {d : Bytes} (hd : d ≠ []) (max : Nat) (cs cs' : List Bytes) (he : cs.flatten = cs'.flatten) {ls : List Bytes} {r : Bytes}
    (h : Split d cs.flatten ls r) (hm : ∀ l ∈ ls, l.length + d.length ≤ max + 1) (hr : r.length ≤ max) :
    receive d max (fun _ => false) .init cs = receive d max (fun _ => false) .init cs' := by
  rw [C43_lines_partial hd max cs h hm hr, C43_lines_partial hd max cs' (he ▸ h) hm hr]

/-- C43: lines written with `sendLine` arrive as they were written, however the data is cut. -/
theorem C43_sent {d : Bytes} (hd : d ≠ []) (max : Nat) (ls cs : List Bytes) (he : cs.flatten = (ls.map (sendLine d)).flatten)
    (hl : ∀ l ∈ ls, IsLine d l) (hm : ∀ l ∈ ls, l.length + d.length ≤ max + 1) :
    receive d max (fun _ => false) .init cs = ⟨[], ls, []⟩ := by
  have h0 : ¬ Occurs d [] := by
    rintro ⟨x, y, hx⟩
    have := congrArg List.length hx
    simp at this
    exact hd (List.eq_nil_of_length_eq_zero (by omega))
  exact C43_lines_partial hd max cs ⟨by rw [he, List.append_nil]; rfl, hl, h0⟩ hm (by simp)

/-- All bytes that came out of the receiver or are still in it: the lines with their delimiters, the data given to `lineLengthExceeded`, the
buffer. -/
def total (d : Bytes) (s : St) : Nat := (s.lines.map (·.length + d.length)).sum + (s.exceeded.map List.length).sum + s.buffer.length

theorem loop_conserves {d : Bytes} (max : Nat) (why : Bytes → Bool) : ∀ (fuel : Nat) (s : St),
    total d (loop d max why fuel s) = total d s ∧
    ((loop d max why fuel s).exceeded = [] → s.exceeded = [] ∧
      ((loop d max why fuel s).lines.map (· ++ d)).flatten ++ (loop d max why fuel s).buffer = (s.lines.map (· ++ d)).flatten ++ s.buffer)
  | 0, s => ⟨rfl, fun h => ⟨h, rfl⟩⟩
  | fuel + 1, s => by
    unfold loop
    split
    · exact ⟨rfl, fun h => ⟨h, rfl⟩⟩
    · split
      · split
        · exact ⟨by simp [total]; omega, by simp⟩
        · exact ⟨rfl, fun h => ⟨h, rfl⟩⟩
      · next line rest h =>
        have hb := (splitOnce_some h).1
        have hl := congrArg List.length hb
        simp only [List.length_append] at hl
        split
        · refine ⟨?_, by simp⟩
          simp [total]; omega
        · split
          · refine ⟨?_, ?_⟩
            · simp [total]; omega
            · intro he; exact ⟨he, by simp [hb]⟩
          · obtain ⟨i1, i2⟩ := loop_conserves max why fuel { s with buffer := rest, lines := s.lines ++ [line] }
            refine ⟨?_, ?_⟩
            · rw [i1]; simp [total]; omega
            · intro he
              obtain ⟨j1, j2⟩ := i2 he
              exact ⟨j1, by rw [j2]; simp [hb]⟩

theorem receive_conserves {d : Bytes} (max : Nat) (why : Bytes → Bool) : ∀ (cs : List Bytes) (s : St),
    total d (receive d max why s cs) = total d s + cs.flatten.length ∧
    ((receive d max why s cs).exceeded = [] → s.exceeded = [] ∧
      ((receive d max why s cs).lines.map (· ++ d)).flatten ++ (receive d max why s cs).buffer
        = (s.lines.map (· ++ d)).flatten ++ s.buffer ++ cs.flatten)
  | [], s => ⟨by simp [receive], fun h => ⟨h, by simp [receive]⟩⟩
  | c :: cs, s => by
    obtain ⟨i1, i2⟩ := receive_conserves max why cs (dataReceived d max why s c)
    obtain ⟨j1, j2⟩ := loop_conserves (d := d) max why ((s.buffer ++ c).length + 1) { s with buffer := s.buffer ++ c }
    refine ⟨?_, ?_⟩
    · show total d (receive d max why (dataReceived d max why s c) cs) = _
      rw [i1]
      show total d (loop _ _ _ _ _) + _ = _
      rw [j1]; simp [total]; omega
    · intro he
      obtain ⟨k1, k2⟩ := i2 he
      obtain ⟨l1, l2⟩ := j2 k1
      refine ⟨l1, ?_⟩
      show ((receive d max why (dataReceived d max why s c) cs).lines.map (· ++ d)).flatten ++ (receive d max why (dataReceived d max why s c) cs).buffer = _
      rw [k2]
      show ((loop _ _ _ _ _).lines.map (· ++ d)).flatten ++ (loop _ _ _ _ _).buffer ++ _ = _
      rw [l2]; simp

/-- C43: whatever the handler returns, no byte is lost or changed: what came out and what is kept have together the length of what came in,
and when no line was too long the lines, each with its delimiter, and the buffer are exactly the data received. -/
theorem C43_conserved (d : Bytes) (max : Nat) (why : Bytes → Bool) (cs : List Bytes) :
    total d (receive d max why .init cs) = cs.flatten.length ∧
    ((receive d max why .init cs).exceeded = [] →
      ((receive d max why .init cs).lines.map (· ++ d)).flatten ++ (receive d max why .init cs).buffer = cs.flatten) := by
  obtain ⟨h1, h2⟩ := receive_conserves (d := d) max why cs .init
  exact ⟨by rw [h1]; simp [total, St.init], fun h => by rw [(h2 h).2]; simp [St.init]⟩

/-- A line of exactly the maximal length is accepted or refused depending on where the data is cut (here the maximum is 2). -/
theorem C43_false_boundary : receive [13, 10] 2 (fun _ => false) .init [[65, 66, 13, 10]] = ⟨[], [[65, 66]], []⟩ ∧
    receive [13, 10] 2 (fun _ => false) .init [[65, 66, 13], [10]] = ⟨[10], [], [[65, 66, 13]]⟩ := by decide +kernel

/-- When the handler returns something, as that of `CLIShell` does, the second line of a chunk waits for more data. -/
theorem C43_false_handler : (receive [10] 10 (fun _ => true) .init [[65, 10, 66, 10]]).lines = [[65]] ∧
    (receive [10] 10 (fun _ => true) .init [[65, 10], [66, 10]]).lines = [[65], [66]] := by decide +kernel

/-! ## Examples -/
example : receive [13, 10] 16384 (fun _ => false) .init [[65, 13], [10, 66, 67, 13, 10, 68], [13]] = ⟨[68, 13], [[65], [66, 67]], []⟩ := by decide +kernel
example : Split [13, 10] [65, 13, 10, 66] [[65]] [66] :=
  ⟨rfl, by
    intro l hl x y h
    simp at hl; subst hl
    have := congrArg List.length h
    match x, h with
    | [], h => simp at h
    | [_], h => simp at h; exact h.2
    | _ :: _ :: _, h => simp at this; omega, by
    rintro ⟨x, y, h⟩
    have := congrArg List.length h
    simp at this; omega⟩

end Verif.Lines
