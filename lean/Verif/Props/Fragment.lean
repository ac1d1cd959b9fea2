import Verif.Lemmas.Fragment
/-! # C29, C30: fragmentation and reassembly -/
namespace Verif.Frag

/-! ## The sender -/

/-- C29, sender. A message longer than 2^16 bytes is sent as packets with the same header, fragment identifier and total
size, each with at most 2^16 bytes (and at least one) which are those of the message at its offset; in order they are the
message, and their offsets increase. -/
theorem C29_sender (h : Header) (id : Nat) (data : Bytes) (hbig : MAX_MSG_SIZE < data.length) :
    ((write h id data).map Wire.data).flatten = data ∧
    (∀ w ∈ write h id data, w.header = h ∧ 0 < w.data.length ∧ w.data.length ≤ MAX_MSG_SIZE ∧
      ∃ o, w.frag = some ⟨id, data.length, o⟩ ∧ o + w.data.length ≤ data.length ∧
        w.data = (data.drop o).take w.data.length) ∧
    (write h id data).Pairwise (fun a b => ∀ i j, a.frag = some i → b.frag = some j → i.offset < j.offset) := by
  have hm : 0 < MAX_MSG_SIZE := by decide
  obtain ⟨h1, h2, h3, h4, h5⟩ := cut_spec MAX_MSG_SIZE hm data.length 0 data (Nat.le_refl _)
  unfold write
  rw [if_neg (by omega)]
  refine ⟨?_, ?_, ?_⟩
  · rw [List.map_map]
    exact h4
  · intro w hw
    obtain ⟨c, hc, rfl⟩ := List.mem_map.mp hw
    obtain ⟨g1, g2, _, g4, g5⟩ := h1 c hc
    exact ⟨rfl, g1, g2, c.1, rfl, by simpa using g4, by simpa using g5⟩
  · rw [List.pairwise_map]
    refine h2.imp ?_
    intro a b hab i j hi hj
    cases hi; cases hj
    exact hab

/-- A message of at most 2^16 bytes is one packet, not a fragment. -/
theorem C29_sender_small (h : Header) (id : Nat) (data : Bytes) (hs : data.length ≤ 2 ^ 16) :
    write h id data = [⟨h, none, data⟩] := by
  unfold write; exact if_pos hs

/-! ## Chunks -/

theorem ideal_length (st : State) (ws : List Wire) : (ideal st (ws.map .packet)).2.length ≤ ws.length := by
  induction ws generalizing st with
  | nil => simp [ideal]
  | cons w ws ih =>
    simp only [List.map_cons, ideal, List.length_append, List.length_cons]
    have := ih (absorb st w).1
    have : (deliver w (absorb st w).2).length ≤ 1 := by cases (absorb st w).2 <;> simp [deliver]
    omega

theorem loop_length (st : State) (x : Bytes) (ws : List Wire) : (loop st (some x) ws).2.length = ws.length := by
  induction ws generalizing st x with
  | nil => simp [loop]
  | cons w ws ih =>
    simp only [loop]
    cases (absorb st w).2 with
    | none => simp only [keep, deliver, List.length_append, List.length_cons, List.length_nil, ih]; omega
    | some d => simp only [keep, deliver, List.length_append, List.length_cons, List.length_nil, ih]; omega

theorem loop_state (st : State) (v : Option Bytes) (ws : List Wire) :
    (loop st v ws).1 = (ideal st (ws.map .packet)).1 := by
  induction ws generalizing st v with
  | nil => rfl
  | cons w ws ih => simp only [loop, List.map_cons, ideal, ih]

theorem loop_some_iff (st : State) (x : Bytes) (ws : List Wire) :
    (loop st (some x) ws).2 = (ideal st (ws.map .packet)).2 ↔ ∀ o ∈ results st ws, o ≠ none := by
  induction ws generalizing st x with
  | nil => simp [loop, ideal, results]
  | cons w ws ih =>
    simp only [loop, List.map_cons, ideal, results, List.mem_cons, forall_eq_or_imp]
    cases (absorb st w).2 with
    | none =>
      simp only [keep, deliver, List.nil_append, ne_eq, not_true_eq_false, false_and, iff_false]
      intro e
      have e := congrArg List.length e
      have h1 := ideal_length (absorb st w).1 ws
      have h2 := loop_length (absorb st w).1 x ws
      simp only [List.length_append, List.length_cons, List.length_nil] at e
      omega
    | some d =>
      simp only [keep, deliver, List.append_cancel_left_eq, ne_eq, reduceCtorEq, not_false_eq_true, true_and]
      exact ih _ _

/-- Exactly when the deliveries of a chunk are as they should be: no fragment that leaves its message incomplete comes after a packet that gives
something to deliver (else the old data is delivered again with the header of that fragment). -/
theorem C29_chunk_iff (st : State) (ws : List Wire) :
    (loop st none ws).2 = (ideal st (ws.map .packet)).2 ↔ NoneAfterSome (results st ws) := by
  induction ws generalizing st with
  | nil => simp [loop, ideal, results, NoneAfterSome]
  | cons w ws ih =>
    simp only [loop, List.map_cons, ideal, results]
    cases (absorb st w).2 with
    | none =>
      simp only [keep, deliver, List.nil_append]
      rw [ih]
      unfold NoneAfterSome
      constructor
      · intro h i j d hij h1 h2
        cases i with
        | zero => simp at h1
        | succ i =>
          cases j with
          | zero => omega
          | succ j => exact h i j d (by omega) (by simpa using h1) (by simpa using h2)
      · intro h i j d hij h1 h2
        exact h (i + 1) (j + 1) d (by omega) (by simpa using h1) (by simpa using h2)
    | some x =>
      simp only [keep, deliver, List.append_cancel_left_eq]
      rw [loop_some_iff]
      unfold NoneAfterSome
      constructor
      · intro h i j d hij h1 h2
        cases j with
        | zero => omega
        | succ j =>
          simp only [List.getElem?_cons_succ] at h2
          exact h none (List.mem_of_getElem? h2) rfl
      · intro h o ho e
        subst e
        obtain ⟨j, hj⟩ := List.mem_iff_getElem?.mp ho
        exact h 0 (j + 1) x (by omega) (by simp) (by simpa using hj)

theorem ideal_append (st : State) (a b : List Item) :
    ideal st (a ++ b) = ((ideal (ideal st a).1 b).1, (ideal st a).2 ++ (ideal (ideal st a).1 b).2) := by
  induction a generalizing st with
  | nil => rfl
  | cons x a ih =>
    cases x with
    | packet w => simp only [List.cons_append, ideal, ih, List.append_assoc]
    | timeout i => simp only [List.cons_append, ideal, ih]

theorem exec_ideal (st : State) (h : List Ev) (hs : Settled st h) : exec st h = ideal st (items h) := by
  induction h generalizing st with
  | nil => rfl
  | cons e h ih =>
    cases e with
    | data ws =>
      obtain ⟨h1, h2⟩ := hs
      have e1 := (C29_chunk_iff st ws).mpr h1
      have e2 := loop_state st none ws
      have := ih _ h2
      simp only [exec, items, ideal_append, this]
      simp only [step, e1, e2]
    | timeout i =>
      have := ih _ hs
      simp only [exec, items, this, ideal]
      rfl

theorem results_length (st : State) (ws : List Wire) : (results st ws).length = ws.length := by
  induction ws generalizing st with
  | nil => rfl
  | cons w ws ih => simp [results, ih]

/-- When every chunk completes at most one packet the condition holds. -/
theorem OneByOne.settled {h : List Ev} (ho : OneByOne h) (st : State) : Settled st h := by
  induction h generalizing st with
  | nil => trivial
  | cons e h ih =>
    have ho' : OneByOne h := fun ws hw => ho ws (by simp [hw])
    cases e with
    | data ws =>
      refine ⟨?_, ih ho' _⟩
      have hl := ho ws (by simp)
      have : (results st ws).length = ws.length := by
        exact results_length st ws
      intro i j d hij _ h2
      have := (List.getElem?_eq_some_iff.mp h2).1
      omega
    | timeout i => exact ih ho' _

/-! ## Messages do not disturb each other -/

theorem absorb_wf {st : State} (h : st.WF) (w : Wire) : (absorb st w).1.WF := by
  unfold absorb
  split
  · exact h
  · dsimp only
    split
    · exact h.del _
    · exact h.set _ _

theorem timeout_wf {st : State} (h : st.WF) (i : Nat) : (step st (.timeout i)).1.WF := by
  simp only [step]; split
  · exact h.del _
  · exact h

theorem ideal_wf {st : State} (h : st.WF) (l : List Item) : (ideal st l).1.WF := by
  induction l generalizing st with
  | nil => exact h
  | cons x l ih =>
    cases x with
    | packet w => exact ih (absorb_wf h w)
    | timeout i => exact ih (timeout_wf h i)

theorem timeout_get {st : State} (h : st.WF) (i id : Nat) :
    (step st (.timeout i)).1.get id = if i = id then none else st.get id := by
  simp only [step]
  split
  · rw [Dict.get_del h]
  · next hn =>
    split
    · next e =>
      subst e
      cases hg : st.get i with
      | none => rfl
      | some s => exact absurd (by unfold Dict.has; rw [hg]; rfl) hn
    · rfl

theorem absorb_other {st : State} (h : st.WF) {w : Wire} {id : Nat} (hw : ¬ OfMsg id w) :
    (absorb st w).1.get id = st.get id := by
  unfold absorb
  split
  · rfl
  · next i hi =>
    have hne : i.fragId ≠ id := fun e => hw ⟨i, hi, e⟩
    dsimp only
    split
    · rw [Dict.get_del h, if_neg hne]
    · rw [Dict.get_set, if_neg hne]

theorem absorb_same {st st' : State} (h : st.WF) (h' : st'.WF) {w : Wire} {id : Nat} (hw : OfMsg id w)
    (e : st.get id = st'.get id) :
    (absorb st w).2 = (absorb st' w).2 ∧ (absorb st w).1.get id = (absorb st' w).1.get id := by
  obtain ⟨i, hi, rfl⟩ := hw
  unfold absorb
  rw [hi]
  dsimp only
  rw [e]
  split
  · exact ⟨rfl, by rw [Dict.get_del h, Dict.get_del h']; simp⟩
  · exact ⟨rfl, by rw [Dict.get_set, Dict.get_set]; simp⟩

theorem ideal_restrict (id : Nat) (l : List Item) {st st' : State} (h : st.WF) (h' : st'.WF) (e : st.get id = st'.get id) :
    (ideal st l).2.filter (fun d => decide (OfMsg id d.1)) = (ideal st' (l.filter (concerns id))).2 ∧
    (ideal st l).1.get id = (ideal st' (l.filter (concerns id))).1.get id := by
  induction l generalizing st st' with
  | nil => exact ⟨rfl, e⟩
  | cons x l ih =>
    cases x with
    | packet w =>
      by_cases hw : OfMsg id w
      · rw [List.filter_cons_of_pos (by simpa [concerns] using hw)]
        obtain ⟨e1, e2⟩ := absorb_same h h' hw e
        obtain ⟨i1, i2⟩ := ih (absorb_wf h w) (absorb_wf h' w) e2
        simp only [ideal, List.filter_append, i1, i2, and_true]
        congr 1
        rw [e1]
        cases (absorb st' w).2 <;> simp [deliver, hw]
      · rw [List.filter_cons_of_neg (by simpa [concerns] using hw)]
        obtain ⟨i1, i2⟩ := ih (absorb_wf h w) h' ((absorb_other h hw).trans e)
        simp only [ideal, List.filter_append, i1, i2, and_true]
        cases (absorb st w).2 <;> simp [deliver, hw]
    | timeout i =>
      by_cases hi : i = id
      · rw [List.filter_cons_of_pos (by simp [concerns, hi])]
        simp only [ideal]
        exact ih (timeout_wf h i) (timeout_wf h' i) (by rw [timeout_get h, timeout_get h', e])
      · rw [List.filter_cons_of_neg (by simp [concerns, hi])]
        simp only [ideal]
        exact ih (timeout_wf h i) h' (by rw [timeout_get h, if_neg hi, e])

theorem exec_wf (h : List Ev) : (exec [] h).1.WF := by
  have gen : ∀ (h : List Ev) (st : State), st.WF → (exec st h).1.WF := by
    intro h
    induction h with
    | nil => exact fun _ h => h
    | cons e h ih =>
      intro st hst
      refine ih _ ?_
      cases e with
      | data ws => rw [show (step st (.data ws)).1 = _ from loop_state st none ws]; exact ideal_wf hst _
      | timeout i => exact timeout_wf hst i
  exact gen h [] Dict.WF.nil

/-- C30. Among the deliveries of a settled history (from any reachable state), those triggered by packets of the
message `id` are exactly those that the packets (and timeouts) of `id` alone would give: other messages and unfragmented
packets in between do not matter. -/
theorem C30_independent_partial (h0 h : List Ev) (id : Nat) (hs : Settled (exec [] h0).1 h) :
    (exec (exec [] h0).1 h).2.filter (fun d => decide (OfMsg id d.1)) =
      (ideal (exec [] h0).1 ((items h).filter (concerns id))).2 := by
  rw [exec_ideal _ _ hs]
  exact (ideal_restrict id _ (exec_wf h0) (exec_wf h0) rfl).1

/-- C30. Unfragmented packets are delivered each with its own data, in order, whatever else arrives. -/
theorem C30_unfragmented_partial (st : State) (h : List Ev) (hs : Settled st h) :
    (exec st h).2.filter (fun d => d.1.frag.isNone) =
      ((packets h).filter (fun w => w.frag.isNone)).map (fun w => (w, w.data)) := by
  rw [exec_ideal _ _ hs]
  clear hs
  have gen : ∀ (ws : List Wire) (st : State), (ideal st (ws.map .packet)).2.filter (fun d => d.1.frag.isNone) =
      (ws.filter (fun w => w.frag.isNone)).map (fun w => (w, w.data)) := by
    intro ws
    induction ws with
    | nil => intro st; rfl
    | cons w ws ih =>
      intro st
      simp only [List.map_cons, ideal, List.filter_append, ih]
      cases hf : w.frag with
      | none => simp [absorb, hf, deliver]
      | some i =>
        rw [List.filter_cons_of_neg (by simp [hf])]
        cases (absorb st w).2 <;> simp [deliver, hf]
  induction h generalizing st with
  | nil => rfl
  | cons e h ih =>
    cases e with
    | data ws => simp only [items, packets, ideal_append, List.filter_append, List.map_append, gen, ih]
    | timeout i => simp only [items, packets, ideal, ih]

/-! ## Reassembly -/

/-- The state at `id` after the fragments with offsets `seen`. -/
def At (data : Bytes) (cs : List (Nat × Bytes)) (st : State) (id : Nat) (seen : List Nat) : Prop :=
  (seen = [] ∧ st.get id = none) ∨ ∃ s, st.get id = some s ∧ Holds data cs seen s

theorem absorb_fragment {data : Bytes} {cs : List (Nat × Bytes)} (hp : cs.Pairwise (fun a b => a.1 < b.1))
    (hok : ∀ c ∈ cs, 0 < c.2.length ∧ c.1 + c.2.length ≤ data.length ∧ c.2 = (data.drop c.1).take c.2.length)
    (hsum : (cs.map (fun c => c.2.length)).sum = data.length)
    (hcov : ∀ i, i < data.length → ∃ c ∈ cs, c.1 ≤ i ∧ i < c.1 + c.2.length)
    {st : State} (hwf : st.WF) {id : Nat} {seen : List Nat} (ha : At data cs st id seen) (h : Header) (c : Nat × Bytes) (hc : c ∈ cs) :
    ((∀ x ∈ cs, x.1 ∈ see seen c.1) → (absorb st ⟨h, some ⟨id, data.length, c.1⟩, c.2⟩).2 = some data ∧
      (absorb st ⟨h, some ⟨id, data.length, c.1⟩, c.2⟩).1.get id = none) ∧
    ((¬ ∀ x ∈ cs, x.1 ∈ see seen c.1) → (absorb st ⟨h, some ⟨id, data.length, c.1⟩, c.2⟩).2 = none ∧
      At data cs (absorb st ⟨h, some ⟨id, data.length, c.1⟩, c.2⟩).1 id (see seen c.1)) := by
  have hh : Holds data cs seen ((st.get id).getD (.new data.length)) := by
    rcases ha with ⟨rfl, hn⟩ | ⟨s, hs, hh⟩
    · rw [hn]; exact holds_new data cs
    · rw [hs]; exact hh
  have hi := holds_insert hp hok hh c hc
  obtain ⟨k1, k2⟩ := holds_complete (fun c hc => (hok c hc).1) hsum hcov hi
  unfold absorb
  dsimp only
  constructor
  · intro hall
    have hcm := k1.mpr hall
    rw [if_pos hcm]
    exact ⟨by rw [k2 hcm], by dsimp only; rw [Dict.get_del hwf]; simp⟩
  · intro hall
    have hcm : ¬ (((st.get id).getD (.new data.length)).insert c.1 c.2).isComplete = true := fun h => hall (k1.mp h)
    rw [if_neg hcm]
    exact ⟨rfl, .inr ⟨_, by dsimp only; rw [Dict.get_set_self], hi⟩⟩

theorem items_concerns (id : Nat) (h : List Ev) (ht : .timeout id ∉ h) :
    (items h).filter (concerns id) = ((packets h).filter (fun w => decide (OfMsg id w))).map .packet := by
  induction h with
  | nil => rfl
  | cons e h ih =>
    have ih := ih (fun hm => ht (by simp [hm]))
    cases e with
    | data ws =>
      simp only [items, packets, List.filter_append, List.map_append, ih, List.append_cancel_right_eq]
      rw [List.filter_map]
      rfl
    | timeout i =>
      have : i ≠ id := by rintro rfl; exact ht (by simp)
      simp only [items, packets]
      rw [List.filter_cons_of_neg (by simp [concerns, this]), ih]

/-- C29. Let a message of more than 2^16 bytes be written with a fragment identifier that is not in use at the
receiver. Then in every settled history in which its fragments arrive, in any order, any of them several times, any other
traffic and timeouts of other messages in between, the message is delivered exactly once, when the last missing fragment arrives, with exactly its
bytes and its header; and the receiver keeps nothing of it. -/
theorem C29_reassembled_partial (h0 h : List Ev) (hs : Settled (exec [] h0).1 h) (hd : Header) (id : Nat) (data : Bytes)
    (hbig : MAX_MSG_SIZE < data.length) (hfree : (exec [] h0).1.get id = none) (ht : .timeout id ∉ h)
    (arrived : List Wire) (last : Wire)
    (hp : (packets h).filter (fun w => decide (OfMsg id w)) = arrived ++ [last])
    (hall : ∀ w, w ∈ arrived ++ [last] ↔ w ∈ write hd id data) (hlast : last ∉ arrived) :
    (exec (exec [] h0).1 h).2.filter (fun d => decide (OfMsg id d.1)) = [(last, data)] ∧ last.header = hd ∧
    (exec (exec [] h0).1 h).1.get id = none := by
  have hm : 0 < MAX_MSG_SIZE := by decide
  obtain ⟨h1, h2, h3, h4, h5⟩ := cut_spec MAX_MSG_SIZE hm data.length 0 data (Nat.le_refl _)
  simp only [Nat.zero_add, Nat.sub_zero] at h1 h5
  obtain ⟨cs, hcs⟩ : ∃ cs, cs = cut MAX_MSG_SIZE data.length 0 data := ⟨_, rfl⟩
  rw [← hcs] at h1 h2 h3 h4 h5
  have hw : ∀ w, w ∈ write hd id data ↔ ∃ c ∈ cs, w = ⟨hd, some ⟨id, data.length, c.1⟩, c.2⟩ := by
    intro w
    unfold write
    rw [if_neg (by omega), ← hcs, List.mem_map]
    simp only [eq_comm]
  have hok : ∀ c ∈ cs, 0 < c.2.length ∧ c.1 + c.2.length ≤ data.length ∧ c.2 = (data.drop c.1).take c.2.length :=
    fun c hc => ⟨(h1 c hc).1, (h1 c hc).2.2.2.1, (h1 c hc).2.2.2.2⟩
  have hst := exec_wf h0
  have hr := ideal_restrict id (items h) hst hst rfl
  rw [exec_ideal _ _ hs, hr.1, hr.2, items_concerns id h ht, hp]
  obtain ⟨cl, hcl, hle⟩ := (hw last).mp ((hall last).mp (by simp))
  refine (and_congr_right_iff.mpr fun _ => and_iff_right (by rw [hle])).mpr ?_
  have hQ : ∀ w ∈ arrived, ∃ c ∈ cs, w = ⟨hd, some ⟨id, data.length, c.1⟩, c.2⟩ ∧ c ≠ cl := by
    intro w hwm
    obtain ⟨c, hc, e⟩ := (hw w).mp ((hall w).mp (by simp [hwm]))
    refine ⟨c, hc, e, ?_⟩
    rintro rfl
    exact hlast (by rw [hle, ← e]; exact hwm)
  have hcover : ∀ c ∈ cs, c ≠ cl → ⟨hd, some ⟨id, data.length, c.1⟩, c.2⟩ ∈ arrived := by
    intro c hc hne
    have := (hall ⟨hd, some ⟨id, data.length, c.1⟩, c.2⟩).mpr ((hw _).mpr ⟨c, hc, rfl⟩)
    rcases List.mem_append.mp this with h | h
    · exact h
    · rw [List.mem_singleton, hle] at h
      injection h with _ e1 e2
      injection e1 with e1
      injection e1 with _ _ e1
      exact absurd (pairwise_inj h2 hc hcl e1) hne
  -- the main induction: absorbing `rest`, with the offsets in `seen` absorbed before
  have main : ∀ (rest : List Wire) (st : State) (seen : List Nat), st.WF → At data cs st id seen → cl.1 ∉ seen →
      (∀ w ∈ rest, ∃ c ∈ cs, w = ⟨hd, some ⟨id, data.length, c.1⟩, c.2⟩ ∧ c ≠ cl) →
      (∀ c ∈ cs, c ≠ cl → c.1 ∈ seen ∨ ⟨hd, some ⟨id, data.length, c.1⟩, c.2⟩ ∈ rest) →
      (ideal st ((rest ++ [last]).map .packet)).2 = [(last, data)] ∧
      (ideal st ((rest ++ [last]).map .packet)).1.get id = none := by
    intro rest
    induction rest with
    | nil =>
      intro st seen hwf hat hns _ hcv
      have := (absorb_fragment h2 hok h3 h5 hwf hat hd cl hcl).1 (fun x hx => by
        rw [mem_see]
        by_cases hxc : x = cl
        · exact .inl (by rw [hxc])
        · rcases hcv x hx hxc with h | h
          · exact .inr h
          · cases h)
      rw [← hle] at this
      simp only [List.nil_append, List.map_cons, List.map_nil, ideal, this, deliver, List.append_nil, and_self]
    | cons w rest ih =>
      intro st seen hwf hat hns hr hcv
      obtain ⟨c, hc, e, hne⟩ := hr w (by simp)
      have hne1 : cl.1 ≠ c.1 := fun e1 => hne (pairwise_inj h2 hc hcl e1.symm)
      have hns' : cl.1 ∉ see seen c.1 := by
        rw [mem_see]; rintro (h | h)
        · exact hne1 h
        · exact hns h
      have := (absorb_fragment h2 hok h3 h5 hwf hat hd c hc).2 (fun hcon => hns' (hcon cl hcl))
      rw [← e] at this
      have i := ih (absorb st w).1 (see seen c.1) (absorb_wf hwf w) this.2 hns' (fun w' hw' => hr w' (by simp [hw']))
        (fun x hx hxc => by
          rw [mem_see]
          rcases hcv x hx hxc with h | h
          · exact .inl (.inr h)
          · rcases List.mem_cons.mp h with h | h
            · rw [e] at h
              injection h with _ e1 _
              injection e1 with e1
              injection e1 with _ _ e1
              exact .inl (.inl e1)
            · exact .inr h)
      simp only [List.cons_append, List.map_cons, ideal, this.1, deliver, List.nil_append]
      exact i
  exact main arrived _ [] hst (.inl ⟨rfl, hfree⟩) (by simp) hQ (fun c hc hne => .inr (hcover c hc hne))

/-! ## Witnesses -/

/-- C29/C30 are false for chunks that complete several packets: if an unfragmented packet `w` and then the first
fragment of any message (with an unused identifier) become complete with the same chunk, the data of `w` is delivered a second time, under the header of the other
message. -/
theorem C29_false_stale (w : Wire) (hw : w.frag = none) (hd : Header) (id : Nat) (data : Bytes)
    (hbig : MAX_MSG_SIZE < data.length) :
    ∃ f rest, write hd id data = f :: rest ∧ f.header = hd ∧ (exec [] [.data [w, f]]).2 = [(w, w.data), (f, w.data)] := by
  have hm : 0 < MAX_MSG_SIZE := by decide
  have e : write hd id data = ⟨hd, some ⟨id, data.length, 0⟩, data.take MAX_MSG_SIZE⟩ ::
      (cut MAX_MSG_SIZE (data.length - 1) (0 + (data.take MAX_MSG_SIZE).length) (data.drop MAX_MSG_SIZE)).map
        fun c => ⟨hd, some ⟨id, data.length, c.1⟩, c.2⟩ := by
    unfold write
    rw [if_neg (by omega)]
    have hne : data ≠ [] := by rintro rfl; simp at hbig
    obtain ⟨n, hn⟩ : ∃ n, data.length = n + 1 := ⟨data.length - 1, by omega⟩
    rw [show cut MAX_MSG_SIZE data.length 0 data = cut MAX_MSG_SIZE (n + 1) 0 data by rw [hn]]
    rw [show data.length - 1 = n by omega]
    rw [show cut MAX_MSG_SIZE (n + 1) 0 data = if data = [] then [] else (0, data.take MAX_MSG_SIZE) ::
      cut MAX_MSG_SIZE n (0 + (data.take MAX_MSG_SIZE).length) (data.drop MAX_MSG_SIZE) from rfl]
    rw [if_neg hne, List.map_cons]
  refine ⟨⟨hd, some ⟨id, data.length, 0⟩, data.take MAX_MSG_SIZE⟩, _, e, rfl, ?_⟩
  have hinc : ¬ ((Storage.new data.length).insert 0 (data.take MAX_MSG_SIZE)).isComplete = true := by
    unfold Storage.isComplete Storage.insert Storage.new
    simp only [List.not_mem_nil, if_false, Nat.zero_add, decide_eq_true_eq, List.length_take]
    omega
  simp only [exec, step, loop, absorb, hw, Dict.get_nil, Option.getD_none, if_neg hinc, keep, deliver]
  rfl

/-- Two messages that happen to have the same random identifier and overlap in time are mixed: here the second half of one is completed by the first half
of another, and delivered under the header of the latter. -/
theorem C30_false_same_id : ∃ (a b : Header) (m : Bytes),
    (exec [] [.data [⟨a, some ⟨7, 4, 2⟩, [3, 4]⟩], .data [⟨b, some ⟨7, 4, 0⟩, [9, 9]⟩]]).2 =
      [(⟨b, some ⟨7, 4, 0⟩, [9, 9]⟩, m)] ∧ m = [9, 9, 3, 4] ∧ a ≠ b :=
  ⟨⟨['a'], 1, ['c'], 1⟩, ⟨['b'], 1, ['c'], 1⟩, [9, 9, 3, 4], by decide, rfl, by decide⟩

/-- A concrete case (with small fragments) of reassembly out of order, with a duplicate and other traffic. -/
example : (exec [] [.data [⟨⟨['a'], 1, ['c'], 1⟩, some ⟨7, 5, 4⟩, [5]⟩], .data [⟨⟨['b'], 1, ['c'], 1⟩, none, [8]⟩],
      .data [⟨⟨['a'], 1, ['c'], 1⟩, some ⟨7, 5, 4⟩, [5]⟩], .data [⟨⟨['a'], 1, ['c'], 1⟩, some ⟨7, 5, 0⟩, [1, 2]⟩],
      .data [⟨⟨['a'], 1, ['c'], 1⟩, some ⟨7, 5, 2⟩, [3, 4]⟩]]).2 =
    [(⟨⟨['b'], 1, ['c'], 1⟩, none, [8]⟩, [8]), (⟨⟨['a'], 1, ['c'], 1⟩, some ⟨7, 5, 2⟩, [3, 4]⟩, [1, 2, 3, 4, 5])] := by decide

/-- The hypotheses of `C29_reassembled_partial` are met by a message of 2^16 + 1 bytes whose second fragment comes
first. -/
example : ∃ (h : List Ev) (hd : Header) (data : Bytes) (arrived : List Wire) (last : Wire),
    Settled (exec [] []).1 h ∧ MAX_MSG_SIZE < data.length ∧ (exec [] []).1.get 7 = none ∧ .timeout 7 ∉ h ∧
    (packets h).filter (fun w => decide (OfMsg 7 w)) = arrived ++ [last] ∧
    (∀ w, w ∈ arrived ++ [last] ↔ w ∈ write hd 7 data) ∧ last ∉ arrived := by
  obtain ⟨data, hdata⟩ : ∃ data : Bytes, data = List.replicate (MAX_MSG_SIZE + 1) 0 := ⟨_, rfl⟩
  have hl : data.length = MAX_MSG_SIZE + 1 := by rw [hdata, List.length_replicate]
  obtain ⟨hd, hhd⟩ : ∃ hd : Header, hd = ⟨['a'], 1, ['c'], 1⟩ := ⟨_, rfl⟩
  have hm : (0 : Nat) < MAX_MSG_SIZE := by decide
  have ht : (data.take MAX_MSG_SIZE).length = MAX_MSG_SIZE := by rw [List.length_take, hl]; omega
  have hdl : (data.drop MAX_MSG_SIZE).length = 1 := by rw [List.length_drop, hl]; omega
  have e : write hd 7 data = [⟨hd, some ⟨7, data.length, 0⟩, data.take MAX_MSG_SIZE⟩,
      ⟨hd, some ⟨7, data.length, MAX_MSG_SIZE⟩, data.drop MAX_MSG_SIZE⟩] := by
    unfold write
    rw [if_neg (by omega)]
    obtain ⟨n, hn⟩ : ∃ n, data.length = n + 1 + 1 + 1 := ⟨MAX_MSG_SIZE - 2, by
      rw [hl]; have : 2 < MAX_MSG_SIZE := by decide
      omega⟩
    have hne : data ≠ [] := by intro e; rw [e] at hl; simp at hl
    have hne2 : data.drop MAX_MSG_SIZE ≠ [] := by intro e; rw [e] at hdl; simp at hdl
    have hnil : (data.drop MAX_MSG_SIZE).drop MAX_MSG_SIZE = [] := List.drop_eq_nil_of_le (by omega)
    have c1 : cut MAX_MSG_SIZE data.length 0 data = [(0, data.take MAX_MSG_SIZE), (MAX_MSG_SIZE, data.drop MAX_MSG_SIZE)] := by
      rw [show cut MAX_MSG_SIZE data.length 0 data = cut MAX_MSG_SIZE (n + 1 + 1 + 1) 0 data by rw [hn]]
      simp only [cut, if_neg hne, if_neg hne2, hnil, if_true, ht, Nat.zero_add]
      rw [List.take_of_length_le (l := data.drop MAX_MSG_SIZE) (by omega)]
    rw [c1]; rfl
  obtain ⟨f1, hf1⟩ : ∃ f : Wire, f = ⟨hd, some ⟨7, data.length, 0⟩, data.take MAX_MSG_SIZE⟩ := ⟨_, rfl⟩
  obtain ⟨f2, hf2⟩ : ∃ f : Wire, f = ⟨hd, some ⟨7, data.length, MAX_MSG_SIZE⟩, data.drop MAX_MSG_SIZE⟩ := ⟨_, rfl⟩
  have o1 : OfMsg 7 f1 := ⟨_, by rw [hf1], rfl⟩
  have o2 : OfMsg 7 f2 := ⟨_, by rw [hf2], rfl⟩
  refine ⟨[.data [f2], .data [f1]], hd, data, [f2], f1, OneByOne.settled (fun ws hw => ?_) _, by omega, rfl, by simp, ?_, ?_, ?_⟩
  · simp at hw; rcases hw with rfl | rfl <;> simp
  · simp [packets, o1, o2]
  · intro w; rw [e, ← hf1, ← hf2]; simp [or_comm]
  · rw [List.mem_singleton, hf1, hf2]
    intro h
    injection h with _ h _
    injection h with h
    injection h with _ _ h
    omega

end Verif.Frag
