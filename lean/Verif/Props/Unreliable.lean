import Verif.Spec.Unreliable
/-! # C48: the unreliable transports -/
namespace Verif.Unrel

/-! ## Sorting and drawing -/

theorem mem_insertSorted {x y : Nat} : ∀ {l : List Nat}, y ∈ insertSorted x l ↔ y = x ∨ y ∈ l
  | [] => by simp [insertSorted]
  | z :: l => by
    unfold insertSorted
    split
    · simp
    · rw [List.mem_cons, mem_insertSorted, List.mem_cons]
      constructor
      · rintro (h | h | h) <;> simp [h]
      · rintro (h | h | h) <;> simp [h]

theorem mem_sortList {y : Nat} : ∀ {l : List Nat}, y ∈ sortList l ↔ y ∈ l
  | [] => by simp [sortList]
  | x :: l => by
    show y ∈ insertSorted x (sortList l) ↔ _
    rw [mem_insertSorted, mem_sortList, List.mem_cons]

/-- Strictly increasing. -/
abbrev Inc (l : List Nat) : Prop := l.Pairwise (· < ·)

theorem inc_insert {x : Nat} : ∀ {l : List Nat}, Inc l → x ∉ l → Inc (insertSorted x l)
  | [], _, _ => by simp [insertSorted, Inc]
  | y :: l, h, hx => by
    unfold insertSorted
    have h' := List.pairwise_cons.mp h
    have hne : x ≠ y := fun e => hx (by simp [e])
    split
    · next hle =>
      refine List.pairwise_cons.mpr ⟨fun z hz => ?_, h⟩
      rcases List.mem_cons.mp hz with rfl | hz
      · omega
      · have := h'.1 z hz; omega
    · next hle =>
      refine List.pairwise_cons.mpr ⟨fun z hz => ?_, inc_insert h'.2 (fun hm => hx (List.mem_cons_of_mem _ hm))⟩
      rcases mem_insertSorted.mp hz with rfl | hz
      · omega
      · exact h'.1 z hz

theorem inc_sortList : ∀ {l : List Nat}, l.Nodup → Inc (sortList l)
  | [], _ => List.Pairwise.nil
  | x :: l, h => by
    have h' := List.nodup_cons.mp h
    exact inc_insert (inc_sortList h'.2) (fun hm => h'.1 (mem_sortList.mp hm))

theorem pick_spec (rnd : Nat → Nat → Nat) (H : Nat) : ∀ (n k : Nat) (l : List Nat), l.Nodup → (pick rnd H n k l).Nodup ∧
    ∀ p, p ∈ pick rnd H n k l ↔ p ∈ l ∨ ∃ i, i < n ∧ rnd (k + i) H = p
  | 0, k, l, h => ⟨h, fun p => by simp [pick]⟩
  | n + 1, k, l, h => by
    have hn : (if rnd k H ∈ l then l else l ++ [rnd k H]).Nodup := by
      split
      · exact h
      · next hm =>
        refine List.nodup_append.mpr ⟨h, by simp, fun a ha b hb => ?_⟩
        simp at hb; subst hb
        rintro rfl; exact hm ha
    obtain ⟨h1, h2⟩ := pick_spec rnd H n (k + 1) _ hn
    refine ⟨h1, fun p => ?_⟩
    rw [pick, h2]
    have hmem : p ∈ (if rnd k H ∈ l then l else l ++ [rnd k H]) ↔ p ∈ l ∨ rnd k H = p := by
      split
      · next hm =>
        constructor
        · exact .inl
        · rintro (h | rfl)
          · exact h
          · exact hm
      · simp [eq_comm]
    rw [hmem]
    constructor
    · rintro ((h | h) | ⟨i, hi, h⟩)
      · exact .inl h
      · exact .inr ⟨0, by omega, h⟩
      · exact .inr ⟨i + 1, by omega, by rw [← h]; congr 1; omega⟩
    · rintro (h | ⟨i, hi, h⟩)
      · exact .inl (.inl h)
      · cases i with
        | zero => exact .inl (.inr h)
        | succ i => exact .inr ⟨i, by omega, by rw [← h]; congr 1; omega⟩

/-! ## Corrupting -/

theorem flip_length (S : Nat → Prop) [DecidablePred S] (off : Nat) (w : Bytes) : (flip S off w).length = w.length := by simp [flip]

theorem corruptByte_eq {data : Bytes} {off p : Nat} (h1 : off ≤ p) (h2 : p < data.length + off) :
    corruptByte data ((p : Int) - off) = some (flip (· = p) off data) := by
  unfold corruptByte
  have hr : ((p : Int) - off).toNat = p - off := by omega
  rw [if_pos (by omega), hr]
  have hlt : p - off < data.length := by omega
  rw [List.getElem?_eq_getElem hlt]
  dsimp only
  rw [List.append_assoc]
  congr 1
  apply List.ext_getElem
  · simp [flip]; omega
  · intro n hn hn'
    simp only [flip, List.getElem_mapIdx]
    rcases Nat.lt_trichotomy n (p - off) with h | h | h
    · rw [if_neg (by omega), List.getElem_append_left (by simp; omega), List.getElem_take]
    · subst h
      rw [if_pos (by omega), List.getElem_append_right (by simp; omega), List.getElem_append_left (by simp; omega)]
      simp
    · rw [if_neg (by omega)]
      rw [List.getElem_append_right (by simp; omega), List.getElem_append_right (by simp; omega)]
      rw [List.getElem_drop]
      congr 1
      simp; omega

theorem flip_flip (S T : Nat → Prop) [DecidablePred S] [DecidablePred T] (off : Nat) (w : Bytes) (hd : ∀ p, S p → ¬ T p) :
    flip S off (flip T off w) = flip (fun p => S p ∨ T p) off w := by
  apply List.ext_getElem
  · simp [flip]
  · intro n h1 h2
    simp only [flip, List.getElem_mapIdx]
    by_cases hs : S (off + n)
    · rw [if_pos hs, if_neg (hd _ hs), if_pos (.inl hs)]
    · rw [if_neg hs]
      by_cases ht : T (off + n)
      · rw [if_pos ht, if_pos (.inr ht)]
      · rw [if_neg ht, if_neg (fun h => h.elim hs ht)]

theorem flip_congr {S T : Nat → Prop} [DecidablePred S] [DecidablePred T] {off : Nat} {w : Bytes}
    (h : ∀ p, off ≤ p → p < off + w.length → (S p ↔ T p)) : flip S off w = flip T off w := by
  apply List.ext_getElem
  · simp [flip]
  · intro n h1 h2
    simp only [flip, List.getElem_mapIdx]
    have hn : n < w.length := by simpa [flip] using h1
    have := h (off + n) (by omega) (by omega)
    by_cases hs : S (off + n)
    · rw [if_pos hs, if_pos (this.mp hs)]
    · rw [if_neg hs, if_neg (fun ht => hs (this.mpr ht))]

theorem corrupt_spec (idx n : Nat) : ∀ (l : List Nat) (data : Bytes), data.length = n → Inc l → (∀ p ∈ l, idx ≤ p) →
    corrupt idx (n + idx) l data = (l.filter (fun p => decide (n + idx ≤ p)), some (flip (· ∈ l) idx data))
  | [], data, _, _, _ => by
    have : flip (· ∈ ([] : List Nat)) idx data = data := by
      apply List.ext_getElem
      · simp [flip]
      · intro n h1 h2; simp [flip]
    rw [this]; rfl
  | p :: l, data, hn, hi, hl => by
    have hi' := List.pairwise_cons.mp hi
    unfold corrupt
    split
    · next hp =>
      rw [corruptByte_eq (hl p (List.mem_cons_self ..)) (by omega)]
      dsimp only
      rw [corrupt_spec idx n l _ (by rw [flip_length]; exact hn) hi'.2 (fun q hq => hl q (List.mem_cons_of_mem _ hq))]
      have h2 : flip (· ∈ l) idx (flip (· = p) idx data) = flip (· ∈ p :: l) idx data := by
        rw [flip_flip _ _ _ _ (by rintro q hq rfl; exact Nat.lt_irrefl _ (hi'.1 q hq))]
        exact flip_congr fun q _ _ => by rw [List.mem_cons]; exact Or.comm
      rw [h2, List.filter_cons_of_neg (by simp; omega)]
    · next hp =>
      have h1 : flip (· ∈ p :: l) idx data = data := by
        apply List.ext_getElem
        · simp [flip]
        · intro m h1 h2
          simp only [flip, List.getElem_mapIdx]
          rw [if_neg]
          intro hm
          rcases List.mem_cons.mp hm with h | h
          · omega
          · have := hi'.1 _ h; omega
      rw [h1]
      have h2 : (p :: l).filter (fun q => decide (n + idx ≤ q)) = p :: l := by
        rw [List.filter_eq_self]
        intro q hq
        rcases List.mem_cons.mp hq with rfl | hq
        · simp; omega
        · have := hi'.1 q hq; simp; omega
      rw [h2]

/-- In period `j`, of which `byteIndex` bytes have been written. -/
structure Inv (rnd : Nat → Nat → Nat) (cfg : Settings) (j : Nat) (s : St) : Prop where
  cur : s.cur = cfg
  draws : s.draws = (j + 1) * cfg.errors
  inc : Inc s.bytesToCorrupt
  mem : ∀ p, p ∈ s.bytesToCorrupt ↔ Sel rnd cfg j p ∧ s.byteIndex ≤ p

theorem Inv.reset {rnd : Nat → Nat → Nat} {cfg : Settings} {j : Nat} {s : St} (h : s.draws = j * cfg.errors) (h0 : s.byteIndex = 0) :
    Inv rnd cfg j (reset rnd cfg s) := by
  obtain ⟨p1, p2⟩ := pick_spec rnd cfg.horizon cfg.errors s.draws [] List.nodup_nil
  refine ⟨rfl, ?_, inc_sortList p1, fun p => ?_⟩
  · show s.draws + cfg.errors = _
    rw [h, Nat.succ_mul]
  · show p ∈ sortList _ ↔ _
    rw [mem_sortList, p2, h]
    show _ ↔ Sel rnd cfg j p ∧ s.byteIndex ≤ p
    rw [h0]
    simp [Sel]

theorem Inv.init (rnd : Nat → Nat → Nat) (cfg : Settings) : Inv rnd cfg 0 (init rnd cfg) := Inv.reset (by simp) rfl

/-- One write. -/
theorem write_spec {rnd : Nat → Nat → Nat} {cfg : Settings} {j : Nat} {s : St} (h : Inv rnd cfg j s) (w : Bytes) :
    (write rnd cfg s w).out = s.out ++ [flip (Sel rnd cfg j) s.byteIndex w] ∧
    if s.byteIndex + w.length > cfg.horizon then (write rnd cfg s w).byteIndex = 0 ∧ Inv rnd cfg (j + 1) (write rnd cfg s w)
    else (write rnd cfg s w).byteIndex = s.byteIndex + w.length ∧ Inv rnd cfg j (write rnd cfg s w) := by
  have hc := corrupt_spec s.byteIndex w.length s.bytesToCorrupt w rfl h.inc (fun p hp => ((h.mem p).mp hp).2)
  have hflip : flip (· ∈ s.bytesToCorrupt) s.byteIndex w = flip (Sel rnd cfg j) s.byteIndex w :=
    flip_congr fun p hp _ => by rw [h.mem]; exact ⟨fun x => x.1, fun x => ⟨x, hp⟩⟩
  rw [hflip] at hc
  have hw : write rnd cfg s w = finish rnd cfg { s with bytesToCorrupt := s.bytesToCorrupt.filter (fun p => decide (w.length + s.byteIndex ≤ p)) }
      (flip (Sel rnd cfg j) s.byteIndex w) := by
    unfold write
    rw [if_neg (by simp [h.cur])]
    dsimp only
    rw [hc]
  rw [hw]
  unfold finish
  dsimp only
  rw [flip_length]
  by_cases hh : s.byteIndex + w.length > cfg.horizon
  · rw [if_pos hh]
    refine ⟨rfl, ?_⟩
    rw [if_pos hh]
    have hr : Inv rnd cfg (j + 1) (reset rnd cfg { s with byteIndex := 0, bytesToCorrupt := s.bytesToCorrupt.filter (fun p => decide (w.length + s.byteIndex ≤ p)) }) :=
      Inv.reset h.draws rfl
    exact ⟨rfl, ⟨hr.cur, hr.draws, hr.inc, hr.mem⟩⟩
  · rw [if_neg hh]
    refine ⟨rfl, ?_⟩
    rw [if_neg hh]
    refine ⟨rfl, ⟨h.cur, h.draws, List.Pairwise.filter _ h.inc, fun p => ?_⟩⟩
    show p ∈ s.bytesToCorrupt.filter _ ↔ Sel rnd cfg j p ∧ s.byteIndex + w.length ≤ p
    rw [List.mem_filter, h.mem]
    constructor
    · rintro ⟨⟨h1, h2⟩, h3⟩
      exact ⟨h1, by simp at h3; omega⟩
    · rintro ⟨h1, h2⟩
      exact ⟨⟨h1, by omega⟩, by simp; omega⟩

theorem writes_spec {rnd : Nat → Nat → Nat} {cfg : Settings} : ∀ (ws : List Bytes) {j : Nat} {s : St}, Inv rnd cfg j s →
    (writes rnd cfg s ws).out = s.out ++ expected rnd cfg j s.byteIndex ws
  | [], _, s, _ => by simp [writes, expected]
  | w :: ws, j, s, h => by
    obtain ⟨h1, h2⟩ := write_spec h w
    show (writes rnd cfg (write rnd cfg s w) ws).out = _
    rw [expected]
    split at h2
    · next hh =>
      rw [writes_spec ws h2.2, h1, h2.1, if_pos hh, List.append_assoc]; rfl
    · next hh =>
      rw [writes_spec ws h2.2, h1, h2.1, if_neg hh, List.append_assoc]; rfl

/-- C48 with settings that are not changed: each write gives one write, in the same order, and exactly the bytes at the offsets
drawn for the current period are inverted. -/
theorem C48_exact (rnd : Nat → Nat → Nat) (cfg : Settings) (ws : List Bytes) :
    (writes rnd cfg (init rnd cfg) ws).out = expected rnd cfg 0 0 ws :=
  writes_spec ws (Inv.init rnd cfg)

theorem expected_length (rnd : Nat → Nat → Nat) (cfg : Settings) : ∀ (ws : List Bytes) (j off : Nat), (expected rnd cfg j off ws).map List.length = ws.map List.length
  | [], _, _ => rfl
  | w :: ws, j, off => by
    rw [expected, List.map_cons, List.map_cons, flip_length]
    congr 1
    split
    · exact expected_length rnd cfg ws _ _
    · exact expected_length rnd cfg ws _ _

/-- C48: number, order and lengths of the writes are preserved. -/
theorem C48_lengths (rnd : Nat → Nat → Nat) (cfg : Settings) (ws : List Bytes) :
    (writes rnd cfg (init rnd cfg) ws).out.map List.length = ws.map List.length := by
  rw [C48_exact]; exact expected_length rnd cfg ws 0 0

theorem flip_append (S : Nat → Prop) [DecidablePred S] (off : Nat) (a b : Bytes) : flip S off (a ++ b) = flip S off a ++ flip S (off + a.length) b := by
  apply List.ext_getElem
  · simp [flip]
  · intro n h1 h2
    rcases Nat.lt_or_ge n a.length with h | h
    · rw [List.getElem_append_left (by simpa [flip] using h)]
      simp [flip, List.getElem_append_left h]
    · rw [List.getElem_append_right (by simpa [flip] using h)]
      have e : off + a.length + (n - a.length) = off + n := by omega
      simp [flip, List.getElem_append_right h, e]

theorem expected_one (rnd : Nat → Nat → Nat) (cfg : Settings) (j : Nat) : ∀ (ws : List Bytes) (off : Nat), off + ws.flatten.length ≤ cfg.horizon →
    (expected rnd cfg j off ws).flatten = flip (Sel rnd cfg j) off ws.flatten
  | [], off, _ => by simp [expected, flip]
  | w :: ws, off, h => by
    have h' : off + w.length + ws.flatten.length ≤ cfg.horizon := by simp at h ⊢; omega
    rw [expected, if_neg (by omega), List.flatten_cons, List.flatten_cons, flip_append, expected_one rnd cfg j ws _ h']

/-- C48: as long as the horizon is not exceeded, the data that comes out is the data that was written with the bytes at the drawn offsets
inverted, however it was cut into writes. -/
theorem C48_cut_partial (rnd : Nat → Nat → Nat) (cfg : Settings) (ws : List Bytes) (h : ws.flatten.length ≤ cfg.horizon) :
    (writes rnd cfg (init rnd cfg) ws).out.flatten = flip (Sel rnd cfg 0) 0 ws.flatten := by
  rw [C48_exact]; exact expected_one rnd cfg 0 ws 0 (by omega)

/-- Beyond the horizon the cut matters, because a period ends with a write (horizon 1, one error, always at offset 0). -/
theorem C48_false_cut : (writes (fun _ _ => 0) ⟨1, 1⟩ (init (fun _ _ => 0) ⟨1, 1⟩) [[0, 0], [0]]).out.flatten = [255, 0, 255] ∧
    (writes (fun _ _ => 0) ⟨1, 1⟩ (init (fun _ _ => 0) ⟨1, 1⟩) [[0, 0, 0]]).out.flatten = [255, 0, 0] := by decide +kernel

/-- When the settings are changed in the middle of a period, the length of the data is not preserved, or the write raises an
exception and the data is lost. -/
theorem C48_false_settings :
    (write (fun k n => if k = 0 then n else 9) ⟨1, 20⟩ (write (fun k n => if k = 0 then n else 9) ⟨1, 50⟩ (init (fun k n => if k = 0 then n else 9) ⟨1, 50⟩) (List.replicate 10 0)) [1, 2]).out.getLast?
      = some [1, 253, 1, 2] ∧
    (write (fun k n => if k = 0 then n else 3) ⟨1, 20⟩ (write (fun k n => if k = 0 then n else 3) ⟨1, 50⟩ (init (fun k n => if k = 0 then n else 3) ⟨1, 50⟩) (List.replicate 10 0)) [1, 2]).out
      = [List.replicate 10 0] := by decide +kernel

/-! ## Delays -/

/-- Every write is made at most once, and the writes made or still pending are all the writes (as multisets). -/
theorem C48_delay_all : ∀ (h : List DEv), (dexec .init h).out.length + (dexec .init h).pending.length = (allWrites h).length ∧
    ∀ d, (dexec .init h).out.count d + ((dexec .init h).pending.map (·.2)).count d = (allWrites h).count d := by
  have key : ∀ (h : List DEv) (s : DSt), (s.pending.map (·.1)).Nodup → (∀ x ∈ s.pending, x.1 < s.next) →
      (dexec s h).out.length + (dexec s h).pending.length = s.out.length + s.pending.length + (allWrites h).length ∧
      ∀ d, (dexec s h).out.count d + ((dexec s h).pending.map (·.2)).count d = s.out.count d + (s.pending.map (·.2)).count d + (allWrites h).count d := by
    intro h
    induction h with
    | nil => intro s _ _; simp [dexec, allWrites]
    | cons e h ih =>
      intro s hn hl
      rw [show dexec s (e :: h) = dexec (dstep s e) h from rfl]
      cases e with
      | write d b =>
        cases b with
        | true =>
          obtain ⟨i1, i2⟩ := ih { s with pending := s.pending ++ [(s.next, d)], next := s.next + 1 } (by
              show ((s.pending ++ [(s.next, d)]).map (·.1)).Nodup
              rw [List.map_append]
              refine List.nodup_append.mpr ⟨hn, by simp, fun a ha b hb => ?_⟩
              simp at hb; subst hb
              obtain ⟨x, hx, rfl⟩ := List.mem_map.mp ha
              have := hl x hx; omega)
            (by
              intro x hx
              show x.1 < s.next + 1
              rcases List.mem_append.mp hx with hx | hx
              · have := hl x hx; omega
              · simp at hx; subst hx; show s.next < s.next + 1; omega)
          refine ⟨by rw [show dstep s (.write d true) = { s with pending := s.pending ++ [(s.next, d)], next := s.next + 1 } from rfl, i1]; simp [allWrites]; omega, fun x => ?_⟩
          show (dexec (dstep s (.write d true)) h).out.count x + _ = _
          rw [show dstep s (.write d true) = { s with pending := s.pending ++ [(s.next, d)], next := s.next + 1 } from rfl]
          refine (i2 x).trans ?_
          simp only [allWrites, List.map_append, List.count_append, List.count_cons, List.map_cons, List.map_nil, List.count_nil]
          omega
        | false =>
          obtain ⟨i1, i2⟩ := ih { s with out := s.out ++ [d] } hn hl
          refine ⟨by rw [show dstep s (.write d false) = { s with out := s.out ++ [d] } from rfl, i1]; simp [allWrites]; omega, fun x => ?_⟩
          show (dexec (dstep s (.write d false)) h).out.count x + _ = _
          rw [show dstep s (.write d false) = { s with out := s.out ++ [d] } from rfl]
          refine (i2 x).trans ?_
          simp only [allWrites, List.count_append, List.count_cons, List.count_nil]
          omega
      | timer i =>
        cases hf : s.pending.find? (·.1 = i) with
        | none =>
          have hs : dstep s (.timer i) = s := by unfold dstep; dsimp only; rw [hf]
          rw [hs]
          have hh := ih s hn hl
          exact ⟨hh.1, hh.2⟩
        | some q =>
          obtain ⟨k, d⟩ := q
          have hs : dstep s (.timer i) = { s with pending := s.pending.filter (·.1 ≠ i), out := s.out ++ [d] } := by unfold dstep; dsimp only; rw [hf]
          have hk : k = i := by simpa using List.find?_some hf
          subst hk
          have hm := List.mem_of_find?_eq_some hf
          have hcnt : ∀ (l : List (Nat × Bytes)), (l.map (·.1)).Nodup → (k, d) ∈ l →
              l.length = (l.filter (·.1 ≠ k)).length + 1 ∧ ∀ x, (l.map (·.2)).count x = ((l.filter (·.1 ≠ k)).map (·.2)).count x + [d].count x := by
            intro l
            induction l with
            | nil => intro _ h; cases h
            | cons y l ihl =>
              intro hn hm
              rw [List.map_cons, List.nodup_cons] at hn
              rcases List.mem_cons.mp hm with rfl | hm
              · have hl' : l.filter (·.1 ≠ k) = l := by
                  rw [List.filter_eq_self]
                  intro z hz
                  have : z.1 ≠ k := fun e => hn.1 (List.mem_map.mpr ⟨z, hz, e⟩)
                  simpa using this
                rw [List.filter_cons_of_neg (by simp), hl']
                exact ⟨rfl, fun x => by simp [List.count_cons]⟩
              · have hy : y.1 ≠ k := fun e => hn.1 (List.mem_map.mpr ⟨(k, d), hm, e.symm⟩)
                rw [List.filter_cons_of_pos (by simpa using hy)]
                obtain ⟨j1, j2⟩ := ihl hn.2 hm
                refine ⟨by simp [j1], fun x => ?_⟩
                rw [List.map_cons, List.count_cons, List.map_cons, List.count_cons, j2 x]
                omega
          obtain ⟨c1, c2⟩ := hcnt s.pending hn hm
          obtain ⟨i1, i2⟩ := ih { s with pending := s.pending.filter (·.1 ≠ k), out := s.out ++ [d] }
            ((List.filter_sublist.map _).nodup hn) (fun x hx => hl x (List.mem_filter.mp hx).1)
          rw [hs]
          refine ⟨by rw [i1]; simp [allWrites] at c1 ⊢; omega, fun x => ?_⟩
          refine (i2 x).trans ?_
          have := c2 x
          simp only [allWrites, List.count_append] at this ⊢
          omega
  intro h
  obtain ⟨k1, k2⟩ := key h .init (by simp [DSt.init]) (by simp [DSt.init])
  exact ⟨by simpa [DSt.init] using k1, fun d => by simpa [DSt.init] using k2 d⟩

/-- The writes that are not delayed keep their order; if none is delayed the data comes out as it was written. -/
theorem C48_delay_order : ∀ (h : List DEv), (direct h).Sublist (dexec .init h).out := by
  have key : ∀ (h : List DEv) (s : DSt), ∃ t, (dexec s h).out = s.out ++ t ∧ (direct h).Sublist t := by
    intro h
    induction h with
    | nil => intro s; exact ⟨[], by simp [dexec], .slnil⟩
    | cons e h ih =>
      intro s
      obtain ⟨t, h1, h2⟩ := ih (dstep s e)
      show ∃ t, (dexec (dstep s e) h).out = s.out ++ t ∧ _
      cases e with
      | write d b =>
        cases b with
        | true => exact ⟨t, h1, h2⟩
        | false => exact ⟨d :: t, by rw [h1]; show (s.out ++ [d]) ++ t = _; simp, h2.cons_cons d⟩
      | timer i =>
        unfold dstep at h1 ⊢
        dsimp only at h1 ⊢
        cases hf : s.pending.find? (·.1 = i) with
        | none => rw [hf] at h1; exact ⟨t, h1, h2⟩
        | some q =>
          rw [hf] at h1
          exact ⟨q.2 :: t, by rw [h1]; show (s.out ++ [q.2]) ++ t = _; simp, h2.cons q.2⟩
  intro h
  obtain ⟨t, h1, h2⟩ := key h .init
  rw [h1]; exact h2

/-! ## Examples -/
example : (writes (fun k _ => [3, 7, 3].getD k 5) ⟨3, 100⟩ (init (fun k _ => [3, 7, 3].getD k 5) ⟨3, 100⟩) [[0, 1], [2, 3, 4], [5, 6, 7, 8]]).out =
    [[0, 1], [2, 252, 4], [5, 6, 248, 8]] := by decide +kernel
example : (dexec .init [.write [1] false, .write [2] true, .write [3] false, .timer 0, .timer 0]).out = [[1], [3], [2]] := by decide +kernel

end Verif.Unrel
