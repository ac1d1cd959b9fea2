import Verif.Lemmas.Logging
/-! # C70: messages go where the log level says -/
namespace Verif.Logging

theorem accepts_stderr {aux : List Str} {cs : List (Preset × Bool)} {s : St} (h : Inv aux cs s) (name : Str) :
    accepts s 0 name = true ↔ ∀ ms ∈ stderrLists aux cs, (∃ m ∈ ms, Under m name) ∧ getTag name = [] := by
  unfold accepts
  have : (s.hFilters 0).all (fun f => logThisLogger (s.filter f) name) = ((s.hFilters 0).map s.filter).all fun f => logThisLogger f name := by
    rw [List.all_map]; rfl
  rw [this, h.core.err, List.all_map, List.all_eq_true]
  constructor
  · intro hh ms hm
    exact (passes_iff ms name).1 (hh ms hm)
  · intro hh ms hm
    exact (passes_iff ms name).2 (hh ms hm)

open Classical in
/-- The handlers of a message in one form. -/
theorem writers_force {s : St} {err file : Option Nat} {add : List Str} (h : Force s err file add) (name : Str) (l : Nat) :
    ∃ n, writers s name l =
      (if (∃ v, err = some v ∧ (l = 0 ∨ v ≤ l)) ∧ accepts s 0 name = true then [0] else []) ++
      (if (∃ v, file = some v ∧ (l = 0 ∨ v ≤ l)) ∧ ((∃ m ∈ "playground".toList :: add, Under m name) ∧ getTag name = []) then [n] else []) ∧
      n ≠ 0 := by
  obtain ⟨f0, f1, n, h1, h2, h3⟩ := h
  have part0 : ∀ v, err = some v → (((decide (l = notset) || decide (s.hLevel 0 ≤ l)) && accepts s 0 name) = true ↔
      (∃ v, err = some v ∧ (l = 0 ∨ v ≤ l)) ∧ accepts s 0 name = true) := by
    intro v hv
    rw [Bool.and_eq_true, Bool.or_eq_true, decide_eq_true_iff, decide_eq_true_iff, (h2 v hv).1]
    apply and_congr _ Iff.rfl
    constructor
    · intro hh; exact ⟨v, hv, hh⟩
    · rintro ⟨v', hv', hh⟩; rw [hv] at hv'; cases hv'; exact hh
  have part1 : ∀ v, file = some v → (((decide (l = notset) || decide (s.hLevel n ≤ l)) && accepts s n name) = true ↔
      (∃ v, file = some v ∧ (l = 0 ∨ v ≤ l)) ∧ ((∃ m ∈ "playground".toList :: add, Under m name) ∧ getTag name = [])) := by
    intro v hv
    obtain ⟨_, a, b, c, _⟩ := h3 v hv
    rw [Bool.and_eq_true, Bool.or_eq_true, decide_eq_true_iff, decide_eq_true_iff, a]
    apply and_congr
    · constructor
      · intro hh; exact ⟨v, hv, hh⟩
      · rintro ⟨v', hv', hh⟩; rw [hv] at hv'; cases hv'; exact hh
    · unfold accepts
      rw [b]
      simp only [List.all_cons, List.all_nil, Bool.and_true, c]
      exact passes_iff _ _
  have hon : err.isSome ∨ file.isSome → On s := by
    rintro (h | h)
    · obtain ⟨v, hv⟩ := Option.isSome_iff_exists.1 h; exact (h2 v hv).2
    · obtain ⟨v, hv⟩ := Option.isSome_iff_exists.1 h; exact (h3 v hv).2.2.2.2
  unfold writers
  rw [h1]
  cases err with
  | none =>
    cases file with
    | none =>
      refine ⟨1, ?_, by omega⟩
      rw [if_neg (c := (∃ v, (none : Option Nat) = some v ∧ _) ∧ accepts s 0 name = true) (by rintro ⟨⟨_, h, _⟩, _⟩; cases h),
        if_neg (c := (∃ v, (none : Option Nat) = some v ∧ _) ∧ _) (by rintro ⟨⟨_, h, _⟩, _⟩; cases h)]
      simp [Dict.keys]
    | some v =>
      refine ⟨n, ?_, (h3 v rfl).1⟩
      obtain ⟨a, b, c⟩ := hon (.inr rfl)
      rw [if_pos ⟨a, by omega, by omega⟩]
      simp only [Option.isSome_none, Option.isSome_some, if_true, Bool.false_eq_true, if_false, List.nil_append, Dict.keys, List.map_cons,
        List.map_nil, List.filter_cons, List.filter_nil]
      rw [if_neg (c := (∃ v, (none : Option Nat) = some v ∧ _) ∧ _) (by rintro ⟨⟨_, h, _⟩, _⟩; cases h), List.nil_append]
      by_cases hc : ((decide (l = notset) || decide (s.hLevel n ≤ l)) && accepts s n name) = true
      · rw [if_pos hc, if_pos ((part1 v rfl).1 hc)]
      · rw [if_neg hc, if_neg (fun hh => hc ((part1 v rfl).2 hh))]
  | some v0 =>
    obtain ⟨a, b, c⟩ := hon (.inl rfl)
    rw [if_pos ⟨a, by omega, by omega⟩]
    cases file with
    | none =>
      refine ⟨1, ?_, by omega⟩
      simp only [Option.isSome_none, Option.isSome_some, if_true, Bool.false_eq_true, if_false, List.append_nil, Dict.keys, List.map_cons,
        List.map_nil, List.filter_cons, List.filter_nil]
      rw [if_neg (c := (∃ v, (none : Option Nat) = some v ∧ _) ∧ _) (by rintro ⟨⟨_, h, _⟩, _⟩; cases h), List.append_nil]
      by_cases hc : ((decide (l = notset) || decide (s.hLevel 0 ≤ l)) && accepts s 0 name) = true
      · rw [if_pos hc, if_pos ((part0 v0 rfl).1 hc)]
      · rw [if_neg hc, if_neg (fun hh => hc ((part0 v0 rfl).2 hh))]
    | some v =>
      refine ⟨n, ?_, (h3 v rfl).1⟩
      simp only [Option.isSome_some, if_true, Dict.keys, List.map_cons, List.map_append, List.cons_append, List.nil_append,
        List.map_nil, List.filter_cons, List.filter_nil]
      have e1 : (if ((decide (l = notset) || decide (s.hLevel n ≤ l)) && accepts s n name) = true then [n] else []) =
          (if (∃ v', some v = some v' ∧ (l = 0 ∨ v' ≤ l)) ∧ ((∃ m ∈ "playground".toList :: add, Under m name) ∧ getTag name = []) then [n] else []) := by
        by_cases hc : ((decide (l = notset) || decide (s.hLevel n ≤ l)) && accepts s n name) = true
        · rw [if_pos hc, if_pos ((part1 v rfl).1 hc)]
        · rw [if_neg hc, if_neg (fun hh => hc ((part1 v rfl).2 hh))]
      by_cases hc : ((decide (l = notset) || decide (s.hLevel 0 ≤ l)) && accepts s 0 name) = true
      · rw [if_pos hc, if_pos ((part0 v0 rfl).1 hc), e1]; rfl
      · rw [if_neg hc, if_neg (fun hh => hc ((part0 v0 rfl).2 hh)), e1]; rfl

/-- The handlers of a message after any history, in one form. -/
theorem shape (aux : List Str) (h : List Ev) (name : Str) (l : Nat) :
    ∃ (e f : Prop) (n : Nat), n ≠ 0 ∧
      (writtenTo aux h name l = [] ∧ ¬ e ∧ ¬ f ∨ writtenTo aux h name l = [0] ∧ e ∧ ¬ f ∨ writtenTo aux h name l = [n] ∧ ¬ e ∧ f ∨
        writtenTo aux h name l = [0, n] ∧ e ∧ f) ∧
      (e ↔ ∃ p ok v, (calls h).getLast? = some (p, ok) ∧ toStderr p = some v ∧ (l = 0 ∨ v ≤ l) ∧ (∀ tag, ¬ HasTag name tag) ∧
        ∀ ms ∈ stderrLists aux (calls h), ∃ m ∈ ms, Under m name) ∧
      (f ↔ ∃ p v, (calls h).getLast? = some (p, true) ∧ toFile p = some v ∧ (l = 0 ∨ v ≤ l) ∧ (∀ tag, ¬ HasTag name tag) ∧
        ∃ m ∈ "playground".toList :: added aux (calls h), Under m name) := by
  have hi := Inv.reachable aux h
  have hf := hi.force
  rw [writtenTo_eq]
  cases hl : (calls h).getLast? with
  | none =>
    rw [hl] at hf
    refine ⟨False, False, 1, by omega, .inl ⟨?_, (fun h => h), (fun h => h)⟩, ?_, ?_⟩
    · unfold writers
      rw [hf]
      simp [Dict.keys]
    · constructor
      · exact False.elim
      · rintro ⟨p, ok, v, h1, _⟩; cases h1
    · constructor
      · exact False.elim
      · rintro ⟨p, v, h1, _⟩; cases h1
  | some c =>
    obtain ⟨p, ok⟩ := c
    rw [hl] at hf
    dsimp only at hf
    obtain ⟨n, hw, hn⟩ := writers_force hf name l
    rw [hw]
    refine ⟨(∃ v, toStderr p = some v ∧ (l = 0 ∨ v ≤ l)) ∧ accepts (exec aux .init h) 0 name = true,
      (∃ v, (if ok = true then toFile p else none) = some v ∧ (l = 0 ∨ v ≤ l)) ∧
        ((∃ m ∈ "playground".toList :: added aux (calls h), Under m name) ∧ getTag name = []), n, hn, ?_, ?_, ?_⟩
    rotate_left
    · show ((∃ v, toStderr p = some v ∧ (l = 0 ∨ v ≤ l)) ∧ accepts (exec aux .init h) 0 name = true) ↔ _
      rw [accepts_stderr hi]
      constructor
      · rintro ⟨⟨v, h1, h2⟩, h3⟩
        have hne : stderrLists aux (calls h) ≠ [] := by
          have hm : (p, ok) ∈ calls h := List.mem_of_getLast? hl
          obtain ⟨a, ha⟩ : ∃ a, (match toStderr p with | none => none | some _ => (adds aux p).map ("playground".toList :: ·)) = some a := by
            cases p <;> first | exact ⟨_, rfl⟩ | cases h1
          intro he
          have : a ∈ stderrLists aux (calls h) := List.mem_filterMap.2 ⟨(p, ok), hm, ha⟩
          rw [he] at this
          cases this
        obtain ⟨ms, rest, hms⟩ := List.exists_cons_of_ne_nil hne
        refine ⟨p, ok, v, rfl, h1, h2, (noTag_iff name).1 (h3 ms (by rw [hms]; simp)).2, fun ms hm => (h3 ms hm).1⟩
      · rintro ⟨p', ok', v, h1, h2, h3, h4, h5⟩
        cases h1
        exact ⟨⟨v, h2, h3⟩, fun ms hm => ⟨h5 ms hm, (noTag_iff name).2 h4⟩⟩
    · show ((∃ v, (if ok = true then toFile p else none) = some v ∧ (l = 0 ∨ v ≤ l)) ∧
        ((∃ m ∈ "playground".toList :: added aux (calls h), Under m name) ∧ getTag name = [])) ↔ _
      constructor
      · rintro ⟨⟨v, h1, h2⟩, h3, h4⟩
        cases ok with
        | false => cases h1
        | true => exact ⟨p, v, rfl, h1, h2, (noTag_iff name).1 h4, h3⟩
      · rintro ⟨p', v, h1, h2, h3, h4, h5⟩
        cases h1
        exact ⟨⟨v, h2, h3⟩, h5, (noTag_iff name).2 h4⟩
    · by_cases hc : (∃ v, toStderr p = some v ∧ (l = 0 ∨ v ≤ l)) ∧ accepts (exec aux .init h) 0 name = true <;>
        by_cases hd : (∃ v, (if ok = true then toFile p else none) = some v ∧ (l = 0 ∨ v ≤ l)) ∧
          ((∃ m ∈ "playground".toList :: added aux (calls h), Under m name) ∧ getTag name = [])
      · exact .inr (.inr (.inr ⟨by rw [if_pos hc, if_pos hd]; rfl, hc, hd⟩))
      · exact .inr (.inl ⟨by rw [if_pos hc, if_neg hd]; rfl, hc, hd⟩)
      · exact .inr (.inr (.inl ⟨by rw [if_neg hc, if_pos hd]; rfl, hc, hd⟩))
      · exact .inl ⟨by rw [if_neg hc, if_neg hd]; rfl, hc, hd⟩

/-- **C70**: exactly these messages go to stderr: the log level set last sends this level there, the logger has no tag, and it is below one
of the modules of that level and of every level that wrote to stderr before. -/
theorem C70_stderr (aux : List Str) (h : List Ev) (name : Str) (l : Nat) :
    0 ∈ writtenTo aux h name l ↔ ∃ p ok v, (calls h).getLast? = some (p, ok) ∧ toStderr p = some v ∧ (l = 0 ∨ v ≤ l) ∧
      (∀ tag, ¬ HasTag name tag) ∧ ∀ ms ∈ stderrLists aux (calls h), ∃ m ∈ ms, Under m name := by
  obtain ⟨e, f, n, hn, hs, he, _⟩ := shape aux h name l
  rw [← he]
  rcases hs with ⟨h1, h2, h3⟩ | ⟨h1, h2, h3⟩ | ⟨h1, h2, h3⟩ | ⟨h1, h2, h3⟩ <;> rw [h1]
  · simp [h2]
  · simp [h2]
  · simp [h2, Ne.symm hn]
  · simp [h2]

example : 0 ∈ writtenTo [] [.preset .test true] "playground.network".toList 10 := by decide +kernel
example : 0 ∈ writtenTo [] [.preset .verbose true, .log ['x'] 3] "asyncio.x".toList 40 := by decide +kernel
example : 0 ∉ writtenTo [] [.preset .verbose true] "asyncio.x".toList 30 := by decide +kernel

/-- **C70**: exactly these messages go to a log file: the log level set last sends this level there, and the file could be opened; the logger
has no tag, and it is below `playground` or one of the modules added last. -/
theorem C70_file (aux : List Str) (h : List Ev) (name : Str) (l : Nat) :
    (∃ n, n ≠ 0 ∧ n ∈ writtenTo aux h name l) ↔ ∃ p v, (calls h).getLast? = some (p, true) ∧ toFile p = some v ∧ (l = 0 ∨ v ≤ l) ∧
      (∀ tag, ¬ HasTag name tag) ∧ ∃ m ∈ "playground".toList :: added aux (calls h), Under m name := by
  obtain ⟨e, f, n, hn, hs, _, hf⟩ := shape aux h name l
  rw [← hf]
  rcases hs with ⟨h1, h2, h3⟩ | ⟨h1, h2, h3⟩ | ⟨h1, h2, h3⟩ | ⟨h1, h2, h3⟩ <;> rw [h1]
  · simp [h3]
  · simp [h3]
  · simp [h3, hn]
  · constructor
    · intro _; exact h3
    · intro _; exact ⟨n, hn, by simp⟩

example : writtenTo [] [.preset .verbose true] "playground.network".toList 10 = [1] := by decide +kernel
example : writtenTo [] [.preset .minimal true, .cmd 4 true] "playground.network".toList 1 = [0, 2] := by decide +kernel
example : writtenTo [] [.preset .quiet true] "playground.network".toList 19 = [] := by decide +kernel

/-- **C70**: no message is written twice to the same place, nor to two files. -/
theorem C70_once (aux : List Str) (h : List Ev) (name : Str) (l : Nat) :
    (writtenTo aux h name l).Nodup ∧ ∀ m n, m ≠ 0 → n ≠ 0 → m ∈ writtenTo aux h name l → n ∈ writtenTo aux h name l → m = n := by
  obtain ⟨e, f, k, hk, hs, _, _⟩ := shape aux h name l
  rcases hs with ⟨h1, h2, h3⟩ | ⟨h1, h2, h3⟩ | ⟨h1, h2, h3⟩ | ⟨h1, h2, h3⟩ <;> rw [h1]
  · simp
  · refine ⟨by simp, ?_⟩
    intro m n hm _ h
    exact absurd (List.mem_singleton.1 h) hm
  · refine ⟨by simp, ?_⟩
    intro m n _ _ h h'
    rw [List.mem_singleton.1 h, List.mem_singleton.1 h']
  · refine ⟨by simp [Ne.symm hk], ?_⟩
    intro m n hm hn h h'
    simp only [List.mem_cons, List.not_mem_nil, or_false] at h h'
    rcases h with h | h
    · exact absurd h hm
    · rcases h' with h' | h'
      · exact absurd h' hn
      · rw [h, h']

/-- **C70** (partial: only loggers below `playground`, not those of `asyncio` and the modules that programs add): for these the log level set
last decides alone, whatever was set before. -/
theorem C70_playground_partial (aux : List Str) (h : List Ev) (name : Str) (l : Nat) (hu : Under "playground".toList name)
    (ht : ∀ tag, ¬ HasTag name tag) (p : Preset) (ok : Bool) (hl : (calls h).getLast? = some (p, ok)) :
    (0 ∈ writtenTo aux h name l ↔ ∃ v, toStderr p = some v ∧ (l = 0 ∨ v ≤ l)) ∧
    ((∃ n, n ≠ 0 ∧ n ∈ writtenTo aux h name l) ↔ ok = true ∧ ∃ v, toFile p = some v ∧ (l = 0 ∨ v ≤ l)) := by
  rw [C70_stderr, C70_file, hl]
  constructor
  · constructor
    · rintro ⟨p', ok', v, h1, h2, h3, _⟩
      cases h1
      exact ⟨v, h2, h3⟩
    · rintro ⟨v, h2, h3⟩
      refine ⟨p, ok, v, rfl, h2, h3, ht, ?_⟩
      intro ms hm
      obtain ⟨c, _, hc⟩ := List.mem_filterMap.1 hm
      refine ⟨"playground".toList, ?_, hu⟩
      split at hc
      · cases hc
      · cases ha : adds aux c.1 with
        | none => rw [ha] at hc; cases hc
        | some a =>
          rw [ha] at hc
          rw [← Option.some.inj hc]
          exact List.mem_cons_self ..
  · constructor
    · rintro ⟨p', v, h1, h2, h3, _⟩
      cases h1
      exact ⟨rfl, v, h2, h3⟩
    · rintro ⟨rfl, v, h2, h3⟩
      exact ⟨p, v, rfl, h2, h3, ht, _, List.mem_cons_self .., hu⟩

example : Under "playground".toList "playground.network.x".toList ∧ (∀ tag, ¬ HasTag "playground.network.x".toList tag) ∧
    (calls [.preset .test true, .preset .max false, .cmd 1 true]).getLast? = some (.minimal, true) := by
  refine ⟨⟨"network.x".toList, by decide +kernel⟩, ?_, by decide +kernel⟩
  rw [← noTag_iff]
  decide +kernel

/-- **C70**: before any log level is set, and after one that turns logging off, nothing is written. -/
theorem C70_off (aux : List Str) (h : List Ev) (name : Str) (l : Nat)
    (hl : (calls h).getLast? = none ∨ ∃ ok, (calls h).getLast? = some (.off, ok)) : writtenTo aux h name l = [] := by
  obtain ⟨e, f, n, hn, hs, he, hf⟩ := shape aux h name l
  have h0 : ¬ e := by
    rw [he]
    rintro ⟨p, ok, v, h1, h2, _⟩
    rcases hl with hl | ⟨ok', hl⟩ <;> rw [hl] at h1 <;> cases h1
    cases h2
  have h1 : ¬ f := by
    rw [hf]
    rintro ⟨p, v, h1, h2, _⟩
    rcases hl with hl | ⟨ok', hl⟩ <;> rw [hl] at h1 <;> cases h1
    cases h2
  rcases hs with h | h | h | h
  · exact h.1
  · exact absurd h.2.1 h0
  · exact absurd h.2.2 h1
  · exact absurd h.2.1 h0

example : (calls [.cmd 0 true]).getLast? = some (.off, true) := by decide +kernel

/-- **C70**: a message of a tagged logger is never written, whatever log level is set. -/
theorem C70_tag (aux : List Str) (h : List Ev) (base tag : Str) (l : Nat) (ht : tag ≠ []) (hd : '.' ∉ tag) :
    writtenTo aux h (taggedName base tag) l = [] := by
  have hb : HasTag (taggedName base tag) tag := ⟨ht, hd, .inr ⟨base, rfl⟩⟩
  obtain ⟨e, f, n, hn, hs, he, hf⟩ := shape aux h (taggedName base tag) l
  have h0 : ¬ e := by
    rw [he]
    rintro ⟨p, ok, v, _, _, _, h, _⟩
    exact h tag hb
  have h1 : ¬ f := by
    rw [hf]
    rintro ⟨p, v, _, _, _, h, _⟩
    exact h tag hb
  rcases hs with h | h | h | h
  · exact h.1
  · exact absurd h.2.1 h0
  · exact absurd h.2.2 h1
  · exact absurd h.2.1 h0

example : ("raw".toList : Str) ≠ [] ∧ '.' ∉ "raw".toList := by decide

/-- The tag put into a name is found again. -/
theorem C70_tag_round (base tag : Str) (hd : '.' ∉ tag) : getTag (taggedName base tag) = tag := by
  by_cases ht : tag = []
  · subst ht
    apply (noTag_iff _).2
    intro tag ⟨h1, h2, h3⟩
    have hk : '.' ∉ "__playlogtag__".toList := by decide
    have hn : '.' ∉ "__playlogtag__".toList ++ tag := by
      intro hm
      rcases List.mem_append.1 hm with hm | hm
      · exact hk hm
      · exact h2 hm
    have e : taggedName base [] = base ++ '.' :: "__playlogtag__".toList := rfl
    rw [e] at h3
    rcases h3 with h3 | ⟨b, h3⟩
    · apply hn; rw [← h3]; simp
    · have := last_unique hk hn h3
      have := congrArg List.length this
      rw [List.length_append] at this
      exact h1 (List.eq_nil_of_length_eq_zero (by omega))
  · exact (getTag_iff _ _ ht).2 ⟨ht, hd, .inr ⟨base, rfl⟩⟩

example : getTag (taggedName "playground.X".toList "raw".toList) = "raw".toList := by decide +kernel
/-- A dot in the tag cuts it. -/
example : getTag (taggedName "playground.X".toList "a.b".toList) = [] := by decide +kernel

/-- **C70 is false**: a logger whose name has no dot is never written, not `asyncio`'s own nor `playground` itself, although the levels from
VERBOSE on say they include it. -/
theorem C70_false_plain (aux : List Str) (h : List Ev) (name : Str) (l : Nat) (hd : '.' ∉ name) : writtenTo aux h name l = [] := by
  have hu : ∀ m, ¬ Under m name := by
    rintro m ⟨r, rfl⟩
    exact hd (by simp)
  obtain ⟨e, f, n, hn, hs, he, hf⟩ := shape aux h name l
  have h1 : ¬ f := by
    rw [hf]
    rintro ⟨p, v, _, _, _, _, m, _, h⟩
    exact hu m h
  have h0 : ¬ e := by
    rw [he]
    rintro ⟨p, ok, v, h1, h2, _, _, h3⟩
    have hm : (p, ok) ∈ calls h := List.mem_of_getLast? h1
    obtain ⟨a, ha⟩ : ∃ a, (match toStderr p with | none => none | some _ => (adds aux p).map ("playground".toList :: ·)) = some a := by
      cases p <;> first | exact ⟨_, rfl⟩ | cases h2
    obtain ⟨m, _, h⟩ := h3 a (List.mem_filterMap.2 ⟨(p, ok), hm, ha⟩)
    exact hu m h
  rcases hs with h | h | h | h
  · exact h.1
  · exact absurd h.2.1 h0
  · exact absurd h.2.2 h1
  · exact absurd h.2.1 h0

example : '.' ∉ "asyncio".toList := by decide

/-- **C70 is false**: after TEST, level MAX does not write the modules it adds to stderr, which it does when it is set first: the filter of
TEST stays attached. -/
theorem C70_false_aux : writtenTo ["aux".toList] [.preset .max true] "aux.x".toList 50 = [0, 1] ∧
    writtenTo ["aux".toList] [.preset .test true, .preset .max true] "aux.x".toList 50 = [1] := by decide +kernel

/-- **C70 is false**: after VERBOSE, level MINIMAL writes the messages of `asyncio`, which it does not when it is set first. -/
theorem C70_false_sticky : writtenTo [] [.preset .minimal true] "asyncio.x".toList 40 = [] ∧
    writtenTo [] [.preset .verbose true, .preset .minimal true] "asyncio.x".toList 40 = [2] := by decide +kernel

/-- **C70 is false**: an unknown level raises and turns logging off. -/
theorem C70_false_unknown (aux : List Str) (s : St) (h : List Ev) (ok : Bool) (name : Str) (l : Nat) :
    (enablePreset aux ok s .unknown).2 = true ∧ writtenTo aux (h ++ [.preset .unknown ok]) name l = [] := by
  refine ⟨rfl, ?_⟩
  have hl : (calls (h ++ [.preset .unknown ok])).getLast? = some (.unknown, ok) := by
    unfold calls
    rw [List.filterMap_append]
    simp
  obtain ⟨e, f, n, hn, hs, he, hf⟩ := shape aux (h ++ [.preset .unknown ok]) name l
  have h0 : ¬ e := by
    rw [he]
    rintro ⟨p, ok, v, h1, h2, _⟩
    rw [hl] at h1
    cases h1
    cases h2
  have h1 : ¬ f := by
    rw [hf]
    rintro ⟨p, v, h1, h2, _⟩
    rw [hl] at h1
    cases h1
    cases h2
  rcases hs with h | h | h | h
  · exact h.1
  · exact absurd h.2.1 h0
  · exact absurd h.2.2 h1
  · exact absurd h.2.1 h0

/-- A level of more than six letters v raises and changes nothing. -/
theorem C70_cmd_long (aux : List Str) (s : St) (n : Nat) (ok : Bool) (hn : 6 < n) : cmdLine aux ok s n = (s, true) := by
  unfold cmdLine
  have : presetLevels[n]? = none := List.getElem?_eq_none (show 7 ≤ n by omega)
  rw [this]

example : cmdLine [] true .init 7 = (.init, true) := C70_cmd_long [] .init 7 true (by omega)

/-- **C70 is false**: when the log file cannot be opened (no Playground directory), VERBOSE raises, yet errors go to stderr from then on. -/
theorem C70_false_file : (enablePreset [] false .init .verbose).2 = true ∧
    writtenTo [] [.preset .verbose false] "playground.x".toList 40 = [0] := by decide +kernel

end Verif.Logging
