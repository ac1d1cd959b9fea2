import Verif.Spec.Logging
import Verif.Lemmas.Dict
/-! # Invariant of the log configuration -/
namespace Verif.Logging

/-- The filter of a level. -/
def fl (ms : List Str) : Filter := ⟨some ("playground".toList :: ms), .only []⟩

/-- The levels other than NONE and unknown ones, in one form. -/
def generic (add : List Str) (err file : Option Nat) (ok : Bool) (s : St) : St × Bool :=
  let s1 := enableLogging (clearAllHandlers s) 0 add
  let s2 := match err with
    | none => s1
    | some v => enableHandler s1 0 v none (.only [])
  match file with
  | none => (s2, false)
  | some v => enableFile ok s2 v

theorem preset_generic (aux : List Str) (ok : Bool) (s : St) (p : Preset) (h1 : p ≠ .off) (h2 : p ≠ .unknown) :
    enablePreset aux ok s p = generic ((adds aux p).getD []) (toStderr p) (toFile p) ok s := by
  cases p <;> first | rfl | exact absurd rfl h1 | exact absurd rfl h2

theorem enableHandler_eq (s : St) (h lvl : Nat) (hn : s.handlers.get h = none) :
    enableHandler s h lvl none (.only []) = { s with
      hLevel := upd s.hLevel h lvl
      filter := upd s.filter s.nFilter (fl s.additional)
      nFilter := s.nFilter + 1
      hFilters := upd s.hFilters h (s.hFilters h ++ [s.nFilter])
      handlers := s.handlers.set h s.nFilter } := by
  unfold enableHandler
  rw [hn]
  rfl

/-- What holds whatever is enabled. -/
structure Core (add : List Str) (lists : List (List Str)) (s : St) : Prop where
  pos : 1 ≤ s.nHandler
  add : s.additional = add
  fresh : ∀ h, s.nHandler ≤ h → s.hFilters h = []
  lt : ∀ f ∈ s.hFilters 0, f < s.nFilter
  err : (s.hFilters 0).map s.filter = lists.map fun ms => ⟨some ms, .only []⟩

def On (s : St) : Prop := s.attached = true ∧ s.rootLevel = 0 ∧ s.level = 0

/-- What is enabled. -/
def Force (s : St) (err file : Option Nat) (add : List Str) : Prop :=
  ∃ f0 f1 n, s.handlers = (if err.isSome then [(0, f0)] else []) ++ (if file.isSome then [(n, f1)] else []) ∧
    (∀ v, err = some v → s.hLevel 0 = v ∧ On s) ∧
    (∀ v, file = some v → n ≠ 0 ∧ s.hLevel n = v ∧ s.hFilters n = [f1] ∧ s.filter f1 = fl add ∧ On s)

theorem core_enable {add : List Str} {lists : List (List Str)} {s : St} (h : Core add lists s) (lvl : Nat) (x : List Str) :
    Core (if x = [] then add else x) lists (enableLogging (clearAllHandlers s) lvl x) := by
  refine ⟨h.pos, ?_, h.fresh, h.lt, h.err⟩
  show (if x = [] then s.additional else x) = _
  rw [h.add]

theorem on_enable (s : St) (x : List Str) : On (enableLogging (clearAllHandlers s) 0 x) := by
  refine ⟨rfl, ?_, rfl⟩
  show (if s.rootLevel > 0 then 0 else s.rootLevel) = 0
  split <;> omega

theorem core_stderr {add : List Str} {lists : List (List Str)} {s : St} (h : Core add lists s) (hh : s.handlers = []) (v : Nat) :
    Core add (lists ++ ["playground".toList :: add]) (enableHandler s 0 v none (.only [])) ∧
    (enableHandler s 0 v none (.only [])).handlers = [(0, s.nFilter)] ∧ (enableHandler s 0 v none (.only [])).hLevel 0 = v ∧
    (On s → On (enableHandler s 0 v none (.only []))) := by
  rw [enableHandler_eq s 0 v (by rw [hh]; rfl)]
  refine ⟨⟨h.pos, h.add, ?_, ?_, ?_⟩, by rw [hh]; rfl, by simp [upd], id⟩
  · intro k hk
    have : 1 ≤ s.nHandler := h.pos
    have hk' : s.nHandler ≤ k := hk
    show upd s.hFilters 0 _ k = []
    unfold upd
    rw [if_neg (by omega)]
    exact h.fresh k hk
  · intro f hf
    have hf' : f ∈ s.hFilters 0 ++ [s.nFilter] := by simpa [upd] using hf
    show f < s.nFilter + 1
    rcases List.mem_append.1 hf' with hf' | hf'
    · have := h.lt f hf'; omega
    · rw [List.mem_singleton] at hf'; omega
  · show ((upd s.hFilters 0 (s.hFilters 0 ++ [s.nFilter])) 0).map (upd s.filter s.nFilter (fl s.additional)) = _
    have : upd s.hFilters 0 (s.hFilters 0 ++ [s.nFilter]) 0 = s.hFilters 0 ++ [s.nFilter] := by simp [upd]
    rw [this, List.map_append, List.map_append, ← h.err]
    congr 1
    · apply List.map_congr_left
      intro f hf
      have := h.lt f hf
      unfold upd
      rw [if_neg (by omega)]
    · simp [upd, fl, h.add]

theorem core_file {add : List Str} {lists : List (List Str)} {s : St} {err : Option Nat} (h : Core add lists s) (hf : Force s err none add)
    (ho : On s) (v : Nat) (ok : Bool) :
    Core add lists (enableFile ok s v).1 ∧ Force (enableFile ok s v).1 err (if ok then some v else none) add ∧
      ((enableFile ok s v).2 = !ok) := by
  cases ok with
  | false => exact ⟨h, hf, rfl⟩
  | true =>
    obtain ⟨f0, f1, n, h1, h2, h3⟩ := hf
    have hh : s.handlers = if err.isSome then [(0, f0)] else [] := by simpa using h1
    have hpos := h.pos
    have hget : s.handlers.get s.nHandler = none := by
      rw [hh]
      split
      · simp only [Dict.get]
        rw [if_neg (by omega)]
      · rfl
    have heq : (enableFile true s v).1 = enableHandler { s with nHandler := s.nHandler + 1 } s.nHandler v none (.only []) := rfl
    rw [heq, enableHandler_eq { s with nHandler := s.nHandler + 1 } _ _ hget]
    refine ⟨⟨by show 1 ≤ s.nHandler + 1; omega, h.add, ?_, ?_, ?_⟩, ⟨f0, s.nFilter, s.nHandler, ?_, ?_, ?_⟩, rfl⟩
    · intro k hk
      have hk' : s.nHandler + 1 ≤ k := hk
      show upd s.hFilters s.nHandler _ k = []
      unfold upd
      rw [if_neg (by omega)]
      exact h.fresh k (by omega)
    · intro f hf
      have hf' : f ∈ upd s.hFilters s.nHandler (s.hFilters s.nHandler ++ [s.nFilter]) 0 := hf
      unfold upd at hf'
      rw [if_neg (by omega)] at hf'
      have := h.lt f hf'
      show f < s.nFilter + 1
      omega
    · show (upd s.hFilters s.nHandler (s.hFilters s.nHandler ++ [s.nFilter]) 0).map (upd s.filter s.nFilter (fl s.additional)) = _
      have : upd s.hFilters s.nHandler (s.hFilters s.nHandler ++ [s.nFilter]) 0 = s.hFilters 0 := by
        unfold upd
        rw [if_neg (by omega)]
      rw [this, ← h.err]
      apply List.map_congr_left
      intro f hf
      have := h.lt f hf
      unfold upd
      rw [if_neg (by omega)]
    · show s.handlers.set s.nHandler s.nFilter = _
      rw [hh]
      by_cases he : err.isSome = true
      · simp only [he, if_true, Dict.set]
        rw [if_neg (by omega)]
        rfl
      · simp [he, Dict.set]
    · intro x hx
      obtain ⟨a, b⟩ := h2 x hx
      refine ⟨?_, b⟩
      show upd s.hLevel s.nHandler v 0 = x
      unfold upd
      rw [if_neg (by omega)]
      exact a
    · intro x hx
      cases hx
      refine ⟨by omega, by simp [upd], ?_, ?_, ho⟩
      · show upd s.hFilters s.nHandler (s.hFilters s.nHandler ++ [s.nFilter]) s.nHandler = _
        unfold upd
        rw [if_pos rfl, h.fresh s.nHandler (Nat.le_refl _)]
        rfl
      · show upd s.filter s.nFilter (fl s.additional) s.nFilter = _
        unfold upd
        rw [if_pos rfl, h.add]

theorem generic_core {add : List Str} {lists : List (List Str)} {s : St} (h : Core add lists s) (x : List Str) (err file : Option Nat) (ok : Bool) :
    Core (if x = [] then add else x) (lists ++ (if err.isSome then ["playground".toList :: (if x = [] then add else x)] else []))
      (generic x err file ok s).1 ∧
    Force (generic x err file ok s).1 err (if ok then file else none) (if x = [] then add else x) := by
  have h1 := core_enable h 0 x
  have ho := on_enable s x
  have hh : (enableLogging (clearAllHandlers s) 0 x).handlers = [] := rfl
  have key : ∃ s2, (match err with
      | none => enableLogging (clearAllHandlers s) 0 x
      | some v => enableHandler (enableLogging (clearAllHandlers s) 0 x) 0 v none (.only [])) = s2 ∧
      Core (if x = [] then add else x) (lists ++ (if err.isSome then ["playground".toList :: (if x = [] then add else x)] else [])) s2 ∧
      Force s2 err none (if x = [] then add else x) ∧ On s2 := by
    cases err with
    | none =>
      exact ⟨_, rfl, by simpa using h1, ⟨0, 0, 0, by simp [hh], (fun _ h => nomatch h), (fun _ h => nomatch h)⟩, ho⟩
    | some v =>
      obtain ⟨a, b, c, d⟩ := core_stderr h1 hh v
      refine ⟨_, rfl, a, ⟨_, 0, 0, by simpa using b, ?_, (fun _ h => nomatch h)⟩, d ho⟩
      intro v' hv'
      cases hv'
      exact ⟨c, d ho⟩
  obtain ⟨s2, e2, c2, f2, o2⟩ := key
  unfold generic
  dsimp only
  rw [e2]
  cases file with
  | none => exact ⟨c2, by cases ok <;> exact f2⟩
  | some v =>
    obtain ⟨a, b, _⟩ := core_file c2 f2 o2 v ok
    exact ⟨a, b⟩

structure Inv (aux : List Str) (cs : List (Preset × Bool)) (s : St) : Prop where
  core : Core (added aux cs) (stderrLists aux cs) s
  force : match cs.getLast? with
    | none => s.handlers = []
    | some (p, ok) => Force s (toStderr p) (if ok then toFile p else none) (added aux cs)

theorem Inv.init (aux : List Str) : Inv aux [] .init :=
  ⟨⟨Nat.le_refl _, rfl, (fun _ _ => rfl), (fun _ h => nomatch h), rfl⟩, rfl⟩

theorem added_snoc (aux : List Str) (cs : List (Preset × Bool)) (p : Preset) (ok : Bool) :
    added aux (cs ++ [(p, ok)]) = (adds aux p).getD (added aux cs) := by
  unfold added
  rw [List.filterMap_append]
  cases h : adds aux p <;> simp [h]

theorem lists_snoc (aux : List Str) (cs : List (Preset × Bool)) (p : Preset) (ok : Bool) :
    stderrLists aux (cs ++ [(p, ok)]) = stderrLists aux cs ++
      (if (toStderr p).isSome then ["playground".toList :: (adds aux p).getD (added aux cs)] else []) := by
  unfold stderrLists
  rw [List.filterMap_append]
  congr 1
  cases p <;> rfl

theorem Inv.preset {aux : List Str} {cs : List (Preset × Bool)} {s : St} (h : Inv aux cs s) (p : Preset) (ok : Bool) :
    Inv aux (cs ++ [(p, ok)]) (enablePreset aux ok s p).1 := by
  by_cases h1 : p = .off
  · subst h1
    constructor
    · rw [added_snoc, lists_snoc]
      have := core_enable h.core critical []
      simpa [adds, toStderr, enablePreset] using this
    · rw [List.getLast?_concat]
      exact ⟨0, 0, 0, by cases ok <;> rfl, (fun _ h => nomatch h), by cases ok <;> exact fun _ h => nomatch h⟩
  by_cases h2 : p = .unknown
  · subst h2
    constructor
    · rw [added_snoc, lists_snoc]
      have : Core (added aux cs) (stderrLists aux cs) (clearAllHandlers s) := ⟨h.core.pos, h.core.add, h.core.fresh, h.core.lt, h.core.err⟩
      simpa [adds, toStderr, enablePreset] using this
    · rw [List.getLast?_concat]
      exact ⟨0, 0, 0, by cases ok <;> rfl, (fun _ h => nomatch h), by cases ok <;> exact fun _ h => nomatch h⟩
  rw [preset_generic aux ok s p h1 h2]
  have hx : (if (adds aux p).getD [] = [] then added aux cs else (adds aux p).getD []) = (adds aux p).getD (added aux cs) := by
    cases p <;> simp [adds]
  obtain ⟨a, b⟩ := generic_core h.core ((adds aux p).getD []) (toStderr p) (toFile p) ok
  rw [hx] at a b
  constructor
  · rw [added_snoc, lists_snoc]; exact a
  · rw [List.getLast?_concat, added_snoc]; exact b

theorem calls_cons (e : Ev) (h : List Ev) : calls (e :: h) = calls [e] ++ calls h := by
  unfold calls
  rw [show e :: h = [e] ++ h from rfl, List.filterMap_append]

theorem Inv.step {aux : List Str} {cs : List (Preset × Bool)} {s : St} (h : Inv aux cs s) (e : Ev) : Inv aux (cs ++ calls [e]) (step aux s e) := by
  cases e with
  | preset p ok => exact h.preset p ok
  | log name level =>
    have : calls [Ev.log name level] = [] := rfl
    rw [this, List.append_nil]
    exact ⟨⟨h.core.pos, h.core.add, h.core.fresh, h.core.lt, h.core.err⟩, h.force⟩
  | cmd n ok =>
    match n with
    | 0 => exact h.preset .off ok
    | 1 => exact h.preset .minimal ok
    | 2 => exact h.preset .quiet ok
    | 3 => exact h.preset .verbose ok
    | 4 => exact h.preset .dbg ok
    | 5 => exact h.preset .test ok
    | 6 => exact h.preset .max ok
    | n + 7 =>
      have : calls [Ev.cmd (n + 7) ok] = [] := rfl
      rw [this, List.append_nil]
      exact h

theorem Inv.exec {aux : List Str} : ∀ (h : List Ev) {cs : List (Preset × Bool)} {s : St}, Inv aux cs s →
    Inv aux (cs ++ calls h) (exec aux s h)
  | [], cs, _, hi => by rw [show calls [] = [] from rfl, List.append_nil]; exact hi
  | e :: h, cs, s, hi => by
    rw [calls_cons, ← List.append_assoc]
    exact Inv.exec h (hi.step e)

theorem Inv.reachable (aux : List Str) (h : List Ev) : Inv aux (calls h) (Logging.exec aux .init h) := by
  have := Inv.exec h (Inv.init aux)
  simpa using this

theorem exec_append (aux : List Str) : ∀ (h : List Ev) (s : St) (h' : List Ev), exec aux s (h ++ h') = exec aux (exec aux s h) h'
  | [], _, _ => rfl
  | _ :: h, _, h' => exec_append aux h _ h'

theorem writtenTo_eq (aux : List Str) (h : List Ev) (name : Str) (l : Nat) : writtenTo aux h name l = writers (exec aux .init h) name l := by
  unfold writtenTo
  rw [exec_append]
  show (((exec aux .init h).out ++ (writers (exec aux .init h) name l).map fun x => (x, name, l)).drop _).map (·.1) = _
  rw [List.drop_left, List.map_map]
  have : ((fun x : Nat × Str × Nat => x.1) ∘ fun x => (x, name, l)) = id := rfl
  rw [this, List.map_id]

/-! ## Names and tags -/

theorem prefix_iff (a b : Str) : a.isPrefixOf b = true ↔ ∃ r, b = a ++ r := by
  rw [List.isPrefixOf_iff_prefix]
  exact ⟨fun ⟨b, h⟩ => ⟨b, h.symm⟩, fun ⟨b, h⟩ => ⟨b, h.symm⟩⟩

theorem under_iff (m name : Str) : (m ++ ['.']).isPrefixOf name = true ↔ Under m name := by
  rw [prefix_iff]
  constructor
  · rintro ⟨r, h⟩; exact ⟨r, by simpa using h⟩
  · rintro ⟨r, h⟩; exact ⟨r, by simpa using h⟩

/-- A filter of a level: below one of its modules, without tag. -/
theorem passes_iff (ms : List Str) (name : Str) : logThisLogger ⟨some ms, .only []⟩ name = true ↔ (∃ m ∈ ms, Under m name) ∧ getTag name = [] := by
  unfold logThisLogger logThisTag
  simp only [Bool.and_eq_true, List.any_eq_true, under_iff]
  apply and_congr Iff.rfl
  by_cases h : getTag name = []
  · simp [h]
  · simp [h]

/-- The last part of a dotted name. -/
theorem last_part : ∀ (name : Str), ∃ last, (splitOn '.' name).getLast? = some last ∧ '.' ∉ last ∧
    (name = last ∨ ∃ base, name = base ++ '.' :: last)
  | [] => ⟨[], rfl, by simp, .inl rfl⟩
  | c :: cs => by
    obtain ⟨last, h1, h2, h3⟩ := last_part cs
    unfold splitOn
    by_cases hc : c = '.'
    · subst hc
      rw [if_pos rfl]
      have hne : splitOn '.' cs ≠ [] := by intro he; rw [he] at h1; cases h1
      refine ⟨last, ?_, h2, .inr ?_⟩
      · rw [List.getLast?_cons, h1]; rfl
      · rcases h3 with h3 | ⟨base, h3⟩
        · exact ⟨[], by rw [h3]; rfl⟩
        · exact ⟨'.' :: base, by rw [h3]; rfl⟩
    · rw [if_neg hc]
      cases hs : splitOn '.' cs with
      | nil => rw [hs] at h1; cases h1
      | cons p ps =>
        rw [hs] at h1
        dsimp only
        cases ps with
        | nil =>
          have hp : p = last := by simpa using h1
          subst hp
          have hsingle : cs = p := by
            rcases h3 with h3 | ⟨base, h3⟩
            · exact h3
            · exfalso
              have : '.' ∈ cs := by rw [h3]; simp
              clear h3 h1 h2
              have key : ∀ (x : Str), '.' ∈ x → ∀ p, splitOn '.' x ≠ [p] := by
                intro x
                induction x with
                | nil => intro h; cases h
                | cons y x ih =>
                  intro h p
                  unfold splitOn
                  by_cases hy : y = '.'
                  · rw [if_pos hy]
                    intro he
                    have : splitOn '.' x = [] := by simpa using (List.cons.inj he).2
                    cases x with
                    | nil => simp [splitOn] at this
                    | cons z x =>
                      unfold splitOn at this
                      split at this
                      · cases this
                      · split at this <;> cases this
                  · rw [if_neg hy]
                    have hx : '.' ∈ x := by
                      rcases List.mem_cons.1 h with h | h
                      · exact absurd h.symm hy
                      · exact h
                    cases hsx : splitOn '.' x with
                    | nil =>
                      intro he
                      have hxx : x ≠ [] := by intro e; rw [e] at hx; cases hx
                      cases x with
                      | nil => exact hxx rfl
                      | cons z x =>
                        unfold splitOn at hsx
                        split at hsx
                        · cases hsx
                        · split at hsx <;> cases hsx
                    | cons q qs =>
                      dsimp only
                      intro he
                      have : qs = [] := (List.cons.inj he).2
                      subst this
                      exact ih hx q hsx
              exact key cs this p hs
          refine ⟨c :: p, rfl, ?_, .inl (by rw [hsingle])⟩
          intro hm
          rcases List.mem_cons.1 hm with hm | hm
          · exact hc hm.symm
          · exact h2 hm
        | cons q qs =>
          refine ⟨last, by simpa using h1, h2, ?_⟩
          rcases h3 with h3 | ⟨base, h3⟩
          · exfalso
            have key : ∀ (x : Str), '.' ∉ x → splitOn '.' x = [x] := by
              intro x
              induction x with
              | nil => intro _; rfl
              | cons y x ih =>
                intro h
                have hy : y ≠ '.' := fun e => h (by rw [e]; simp)
                have hx : '.' ∉ x := fun e => h (List.mem_cons_of_mem _ e)
                unfold splitOn
                rw [if_neg hy, ih hx]
            rw [h3, key last h2] at hs
            cases hs
          · exact .inr ⟨c :: base, by rw [h3]; rfl⟩

theorem last_unique {a b x y : Str} (hx : '.' ∉ x) (hy : '.' ∉ y) (h : a ++ '.' :: x = b ++ '.' :: y) : x = y := by
  rcases List.append_eq_append_iff.1 h with ⟨a', h1, h2⟩ | ⟨c', h1, h2⟩
  · cases a' with
    | nil => simpa using h2
    | cons q a' =>
      simp only [List.cons_append, List.cons.injEq] at h2
      exact absurd (by rw [h2.2]; simp) hx
  · cases c' with
    | nil => simpa using h2.symm
    | cons q c' =>
      simp only [List.cons_append, List.cons.injEq] at h2
      exact absurd (by rw [h2.2]; simp) hy

/-- The tag of a logger is what the specification says. -/
theorem getTag_iff (name tag : Str) (ht : tag ≠ []) : getTag name = tag ↔ HasTag name tag := by
  obtain ⟨last, h1, h2, h3⟩ := last_part name
  unfold getTag HasTag
  dsimp only
  rw [h1, Option.getD_some]
  have hk : '.' ∉ "__playlogtag__".toList := by decide
  constructor
  · intro h
    split at h
    · rename_i hp
      obtain ⟨r, hr⟩ := (prefix_iff _ _).1 hp
      have hl : last = "__playlogtag__".toList ++ tag := by
        rw [hr] at h ⊢
        rw [List.drop_left] at h
        rw [h]; rfl
      refine ⟨ht, ?_, ?_⟩
      · intro hm; apply h2; rw [hl]; exact List.mem_append_right _ hm
      · rw [← hl]; exact h3
    · exact absurd h.symm ht
  · rintro ⟨_, hd, h⟩
    have hno : '.' ∉ "__playlogtag__".toList ++ tag := by
      intro hm
      rcases List.mem_append.1 hm with hm | hm
      · exact hk hm
      · exact hd hm
    have hl : last = "__playlogtag__".toList ++ tag := by
      rcases h with h | ⟨base, h⟩
      · rcases h3 with h3 | ⟨b, h3⟩
        · rw [← h3, h]
        · exfalso; apply hno; rw [← h, h3]; simp
      · rcases h3 with h3 | ⟨b, h3⟩
        · exfalso; apply h2; rw [← h3, h]; simp
        · exact last_unique h2 hno (h3.symm.trans h)
    rw [hl]
    have : tagKey = "__playlogtag__".toList := rfl
    rw [this, if_pos ((prefix_iff _ _).2 ⟨tag, rfl⟩), List.drop_left]

theorem noTag_iff (name : Str) : getTag name = [] ↔ ∀ tag, ¬ HasTag name tag := by
  constructor
  · intro h tag ht
    have := (getTag_iff name tag ht.1).2 ht
    rw [h] at this
    exact ht.1 this.symm
  · intro h
    apply Classical.byContradiction
    intro hn
    exact h _ ((getTag_iff name _ hn).1 rfl)

end Verif.Logging
