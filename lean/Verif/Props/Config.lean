import Verif.Spec.Config
import Verif.Lemmas.Dict
/-! # C72: the configuration directory. C73: configuration files -/
namespace Verif.Config

theorem pathJoin_under (a b : Str) : pathJoin a b = under a b := by
  unfold pathJoin under
  cases h : a.getLast? with
  | none => rw [List.getLast?_eq_none_iff.1 h, if_pos (.inl rfl)]; rfl
  | some c =>
    have hne : a ≠ [] := by rintro rfl; cases h
    by_cases hc : c = '/'
    · subst hc
      rw [if_pos (.inr rfl)]
      rfl
    · rw [if_neg]
      · split
        · rename_i h1; cases h1
        · rename_i h1; injection h1 with h1; exact absurd h1 hc
        · rw [List.append_assoc]; rfl
      · rintro (h1 | h1)
        · exact hne h1
        · injection h1 with h1; exact hc h1

structure PInv (inst : Option Str) (acc : List (Str × Str)) (s : Paths) : Prop where
  order : s.order = (acc.map (·.1)).reverse ++ (Paths.init inst).order
  keys : ∀ k, s.paths.has k = true ↔ k ∈ builtin ∨ k ∈ acc.map (·.1)
  custom : ∀ x ∈ acc, s.paths.get x.1 = some (some x.2)
  base : ∀ k ∈ builtin, s.paths.get k = (Paths.init inst).paths.get k

theorem PInv.init (inst : Option Str) : PInv inst [] (.init inst) := by
  refine ⟨rfl, ?_, (fun _ h => nomatch h), (fun _ _ => rfl)⟩
  intro k
  rw [Dict.has_iff]
  have : (Paths.init inst).paths.keys = builtin := rfl
  rw [this]
  constructor
  · exact .inl
  · rintro (h | h)
    · exact h
    · cases h

theorem PInv.add {inst : Option Str} {acc : List (Str × Str)} {s : Paths} (h : PInv inst acc s) (k p : Str) :
    (addCustomPath s k p).2 = (if k ∈ builtin ∨ k ∈ acc.map (·.1) then some .duplicate else none) ∧
    PInv inst (if k ∈ builtin ∨ k ∈ acc.map (·.1) then acc else acc ++ [(k, p)]) (addCustomPath s k p).1 := by
  unfold addCustomPath
  by_cases hk : s.paths.has k = true
  · rw [if_pos hk, if_pos ((h.keys k).1 hk), if_pos ((h.keys k).1 hk)]
    exact ⟨rfl, h⟩
  · have hk' := fun hh => hk ((h.keys k).2 hh)
    rw [if_neg hk, if_neg hk', if_neg hk']
    refine ⟨rfl, ?_, ?_, ?_, ?_⟩
    · show k :: s.order = _
      rw [h.order, List.map_append, List.reverse_append]
      rfl
    · intro j
      have hj : (s.paths.set k (some p)).has j = true ↔ k = j ∨ s.paths.has j = true := by
        rw [Dict.has_iff, Dict.mem_keys_iff, Dict.has_iff, Dict.mem_keys_iff]
        rw [Dict.get_set]
        by_cases hkj : k = j
        · simp [hkj]
        · simp [hkj]
      show (s.paths.set k (some p)).has j = true ↔ _
      rw [hj, h.keys, List.map_append, List.mem_append]
      simp only [List.map_cons, List.map_nil, List.mem_singleton]
      constructor
      · rintro (rfl | h | h)
        · exact .inr (.inr rfl)
        · exact .inl h
        · exact .inr (.inl h)
      · rintro (h | h | h)
        · exact .inr (.inl h)
        · exact .inr (.inr h)
        · exact .inl h.symm
    · intro x hx
      show (s.paths.set k (some p)).get x.1 = _
      rcases List.mem_append.1 hx with hx | hx
      · rw [Dict.get_set_ne]
        · exact h.custom x hx
        · intro he
          exact hk' (.inr (List.mem_map.2 ⟨x, hx, he.symm⟩))
      · rw [List.mem_singleton.1 hx, Dict.get_set_self]
    · intro j hj
      show (s.paths.set k (some p)).get j = _
      rw [Dict.get_set_ne]
      · exact h.base j hj
      · intro he
        exact hk' (.inl (he ▸ hj))

theorem accepted_congr : ∀ (l : List (Str × Str)) (u v : List Str), (∀ k, k ∈ u ↔ k ∈ v) → accepted u l = accepted v l
  | [], _, _, _ => rfl
  | (k, p) :: l, u, v, h => by
    unfold accepted
    by_cases hk : k ∈ u
    · rw [if_pos hk, if_pos ((h k).1 hk)]
      exact accepted_congr l u v h
    · rw [if_neg hk, if_neg (fun hh => hk ((h k).2 hh))]
      rw [accepted_congr l (k :: u) (k :: v)]
      intro j
      rw [List.mem_cons, List.mem_cons, h j]

theorem PInv.addAll {inst : Option Str} : ∀ (l : List (Str × Str)) {acc : List (Str × Str)} {s : Paths}, PInv inst acc s →
    PInv inst (acc ++ accepted (builtin ++ acc.map (·.1)) l) (addAll s l)
  | [], acc, s, h => by
    rw [show accepted (builtin ++ acc.map (·.1)) [] = [] from rfl, List.append_nil]
    exact h
  | (k, p) :: l, acc, s, h => by
    obtain ⟨_, h2⟩ := h.add k p
    have ih := PInv.addAll l h2
    unfold accepted
    by_cases hk : k ∈ builtin ∨ k ∈ acc.map (·.1)
    · rw [if_pos hk] at ih
      rw [if_pos (List.mem_append.2 hk)]
      exact ih
    · rw [if_neg hk] at ih
      rw [if_neg (fun hh => hk (List.mem_append.1 hh))]
      rw [List.append_assoc] at ih
      have : accepted (builtin ++ (acc ++ [(k, p)]).map (·.1)) l = accepted (k :: (builtin ++ acc.map (·.1))) l := by
        apply accepted_congr
        intro j
        simp only [List.map_append, List.map_cons, List.map_nil, List.mem_append, List.mem_cons, List.not_mem_nil, or_false]
        constructor
        · rintro (h | h | h)
          · exact .inr (.inl h)
          · exact .inr (.inr h)
          · exact .inl h
        · rintro (h | h | h)
          · exact .inr (.inr h)
          · exact .inl h
          · exact .inr (.inl h)
      rw [this] at ih
      exact ih

theorem search_find (home : Str) (ex : Str → Bool) (s : Paths) : ∀ (ks ps : List Str), ks.length = ps.length →
    (∀ (i : Nat) k p, ks[i]? = some k → ps[i]? = some p → s.paths.get k = some (some p)) →
    search home ex s ks = .ok ((ps.map (expanduser home)).find? fun p => decide (p ≠ []) && ex p)
  | [], [], _, _ => rfl
  | [], _ :: _, h, _ => by cases h
  | _ :: _, [], h, _ => by cases h
  | k :: ks, p :: ps, hl, h => by
    have ih := search_find home ex s ks ps (by simpa using hl) (fun i k p h1 h2 => h (i + 1) k p h1 h2)
    have h0 := h 0 k p rfl rfl
    unfold search configPath
    rw [h0]
    dsimp only
    rw [List.map_cons, List.find?_cons]
    by_cases hc : expanduser home p ≠ [] ∧ ex (expanduser home p) = true
    · rw [if_pos hc]
      have : (decide (expanduser home p ≠ []) && ex (expanduser home p)) = true := by
        rw [Bool.and_eq_true, decide_eq_true_iff]; exact hc
      rw [this]
    · rw [if_neg hc, ih]
      have : (decide (expanduser home p ≠ []) && ex (expanduser home p)) = false := by
        rw [← Bool.not_eq_true, Bool.and_eq_true, decide_eq_true_iff]; exact hc
      rw [this]

/-- **C72**: after any calls of `AddCustomPath` the configuration directory is the first that exists of the custom ones, the newest first, then
those of the instance, the user and the system; it never raises. -/
theorem C72_current (inst : Option Str) (adds : List (Str × Str)) (home : Str) (ex : Str → Bool) :
    currentPath home ex (addAll (.init inst) adds) =
      .ok (((directories inst adds).map (expanduser home)).find? fun p => decide (p ≠ []) && ex p) := by
  have h := PInv.addAll adds (PInv.init inst)
  rw [List.nil_append, show builtin ++ ([] : List (Str × Str)).map (·.1) = builtin from rfl] at h
  have hm : ∀ (ks ps : List Str) (l : List (Str × Str)), ks = (l.map (·.1)) → ps = l.map (·.2) →
      (∀ x ∈ l, (addAll (.init inst) adds).paths.get x.1 = some (some x.2)) → ks.length = ps.length ∧
      ∀ (i : Nat) k p, ks[i]? = some k → ps[i]? = some p → (addAll (.init inst) adds).paths.get k = some (some p) := by
    intro ks ps l h1 h2 h3
    refine ⟨by rw [h1, h2, List.length_map, List.length_map], ?_⟩
    intro i k p hk hp
    rw [h1, List.getElem?_map] at hk
    rw [h2, List.getElem?_map] at hp
    cases hx : l[i]? with
    | none => rw [hx] at hk; cases hk
    | some x =>
      rw [hx] at hk hp
      cases hk; cases hp
      exact h3 x (List.mem_of_getElem? hx)
  unfold currentPath
  rw [h.order]
  unfold directories
  have hbu : ∀ k ∈ builtin, (addAll (.init inst) adds).paths.get k = (Paths.init inst).paths.get k := h.base
  cases inst with
  | none =>
    obtain ⟨h1, h2⟩ := hm (((accepted builtin adds).map (·.1)).reverse ++ ["USER".toList, "SYSTEM".toList])
      (((accepted builtin adds).map (·.2)).reverse ++ ["~/.playground".toList, "/var/playground".toList])
      ((accepted builtin adds).reverse ++ [("USER".toList, "~/.playground".toList), ("SYSTEM".toList, "/var/playground".toList)])
      (by rw [List.map_append, List.map_reverse]; rfl) (by rw [List.map_append, List.map_reverse]; rfl) (by
        intro x hx
        rcases List.mem_append.1 hx with hx | hx
        · exact h.custom x (List.mem_reverse.1 hx)
        · rcases List.mem_cons.1 hx with rfl | hx
          · exact (hbu _ (by decide)).trans (by decide +kernel)
          · rw [List.mem_singleton.1 hx]
            exact (hbu _ (by decide)).trans (by decide +kernel))
    have := search_find home ex _ _ _ h1 h2
    rw [Option.map_none, Option.toList_none, List.append_nil]
    exact this
  | some i =>
    obtain ⟨h1, h2⟩ := hm (((accepted builtin adds).map (·.1)).reverse ++ ["INSTANCE".toList, "USER".toList, "SYSTEM".toList])
      (((accepted builtin adds).map (·.2)).reverse ++ [pathJoin i ".playground".toList, "~/.playground".toList, "/var/playground".toList])
      ((accepted builtin adds).reverse ++ [("INSTANCE".toList, pathJoin i ".playground".toList), ("USER".toList, "~/.playground".toList),
        ("SYSTEM".toList, "/var/playground".toList)])
      (by rw [List.map_append, List.map_reverse]; rfl) (by rw [List.map_append, List.map_reverse]; rfl) (by
        intro x hx
        rcases List.mem_append.1 hx with hx | hx
        · exact h.custom x (List.mem_reverse.1 hx)
        · rcases List.mem_cons.1 hx with rfl | hx
          · exact (hbu "INSTANCE".toList (by decide)).trans rfl
          · rcases List.mem_cons.1 hx with rfl | hx
            · exact (hbu _ (by decide)).trans (by rfl)
            · rw [List.mem_singleton.1 hx]
              exact (hbu _ (by decide)).trans (by rfl))
    have := search_find home ex _ _ _ h1 h2
    rw [List.append_assoc, Option.map_some, ← pathJoin_under]
    exact this

example : currentPath "/home/u".toList (fun p => decide (p = "/home/u/.playground".toList ∨ p = "/x".toList))
    (addAll (.init (some "/i".toList)) [("X".toList, "/x".toList), ("Y".toList, "/y".toList), ("X".toList, "/z".toList)]) =
    .ok (some "/x".toList) := by decide +kernel
example : directories none [("X".toList, "/x".toList), ("USER".toList, "/u".toList), ("Y".toList, "/y".toList)] =
    ["/y".toList, "/x".toList, "~/.playground".toList, "/var/playground".toList] := by decide +kernel

/-- **C72**: adding a path raises exactly when its id is in use, and then changes nothing. -/
theorem C72_add (inst : Option Str) (adds : List (Str × Str)) (k p : Str) :
    ((addCustomPath (addAll (.init inst) adds) k p).2 = some .duplicate ↔ k ∈ builtin ∨ ∃ q, (k, q) ∈ adds) ∧
    ((addCustomPath (addAll (.init inst) adds) k p).2 ≠ none → (addCustomPath (addAll (.init inst) adds) k p).1 = addAll (.init inst) adds) := by
  have h := PInv.addAll adds (PInv.init inst)
  rw [List.nil_append, show builtin ++ ([] : List (Str × Str)).map (·.1) = builtin from rfl] at h
  have hacc : ∀ (l : List (Str × Str)) (u : List Str), (k ∈ u ∨ k ∈ (accepted u l).map (·.1)) ↔ (k ∈ u ∨ ∃ q, (k, q) ∈ l) := by
    intro l
    induction l with
    | nil =>
      intro u
      simp [accepted]
    | cons x l ih =>
      obtain ⟨j, q⟩ := x
      intro u
      unfold accepted
      by_cases hj : j ∈ u
      · rw [if_pos hj, ih]
        constructor
        · rintro (h | ⟨q, h⟩)
          · exact .inl h
          · exact .inr ⟨q, List.mem_cons_of_mem _ h⟩
        · rintro (h | ⟨q', h⟩)
          · exact .inl h
          · rcases List.mem_cons.1 h with h | h
            · cases h; exact .inl hj
            · exact .inr ⟨q', h⟩
      · rw [if_neg hj]
        have := ih (j :: u)
        simp only [List.mem_cons, List.map_cons] at this ⊢
        constructor
        · rintro (h | h | h)
          · exact .inl h
          · exact .inr ⟨q, .inl (by rw [h])⟩
          · rcases this.1 (.inr h) with (h | h) | ⟨q', h⟩
            · exact .inr ⟨q, .inl (by rw [h])⟩
            · exact .inl h
            · exact .inr ⟨q', .inr h⟩
        · rintro (h | ⟨q', h | h⟩)
          · exact .inl h
          · exact .inr (.inl (Prod.mk.inj h).1)
          · rcases this.2 (.inr ⟨q', h⟩) with (h | h) | h
            · exact .inr (.inl h)
            · exact .inl h
            · exact .inr (.inr h)
  obtain ⟨h1, _⟩ := h.add k p
  constructor
  · rw [h1, ← hacc adds builtin]
    split
    · rename_i hc; exact ⟨fun _ => hc, fun _ => rfl⟩
    · rename_i hc
      constructor
      · intro hh; cases hh
      · intro hh; exact absurd hh hc
  · intro hne
    unfold addCustomPath at hne ⊢
    split
    · rfl
    · rename_i hc; rw [if_neg hc] at hne; exact absurd rfl hne

example : (addCustomPath (addAll (.init none) [("X".toList, "/x".toList)]) "X".toList "/y".toList).2 = some .duplicate := by decide +kernel

/-- **C72**: after `Initialize` of a directory in the search there is a configuration directory. -/
theorem C72_initialize (inst : Option Str) (adds : List (Str × Str)) (home : Str) (ex : Str → Bool) (mk : Bool) (k p : Str) (d : Option Str)
    (hk : configPath home (addAll (.init inst) adds) k = .ok p) (hp : p ≠ [])
    (hi : initialize' home ex mk (addAll (.init inst) adds) k = .ok d) (hs : p ∈ (directories inst adds).map (expanduser home)) :
    ∃ q, currentPath home (fun x => ex x || decide (d = some x)) (addAll (.init inst) adds) = .ok (some q) := by
  rw [C72_current]
  have hex : (ex p || decide (d = some p)) = true := by
    unfold initialize' at hi
    rw [hk] at hi
    dsimp only at hi
    split at hi
    · rename_i he; rw [he]; rfl
    · split at hi
      · cases hi
        rw [Bool.or_eq_true]
        exact .inr (by simp)
      · cases hi
  cases hf : ((directories inst adds).map (expanduser home)).find? fun x => decide (x ≠ []) && (ex x || decide (d = some x)) with
  | some q => exact ⟨q, rfl⟩
  | none =>
    have := List.find?_eq_none.1 hf p hs
    rw [hex] at this
    simp [hp] at this

example : configPath "/h".toList (.init none) "USER".toList = .ok "/h/.playground".toList ∧
    initialize' "/h".toList (fun _ => false) true (.init none) "USER".toList = .ok (some "/h/.playground".toList) := by decide +kernel
example : configPath "/h".toList (.init none) "INSTANCE".toList = .error .noInstance := by decide +kernel

end Verif.Config
