import Mathlib.Data.List.Nodup
import Verif.Lemmas.Dict
import Verif.Lemmas.PyStr
import Verif.Spec.HierDict
/-! # C18, C19: HierarchicalDictionary -/
namespace Verif
namespace HD
variable {V : Type}

mutual
/-- At every level each key occurs once. -/
def WF : HD V → Prop
  | .mk t s => Dict.WF t ∧ Dict.WF s ∧ WFs s
def WFs : List (Str × HD V) → Prop
  | [] => True
  | (_, d) :: l => WF d ∧ WFs l
end

theorem WFs_iff {l : List (Str × HD V)} : WFs l ↔ ∀ e ∈ l, WF e.2 := by
  induction l with
  | nil => simp [WFs]
  | cons e l ih => obtain ⟨k, d⟩ := e; simp [WFs, ih]

theorem subs_mk (t : List (Str × V)) (s : List (Str × HD V)) : (HD.mk t s).subs = s := rfl
theorem terms_mk (t : List (Str × V)) (s : List (Str × HD V)) : (HD.mk t s).terms = t := rfl

theorem WF_empty : WF (empty : HD V) := ⟨Dict.WF.nil, Dict.WF.nil, trivial⟩

theorem WF.sub {d : HD V} (h : WF d) {k : Str} {s : HD V} (hs : d.subs.get k = some s) : WF s := by
  cases d with
  | mk t l => exact WFs_iff.mp h.2.2 _ (Dict.mem_of_get hs)

theorem get_of_mem_set {α β : Type} [DecidableEq α] {d : Dict α β} {k : α} {v : β} {e : α × β}
    (h : e ∈ d.set k v) : e ∈ d ∨ e.2 = v := by
  induction d with
  | nil => simp [Dict.set] at h; exact .inr (by simp [h])
  | cons p t ih =>
    obtain ⟨a, b⟩ := p
    simp only [Dict.set] at h
    split at h
    · rcases List.mem_cons.mp h with h | h
      · exact .inr (by simp [h])
      · exact .inl (List.mem_cons_of_mem _ h)
    · rcases List.mem_cons.mp h with h | h
      · exact .inl (by simp [h])
      · exact (ih h).imp (List.mem_cons_of_mem _) id

theorem mem_of_mem_del {α β : Type} [DecidableEq α] {d : Dict α β} {k : α} {e : α × β}
    (h : e ∈ d.del k) : e ∈ d := by
  induction d with
  | nil => simp [Dict.del] at h
  | cons p t ih =>
    obtain ⟨a, b⟩ := p
    simp only [Dict.del] at h
    split at h
    · exact List.mem_cons_of_mem _ h
    · rcases List.mem_cons.mp h with h | h
      · simp [h]
      · exact List.mem_cons_of_mem _ (ih h)

theorem WF.setSub {d : HD V} (h : WF d) {k : Str} {s : HD V} (hs : WF s) : WF (.mk d.terms (d.subs.set k s)) := by
  cases d with
  | mk t l =>
    refine ⟨h.1, h.2.1.set _ _, WFs_iff.mpr fun e he => ?_⟩
    rcases get_of_mem_set he with he | he
    · exact WFs_iff.mp h.2.2 e he
    · rw [he]; exact hs

theorem WF.delSub {d : HD V} (h : WF d) {k : Str} : WF (.mk d.terms (d.subs.del k)) := by
  cases d with
  | mk t l => exact ⟨h.1, h.2.1.del _, WFs_iff.mpr fun e he => WFs_iff.mp h.2.2 e (mem_of_mem_del he)⟩

theorem WF.terms_wf {d : HD V} (h : WF d) : d.terms.WF := by cases d; exact h.1
theorem WF.subs_wf {d : HD V} (h : WF d) : d.subs.WF := by cases d; exact h.2.1

theorem WF.setTerm {d : HD V} (h : WF d) {t : Dict Str V} (ht : t.WF) : WF (.mk t d.subs) := by
  cases d; exact ⟨ht, h.2.1, h.2.2⟩

mutual
/-- All keys, as lists of parts. -/
def parts : HD V → List (List Str)
  | .mk t s => (t.map fun e => [e.1]) ++ partsSubs s
def partsSubs : List (Str × HD V) → List (List Str)
  | [] => []
  | (k, d) :: l => (parts d).map (k :: ·) ++ partsSubs l
end

mutual
theorem len_parts : ∀ d : HD V, d.len = d.parts.length
  | .mk t s => by rw [len, parts, lenSubs_parts s]; simp
theorem lenSubs_parts : ∀ l : List (Str × HD V), lenSubs l = (partsSubs l).length
  | [] => rfl
  | (k, d) :: l => by rw [lenSubs, partsSubs, len_parts d, lenSubs_parts l]; simp
end

mutual
theorem parts_ne_nil : ∀ (d : HD V), ∀ p ∈ d.parts, p ≠ []
  | .mk t s => by
    intro p hp
    rw [parts] at hp
    rcases List.mem_append.mp hp with h | h
    · obtain ⟨e, _, rfl⟩ := List.mem_map.mp h; simp
    · exact partsSubs_ne_nil s p h
theorem partsSubs_ne_nil : ∀ (l : List (Str × HD V)), ∀ p ∈ partsSubs l, p ≠ []
  | [] => by intro p hp; simp [partsSubs] at hp
  | (k, d) :: l => by
    intro p hp
    rw [partsSubs] at hp
    rcases List.mem_append.mp hp with h | h
    · obtain ⟨e, _, rfl⟩ := List.mem_map.mp h; simp
    · exact partsSubs_ne_nil l p h
end

theorem mem_partsSubs {l : List (Str × HD V)} {p : List Str} :
    p ∈ partsSubs l ↔ ∃ e ∈ l, ∃ q ∈ e.2.parts, p = e.1 :: q := by
  induction l with
  | nil => simp [partsSubs]
  | cons e l ih =>
    obtain ⟨k, d⟩ := e
    simp only [partsSubs, List.mem_append, List.mem_map, ih, List.mem_cons]
    constructor
    · rintro (⟨q, h1, rfl⟩ | ⟨e, h1, h2⟩)
      · exact ⟨_, .inl rfl, q, h1, rfl⟩
      · exact ⟨e, .inr h1, h2⟩
    · rintro ⟨e, rfl | h1, q, h2, h3⟩
      · exact .inl ⟨q, h2, h3.symm⟩
      · exact .inr ⟨e, h1, q, h2, h3⟩

theorem mem_parts {d : HD V} {p : List Str} :
    p ∈ d.parts ↔ (∃ e ∈ d.terms, p = [e.1]) ∨ ∃ e ∈ d.subs, ∃ q ∈ e.2.parts, p = e.1 :: q := by
  cases d with
  | mk t s =>
    rw [parts, List.mem_append, mem_partsSubs]
    simp only [terms, subs, List.mem_map, eq_comm]

/-- The listed keys are exactly those that can be looked up. -/
theorem mem_parts_iff (p : List Str) : ∀ {d : HD V}, WF d → (p ∈ d.parts ↔ (lookup p d).isSome) := by
  induction p with
  | nil => intro d _; rw [lookup]; simpa using fun h => parts_ne_nil d [] h rfl
  | cons k p ih =>
    intro d hd
    rw [mem_parts]
    cases p with
    | nil =>
      rw [lookup, ← Dict.has, Dict.has_iff]
      simp only [Dict.keys, List.mem_map, List.cons.injEq, and_true]
      constructor
      · rintro (⟨e, h1, rfl⟩ | ⟨e, h1, q, h2, rfl, rfl⟩)
        · exact ⟨e, h1, rfl⟩
        · exact absurd rfl (parts_ne_nil _ _ h2)
      · rintro ⟨e, h1, rfl⟩; exact .inl ⟨e, h1, rfl⟩
    | cons k2 ks =>
      rw [lookup]
      constructor
      · rintro (⟨e, h1, h2⟩ | ⟨e, h1, q, h2, h3⟩)
        · simp at h2
        · simp only [List.cons.injEq] at h3
          obtain ⟨rfl, rfl⟩ := h3
          have hg : d.subs.get e.1 = some e.2 := Dict.get_of_mem hd.subs_wf (by simpa using h1)
          rw [hg]
          exact (ih (hd.sub hg)).mp h2
      · intro h
        cases hg : d.subs.get k with
        | none => rw [hg] at h; simp at h
        | some s =>
          rw [hg] at h
          exact .inr ⟨(k, s), Dict.mem_of_get hg, _, (ih (hd.sub hg)).mpr h, rfl⟩

mutual
theorem parts_nodup : ∀ d : HD V, WF d → d.parts.Nodup
  | .mk t s => by
    intro h
    rw [parts]
    refine List.nodup_append.mpr ⟨?_, partsSubs_nodup s h.2.1 h.2.2, ?_⟩
    · have := h.1
      unfold Dict.WF Dict.keys at this
      have h2 : (t.map fun e => [e.1]) = (t.map Prod.fst).map (fun x => [x]) := by simp
      rw [h2]
      exact this.map (fun a b hab => by simpa using hab)
    · intro a ha b hb hab
      obtain ⟨e, _, rfl⟩ := List.mem_map.mp ha
      obtain ⟨e2, _, q, hq, rfl⟩ := mem_partsSubs.mp hb
      simp only [List.cons.injEq] at hab
      exact parts_ne_nil _ _ hq hab.2.symm
theorem partsSubs_nodup : ∀ l : List (Str × HD V), Dict.WF l → WFs l → (partsSubs l).Nodup
  | [] => by intro _ _; exact List.nodup_nil
  | (k, d) :: l => by
    intro h1 h2
    have h1' : k ∉ Dict.keys l ∧ (Dict.keys l).Nodup := List.nodup_cons.mp h1
    rw [partsSubs]
    refine List.nodup_append.mpr ⟨?_, partsSubs_nodup l h1'.2 h2.2, ?_⟩
    · exact (parts_nodup d h2.1).map (fun a b hab => by simpa using hab)
    · intro a ha b hb hab
      obtain ⟨q, _, rfl⟩ := List.mem_map.mp ha
      obtain ⟨e2, he2, q2, hq, rfl⟩ := mem_partsSubs.mp hb
      simp only [List.cons.injEq] at hab
      exact h1'.1 (List.mem_map.mpr ⟨e2, he2, hab.1.symm⟩)
end

mutual
theorem iterKeys_parts : ∀ (d : HD V) (ps : List Str),
    d.iterKeys ps = d.parts.map fun q => joinWith '.' (ps ++ q)
  | .mk t s, ps => by
    rw [iterKeys, parts, List.map_append, iterSubs_parts s ps]
    congr 1
    rw [List.map_map]
    apply List.map_congr_left
    intro e _
    cases ps with
    | nil => rfl
    | cons p ps => rfl
theorem iterSubs_parts : ∀ (l : List (Str × HD V)) (ps : List Str),
    iterSubs l ps = (partsSubs l).map fun q => joinWith '.' (ps ++ q)
  | [], ps => rfl
  | (k, d) :: l, ps => by
    rw [iterSubs, partsSubs, List.map_append, iterSubs_parts l ps, iterKeys_parts d]
    congr 1
    rw [List.map_map]
    apply List.map_congr_left
    intro q _
    cases ps with
    | nil => rfl
    | cons p ps => simp
end

theorem iter_eq (d : HD V) : d.iter = d.parts.map (joinWith '.') := by
  unfold iter; rw [iterKeys_parts]; simp

/-! ## store and delete -/

theorem store_spec (p : List Str) (v : V) : ∀ {d : HD V}, WF d → p ≠ [] →
    ∃ d', store p v d = some d' ∧ WF d' ∧ ∀ q, lookup q d' = if q = p then some v else lookup q d := by
  induction p with
  | nil => intro d _ h; exact absurd rfl h
  | cons k p ih =>
    intro d hd _
    cases p with
    | nil =>
      refine ⟨_, rfl, hd.setTerm (hd.terms_wf.set k v), fun q => ?_⟩
      match q with
      | [] => simp [lookup]
      | [a] =>
        simp only [lookup, terms_mk, List.cons.injEq, and_true]
        rw [Dict.get_set]
        by_cases h : k = a
        · subst h; simp
        · simp [h, Ne.symm h]
      | a :: b :: r => simp [lookup, subs_mk]
    | cons k2 ks =>
      have hs : WF ((d.subs.get k).getD empty) := by
        cases hg : d.subs.get k with
        | none => exact WF_empty
        | some s => exact hd.sub hg
      obtain ⟨s', h1, h2, h3⟩ := ih hs (by simp)
      refine ⟨.mk d.terms (d.subs.set k s'), by rw [store, h1], hd.setSub h2, fun q => ?_⟩
      match q with
      | [] => simp [lookup]
      | [a] => simp [lookup, terms_mk]
      | a :: b :: r =>
        simp only [lookup, subs_mk]
        rw [Dict.get_set]
        by_cases h : k = a
        · subst h
          rw [if_pos rfl]
          dsimp only
          rw [h3]
          simp only [List.cons.injEq, true_and]
          split
          · rfl
          · cases hg : d.subs.get k with
            | none =>
              simp only [Option.getD_none]
              have : ∀ q, lookup q (empty : HD V) = none := by
                intro q
                match q with
                | [] => rfl
                | [a] => rfl
                | a :: b :: r => rfl
              rw [this]
            | some s => rfl
        · simp [h, Ne.symm h]

theorem lookup_none_of_len {d : HD V} (hd : WF d) (h : d.len = 0) (q : List Str) : lookup q d = none := by
  rw [len_parts] at h
  have h2 : d.parts = [] := List.length_eq_zero_iff.mp h
  have := mem_parts_iff q hd
  rw [h2] at this
  cases hl : lookup q d with
  | none => rfl
  | some v => rw [hl] at this; simp at this

theorem delete_spec (p : List Str) : ∀ {d : HD V}, WF d →
    (lookup p d = none → delete p d = none) ∧
    ((lookup p d).isSome → ∃ d', delete p d = some d' ∧ WF d' ∧
      ∀ q, lookup q d' = if q = p then none else lookup q d) := by
  induction p with
  | nil => intro d _; simp [lookup, delete]
  | cons k p ih =>
    intro d hd
    cases p with
    | nil =>
      simp only [lookup, delete, Dict.has]
      refine ⟨fun h => by simp [h], fun h => ⟨_, if_pos h, hd.setTerm (hd.terms_wf.del k), fun q => ?_⟩⟩
      match q with
      | [] => simp [lookup]
      | [a] =>
        simp only [lookup, terms_mk, List.cons.injEq, and_true]
        rw [Dict.get_del hd.terms_wf]
        by_cases h : k = a
        · subst h; simp
        · simp [h, Ne.symm h]
      | a :: b :: r => simp [lookup, subs_mk]
    | cons k2 ks =>
      simp only [lookup, delete]
      cases hg : d.subs.get k with
      | none => simp
      | some s =>
        have hs := hd.sub hg
        dsimp only
        refine ⟨fun h => by rw [(ih hs).1 h], fun h => ?_⟩
        obtain ⟨s', h1, h2, h3⟩ := (ih hs).2 h
        rw [h1]
        refine ⟨_, rfl, ?_, fun q => ?_⟩
        · split
          · exact hd.delSub
          · exact hd.setSub h2
        · match q with
          | [] => simp [lookup]
          | [a] => simp [lookup, terms_mk]
          | a :: b :: r =>
            simp only [lookup, subs_mk]
            have key : (match (if s'.len = 0 then d.subs.del k else d.subs.set k s').get a with
                | none => none | some s => lookup (b :: r) s)
                = if a = k then lookup (b :: r) s' else
                  (match d.subs.get a with | none => none | some s => lookup (b :: r) s) := by
              by_cases hl : s'.len = 0
              · rw [if_pos hl, Dict.get_del hd.subs_wf]
                by_cases h : k = a
                · subst h; simp [lookup_none_of_len h2 hl]
                · simp [h, Ne.symm h]
              · rw [if_neg hl, Dict.get_set]
                by_cases h : k = a
                · subst h; simp
                · simp [h, Ne.symm h]
            refine key.trans ?_
            rw [h3]
            by_cases h : a = k
            · subst h; simp [hg]
            · simp only [h, if_false, List.cons.injEq, false_and]
              rfl

end HD

/-! ## Histories -/
variable {V : Type}

/-- The hierarchical dictionary holds the flat one. -/
def HolHD (d : HD V) (m : Str → Option V) : Prop :=
  d.WF ∧ (∀ k, d.getitem k = m k) ∧ ∀ p, (HD.lookup p d).isSome → ∃ k, p = splitOn '.' k

theorem HolHD.step {d : HD V} {m : Str → Option V} (h : HolHD d m) (op : HOp V) :
    (d.step op).1 = (flatStep m op).1 ∧ HolHD (d.step op).2 (flatStep m op).2 := by
  cases op with
  | set k v =>
    obtain ⟨d', h1, h2, h3⟩ := HD.store_spec (splitOn '.' k) v h.1 (splitOn_ne_nil _ _)
    simp only [HD.step, HD.setitem]
    rw [h1]
    refine ⟨rfl, h2, fun x => ?_, fun p hp => ?_⟩
    rotate_left
    · change (HD.lookup p d').isSome at hp
      rw [h3] at hp
      split at hp
      · exact ⟨k, by assumption⟩
      · exact h.2.2 p hp
    show d'.getitem x = if x = k then some v else m x
    unfold HD.getitem
    rw [h3, ← h.2.1 x]
    by_cases hx : x = k
    · subst hx; simp
    · rw [if_neg hx, if_neg (fun e => hx (splitOn_inj e))]; rfl
  | del k =>
    have hs := HD.delete_spec (splitOn '.' k) h.1
    have hm : HD.lookup (splitOn '.' k) d = m k := h.2.1 k
    simp only [HD.step, HD.delitem, flatStep]
    cases hk : m k with
    | none =>
      rw [hs.1 (by rw [hm, hk])]
      refine ⟨rfl, h.1, fun x => ?_, h.2.2⟩
      show d.getitem x = if x = k then none else m x
      rw [h.2.1 x]
      split
      · next hx => rw [hx, hk]
      · rfl
    | some v =>
      obtain ⟨d', h1, h2, h3⟩ := hs.2 (by rw [hm, hk]; rfl)
      rw [h1]
      refine ⟨rfl, h2, fun x => ?_, fun p hp => ?_⟩
      rotate_left
      · change (HD.lookup p d').isSome at hp
        rw [h3] at hp
        split at hp
        · simp at hp
        · exact h.2.2 p hp
      show d'.getitem x = if x = k then none else m x
      unfold HD.getitem
      rw [h3, ← h.2.1 x]
      by_cases hx : x = k
      · subst hx; simp
      · rw [if_neg hx, if_neg (fun e => hx (splitOn_inj e))]; rfl

theorem HolHD.run (ops : List (HOp V)) : ∀ {d : HD V} {m : Str → Option V}, HolHD d m →
    (d.run ops).1 = (flatRun m ops).1 ∧ HolHD (d.run ops).2 (flatRun m ops).2 := by
  induction ops with
  | nil => intro d m h; exact ⟨rfl, h⟩
  | cons op ops ih =>
    intro d m h
    obtain ⟨h1, h2⟩ := h.step op
    obtain ⟨h3, h4⟩ := ih h2
    exact ⟨by rw [HD.run, flatRun, h1, h3], h4⟩

theorem HolHD.init : HolHD (HD.empty : HD V) (fun _ => none) := by
  have : ∀ p, HD.lookup p (HD.empty : HD V) = none := by
    intro p
    match p with
    | [] => rfl
    | [a] => rfl
    | a :: b :: r => rfl
  refine ⟨HD.WF_empty, fun k => this _, fun p hp => ?_⟩
  rw [this] at hp; simp at hp

/-- C18. Every history of stores and deletes on a new `HierarchicalDictionary` raises `KeyError` in the
same calls, and afterwards answers every lookup in the same way, as a flat dictionary keyed by the whole
string. -/
theorem C18_flat (ops : List (HOp V)) :
    ((HD.empty : HD V).run ops).1 = (flatRun (fun _ => none) ops).1 ∧
    ∀ k, ((HD.empty : HD V).run ops).2.getitem k = (flatRun (fun _ => none) ops).2 k :=
  ⟨(HolHD.init.run ops).1, (HolHD.init.run ops).2.2.1⟩

/-- A prefix and its extension are independent keys; deleting an absent key raises. -/
example : (HD.empty.run [.set ['a'] 1, .set ['a', '.', 'x'] 2, .del ['a'], .del ['a']]).1 = [true, true, true, false] ∧
    (HD.empty.run [.set ['a'] 1, .set ['a', '.', 'x'] 2, .del ['a'], .del ['a']]).2.getitem ['a', '.', 'x'] = some 2 := by
  constructor <;> rfl

/-- C19. After every history, iteration yields exactly the keys that are present, each once, and `len` is
their number. -/
theorem C19_iteration (ops : List (HOp V)) :
    let d := ((HD.empty : HD V).run ops).2
    d.iter.Nodup ∧ (∀ k, k ∈ d.iter ↔ (d.getitem k).isSome) ∧ d.len = d.iter.length := by
  intro d
  obtain ⟨hw, _, hk⟩ : HolHD d _ := (HolHD.init.run ops).2
  have hp : ∀ p ∈ d.parts, ∃ k, p = splitOn '.' k := fun p h => hk p ((HD.mem_parts_iff p hw).mp h)
  rw [HD.iter_eq]
  refine ⟨List.Nodup.map_on ?_ (HD.parts_nodup d hw), fun k => ?_, by rw [HD.len_parts]; simp⟩
  · intro x hx y hy hxy
    obtain ⟨a, rfl⟩ := hp x hx
    obtain ⟨b, rfl⟩ := hp y hy
    rw [join_split, join_split] at hxy
    rw [hxy]
  · rw [List.mem_map]
    unfold HD.getitem
    rw [← HD.mem_parts_iff _ hw]
    constructor
    · rintro ⟨p, h1, h2⟩
      obtain ⟨a, rfl⟩ := hp p h1
      rw [join_split] at h2
      rw [← h2]; exact h1
    · intro h; exact ⟨_, h, join_split _ _⟩

/-- C19. In terms of the flat dictionary: the keys iterated are the keys of the flat dictionary. -/
theorem C19_iteration_flat (ops : List (HOp V)) (k : Str) :
    k ∈ ((HD.empty : HD V).run ops).2.iter ↔ ((flatRun (fun _ => none) ops).2 k).isSome := by
  rw [(C19_iteration ops).2.1, (C18_flat ops).2]

example : (HD.empty.run [.set ['a', '.', 'x'] 1, .set ['a'] 2, .set ['b', '.', 'x'] 3, .del ['b', '.', 'x']]).2.iter
    = [['a'], ['a', '.', 'x']] := by rfl

end Verif
