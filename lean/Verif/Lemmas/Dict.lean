import Verif.Model.Dict
/-! # Lemmas about dictionaries -/
set_option linter.unusedSectionVars false
namespace Verif.Dict
variable {α β : Type} [DecidableEq α]

/-- Every key occurs once (true of the dictionaries that arise from `set` and `del`). -/
def WF (d : Dict α β) : Prop := d.keys.Nodup

@[simp] theorem get_nil (k : α) : get ([] : Dict α β) k = none := rfl
@[simp] theorem keys_nil : keys ([] : Dict α β) = [] := rfl
@[simp] theorem keys_cons (a : α) (b : β) (t : Dict α β) : keys ((a, b) :: t) = a :: keys t := rfl

theorem get_set (d : Dict α β) (k k' : α) (v : β) :
    (d.set k v).get k' = if k = k' then some v else d.get k' := by
  induction d with
  | nil => simp [set, get]
  | cons p t ih =>
    obtain ⟨a, b⟩ := p
    by_cases h : a = k
    · subst h; simp only [set, if_pos, get]; split <;> rfl
    · simp only [set, if_neg h, get]
      by_cases h2 : a = k'
      · subst h2; simp [Ne.symm h]
      · simp only [if_neg h2, ih]

theorem get_set_self (d : Dict α β) (k : α) (v : β) : (d.set k v).get k = some v := by simp [get_set]

theorem get_set_ne (d : Dict α β) {k k' : α} (v : β) (h : k ≠ k') : (d.set k v).get k' = d.get k' := by
  simp [get_set, h]

theorem mem_keys_iff {d : Dict α β} {k : α} : k ∈ d.keys ↔ ∃ v, d.get k = some v := by
  induction d with
  | nil => simp [keys]
  | cons p t ih =>
    obtain ⟨a, b⟩ := p
    simp only [keys_cons, List.mem_cons, get]
    by_cases h : a = k
    · simp [h]
    · rw [if_neg h, ← ih]; simp [Ne.symm h]

theorem get_eq_none_iff {d : Dict α β} {k : α} : d.get k = none ↔ k ∉ d.keys := by
  rw [mem_keys_iff]
  cases d.get k <;> simp

theorem has_iff {d : Dict α β} {k : α} : d.has k = true ↔ k ∈ d.keys := by
  rw [mem_keys_iff]; unfold has; cases d.get k <;> simp

theorem get_of_mem {d : Dict α β} (h : WF d) {k : α} {v : β} (hm : (k, v) ∈ d) : d.get k = some v := by
  induction d with
  | nil => simp at hm
  | cons p t ih =>
    obtain ⟨a, b⟩ := p
    have h' : a ∉ keys t ∧ (keys t).Nodup := List.nodup_cons.mp h
    rcases List.mem_cons.mp hm with hm | hm
    · cases hm; simp [get]
    · have : a ≠ k := by
        rintro rfl
        exact h'.1 (List.mem_map.mpr ⟨_, hm, rfl⟩)
      simp only [get, if_neg this]
      exact ih h'.2 hm

theorem mem_of_get {d : Dict α β} {k : α} {v : β} (h : d.get k = some v) : (k, v) ∈ d := by
  induction d with
  | nil => simp at h
  | cons p t ih =>
    obtain ⟨a, b⟩ := p
    simp only [get] at h
    split at h
    · next h2 => cases h; subst h2; simp
    · exact List.mem_cons_of_mem _ (ih h)

theorem get_iff_mem {d : Dict α β} (h : WF d) {k : α} {v : β} : d.get k = some v ↔ (k, v) ∈ d :=
  ⟨mem_of_get, get_of_mem h⟩

theorem keys_set (d : Dict α β) (k : α) (v : β) :
    (d.set k v).keys = if k ∈ d.keys then d.keys else d.keys ++ [k] := by
  induction d with
  | nil => simp [set, keys]
  | cons p t ih =>
    obtain ⟨a, b⟩ := p
    by_cases h : a = k
    · subst h; simp [set]
    · simp only [set, if_neg h, keys_cons, ih, List.mem_cons, Ne.symm h, false_or]
      split <;> simp

theorem WF.set {d : Dict α β} (h : WF d) (k : α) (v : β) : WF (d.set k v) := by
  unfold WF; rw [keys_set]
  split
  · exact h
  · next hk =>
    refine List.nodup_append.mpr ⟨h, by simp, ?_⟩
    intro a ha b hb
    simp at hb; subst hb
    intro he; subst he; exact hk ha

theorem WF.nil : WF ([] : Dict α β) := List.nodup_nil

theorem keys_del (d : Dict α β) (k : α) : (d.del k).keys = d.keys.erase k := by
  induction d with
  | nil => simp [del, keys]
  | cons p t ih =>
    obtain ⟨a, b⟩ := p
    by_cases h : a = k
    · subst h; simp [del]
    · simp only [del, if_neg h, keys_cons, ih]
      rw [List.erase_cons_tail (by simpa using h)]

theorem WF.del {d : Dict α β} (h : WF d) (k : α) : WF (d.del k) := by
  unfold WF; rw [keys_del]; exact h.erase k

theorem get_del {d : Dict α β} (h : WF d) (k k' : α) :
    (d.del k).get k' = if k = k' then none else d.get k' := by
  induction d with
  | nil => simp [Dict.del]
  | cons p t ih =>
    obtain ⟨a, b⟩ := p
    have h' : a ∉ keys t ∧ (keys t).Nodup := List.nodup_cons.mp h
    by_cases h1 : a = k
    · subst h1
      simp only [Dict.del, if_pos, get]
      split
      · next h2 => subst h2; exact get_eq_none_iff.mpr h'.1
      · rfl
    · simp only [Dict.del, if_neg h1, get]
      by_cases h2 : a = k'
      · subst h2; simp [Ne.symm h1]
      · simp only [if_neg h2]; exact ih h'.2

theorem length_keys (d : Dict α β) : d.keys.length = d.length := by simp [keys]

theorem get_filter {d : Dict α β} (h : WF d) (p : α → β → Bool) (k : α) :
    get (d.filter fun e => p e.1 e.2) k = (d.get k).filter (p k) := by
  induction d with
  | nil => simp
  | cons e t ih =>
    obtain ⟨a, b⟩ := e
    have h' : a ∉ keys t ∧ (keys t).Nodup := List.nodup_cons.mp h
    by_cases hp : p a b = true
    · rw [List.filter_cons_of_pos (by exact hp)]
      simp only [get]
      split
      · simp [Option.filter, ← ‹a = k›, hp]
      · exact ih h'.2
    · rw [List.filter_cons_of_neg (by exact hp)]
      simp only [get]
      rw [ih h'.2]
      split
      · next h2 =>
        subst h2
        rw [get_eq_none_iff.mpr h'.1]
        simp [Option.filter, hp]
      · rfl

theorem WF.filter {d : Dict α β} (h : WF d) (p : α × β → Bool) : WF (d.filter p) := by
  unfold WF keys at *
  exact (List.filter_sublist.map _).nodup h

end Verif.Dict
