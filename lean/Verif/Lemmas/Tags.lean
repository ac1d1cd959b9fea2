import Verif.Model.Encode
namespace Verif

def FDecls.length : FDecls → Nat
  | .nil => 0
  | .cons _ _ _ _ r => r.length + 1

def FDecls.names : FDecls → List String
  | .nil => []
  | .cons n _ _ _ r => n :: r.names

def FDecls.explicit : FDecls → List (Option Nat)
  | .nil => []
  | .cons _ t _ _ r => t :: r.explicit

theorem skipUsed_not_mem (used : List Nat) : ∀ (f t : Nat),
    (used.filter (fun x => decide (t ≤ x))).length ≤ f → skipUsed used f t ∉ used := by
  intro f
  induction f with
  | zero =>
    intro t h hm
    rw [skipUsed] at hm
    have : t ∈ used.filter (fun x => decide (t ≤ x)) := by simp [hm]
    have := List.length_pos_of_mem this
    omega
  | succ f ih =>
    intro t h
    rw [skipUsed]
    split
    · next hm =>
      apply ih
      have h1 : t ∈ used.filter (fun x => decide (t ≤ x)) := by simp [hm]
      have h2 : (used.filter (fun x => decide (t + 1 ≤ x))).length
          < (used.filter (fun x => decide (t ≤ x))).length := by
        clear h ih h1
        induction used with
        | nil => simp at hm
        | cons y ys ih =>
          have hle : (ys.filter (fun x => decide (t + 1 ≤ x))).length
              ≤ (ys.filter (fun x => decide (t ≤ x))).length := by
            rw [← List.countP_eq_length_filter, ← List.countP_eq_length_filter]
            apply List.countP_mono_left
            intro x _ hx; simp at hx ⊢; omega
          by_cases hy : t = y
          · subst hy; simp; omega
          · have hm' : t ∈ ys := by
              rcases List.mem_cons.mp hm with h | h
              · exact absurd h hy
              · exact h
            have := ih hm'
            simp only [List.filter_cons]
            split <;> split
            · simp only [List.length_cons]; omega
            · next h1 h2 => simp at h1 h2; omega
            · simp only [List.length_cons]; omega
            · omega
      omega
    · assumption

theorem skipUsed_ge (used : List Nat) : ∀ (f t : Nat), t ≤ skipUsed used f t := by
  intro f
  induction f with
  | zero => intro t; exact Nat.le_refl _
  | succ f ih =>
    intro t; rw [skipUsed]; split
    · exact Nat.le_trans (by omega) (ih (t + 1))
    · omega

theorem nodup_snoc {α} {l : List α} {x : α} (h : l.Nodup) (hx : x ∉ l) : (l ++ [x]).Nodup := by
  rw [List.nodup_append]
  refine ⟨h, by simp, ?_⟩
  intro a ha b hb
  simp at hb
  subst hb
  intro he
  exact hx (he ▸ ha)

theorem processLoop_spec : (ds : FDecls) → ∀ (auto : Nat) (acc acc' : List (String × Nat)),
    processLoop ds auto acc = .ok acc' → (acc.map Prod.snd).Nodup → (acc.map Prod.fst).Nodup →
    (acc'.map Prod.snd).Nodup ∧ (acc'.map Prod.fst).Nodup ∧
    ∃ new, acc' = acc ++ new ∧ new.map Prod.fst = ds.names ∧
      ∀ (i g : Nat), ds.explicit[i]? = some (some g) → (new.map Prod.snd)[i]? = some g
  | .nil => by
    intro auto acc acc' h h1 h2
    rw [processLoop.eq_def] at h; cases h
    exact ⟨h1, h2, [], by simp, rfl, by simp [FDecls.explicit]⟩
  | .cons name tag opt t rest => by
    intro auto acc acc' h h1 h2
    rw [processLoop.eq_def] at h
    dsimp only at h
    split at h
    · cases h
    next hn =>
    have key : ∀ (auto' g : Nat), g ∉ acc.map Prod.snd → (∀ g', tag = some g' → g = g') →
        processLoop rest auto' (acc ++ [(name, g)]) = .ok acc' →
        (acc'.map Prod.snd).Nodup ∧ (acc'.map Prod.fst).Nodup ∧
        ∃ new, acc' = acc ++ new ∧ new.map Prod.fst = (FDecls.cons name tag opt t rest).names ∧
          ∀ (i g : Nat), (FDecls.cons name tag opt t rest).explicit[i]? = some (some g) →
            (new.map Prod.snd)[i]? = some g := by
      intro auto' g hg htag h
      obtain ⟨r1, r2, new, r3, r4, r5⟩ := processLoop_spec rest auto' _ acc' h
        (by simp only [List.map_append, List.map_cons, List.map_nil]; exact nodup_snoc h1 hg)
        (by simp only [List.map_append, List.map_cons, List.map_nil]; exact nodup_snoc h2 hn)
      refine ⟨r1, r2, (name, g) :: new, by simp [r3], by simp [FDecls.names, r4], ?_⟩
      intro i g' hi
      cases i with
      | zero => simp [FDecls.explicit] at hi; simp [htag g' hi]
      | succ i => simp [FDecls.explicit] at hi; simpa using r5 i g' hi
    cases tag with
    | some g =>
      dsimp only at h
      split at h
      · cases h
      next hg => exact key auto g hg (by intro g' e; cases e; rfl) h
    | none =>
      refine key _ _ ?_ (by intro g' e; cases e) h
      apply skipUsed_not_mem
      have := List.length_filter_le (fun x => decide (auto ≤ x)) (acc.map Prod.snd)
      simpa using this

theorem FDecls.names_length : (ds : FDecls) → ds.names.length = ds.length
  | .nil => rfl
  | .cons n t o ty r => by simp [FDecls.names, FDecls.length, FDecls.names_length r]

theorem processFields_spec {ds : FDecls} {tags : List Nat} (h : processFields ds = .ok tags) :
    tags.Nodup ∧ ds.names.Nodup ∧ tags.length = ds.length ∧
    ∀ (i g : Nat), ds.explicit[i]? = some (some g) → tags[i]? = some g := by
  unfold processFields at h
  split at h
  · next acc ha =>
    cases h
    obtain ⟨h1, h2, new, h3, h4, h5⟩ := processLoop_spec ds 0 [] acc ha (by simp) (by simp)
    simp only [List.nil_append] at h3
    subst h3
    refine ⟨h1, h4 ▸ h2, ?_, h5⟩
    rw [← FDecls.names_length, ← h4]; simp
  · cases h

end Verif
