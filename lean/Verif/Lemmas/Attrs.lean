import Verif.Spec.Attrs
import Verif.Lemmas.Dict
/-! # Lemmas: the loops of a field's constructor -/
namespace Verif.Attrs
variable {A V X : Type} [DecidableEq A]

def From (w : World A V X) (given : Dict A V) (l : List A) (c : A) (x : V) : Prop :=
  ∃ before a behind v, l = before ++ a :: behind ∧ (∀ a' ∈ before, ¬ Above w given a' c) ∧ Above w given a c ∧ given.get a = some v ∧ x = w.convert a c v

theorem From.more {w : World A V X} {given : Dict A V} {l : List A} {c : A} {x : V} (h : From w given l c x) (m : List A) : From w given (l ++ m) c x := by
  obtain ⟨p, a, q, v, rfl, h⟩ := h
  exact ⟨p, a, q ++ m, v, by simp, h⟩

theorem Above.free {w : World A V X} {given : Dict A V} {a c : A} (h : Above w given a c) : c ∉ given.keys := by
  cases h <;> assumption

/-- After the attributes `l`. -/
structure J (w : World A V X) (given : Dict A V) (l : List A) (d : Dict A V) : Prop where
  giv : ∀ c, c ∈ given.keys → d.get c = given.get c
  val : ∀ c x, c ∉ given.keys → d.get c = some x → From w given l c x
  all : ∀ a ∈ l, ∀ c, Above w given a c → d.has c = true

/-- In the loop of `a`. -/
structure K (w : World A V X) (given : Dict A V) (l : List A) (a : A) (q : List A) (d : Dict A V) : Prop where
  giv : ∀ c, c ∈ given.keys → d.get c = given.get c
  val : ∀ c x, c ∉ given.keys → d.get c = some x → From w given (l ++ [a]) c x
  old : ∀ a' ∈ l, ∀ c, Above w given a' c → d.has c = true
  base : ∀ c ∈ w.bases a, d.has c = true ∨ c ∈ q
  next : ∀ b, Above w given a b → d.has b = true → ∀ c ∈ w.bases b, d.has c = true ∨ c ∈ q
  que : ∀ c ∈ q, c ∉ given.keys → Above w given a c

theorem has_set {d : Dict A V} {a c : A} {v : V} : (d.set a v).has c = true ↔ a = c ∨ d.has c = true := by
  unfold Dict.has
  rw [Dict.get_set]
  split
  · next e => simp [e]
  · next e => simp [e]

theorem giv_has {given d : Dict A V} {c : A} (hc : c ∈ given.keys) (h : d.get c = given.get c) : d.has c = true := by
  have := Dict.has_iff.mpr hc
  unfold Dict.has at this ⊢
  rw [h]; exact this

theorem K.absorb {w : World A V X} {given : Dict A V} {l : List A} {a : A} {v : V} (hv : given.get a = some v) {k : Nat} {q : List A} {d d' : Dict A V}
    (hk : K w given l a q d) (h : Attrs.absorb w a v k q d = some d') : J w given (l ++ [a]) d' := by
  induction k generalizing q d with
  | zero => cases h
  | succ k ih =>
    cases q with
    | nil =>
      cases h
      refine ⟨hk.giv, hk.val, fun a' ha c hc => ?_⟩
      rcases List.mem_append.1 ha with ha | ha
      · exact hk.old a' ha c hc
      · cases List.mem_singleton.1 ha
        induction hc with
        | base c h1 h2 =>
          rcases hk.base c h1 with h | h
          · exact h
          · cases h
        | next b c h1 h2 _ ihb =>
          rcases hk.next b h1 ihb c h2 with h | h
          · exact h
          · cases h
    | cons b q =>
      unfold Attrs.absorb at h
      split at h
      · next hb =>
        refine ih ⟨hk.giv, hk.val, hk.old, fun c hc => ?_, fun m h1 h2 c hc => ?_, fun c hc => hk.que c (List.mem_cons_of_mem _ hc)⟩ h
        · rcases hk.base c hc with h | h
          · exact .inl h
          · rcases List.mem_cons.1 h with rfl | h
            · exact .inl hb
            · exact .inr h
        · rcases hk.next m h1 h2 c hc with h | h
          · exact .inl h
          · rcases List.mem_cons.1 h with rfl | h
            · exact .inl hb
            · exact .inr h
      · next hb =>
        have hg : b ∉ given.keys := fun hm => hb (giv_has hm (hk.giv b hm))
        have hr := hk.que b (List.mem_cons_self ..) hg
        refine ih ⟨fun c hc => ?_, fun c x hc hx => ?_, fun a' ha c hc => has_set.mpr (.inr (hk.old a' ha c hc)), fun c hc => ?_, fun m h1 h2 c hc => ?_, fun c hc hn => ?_⟩ h
        · rw [Dict.get_set_ne _ _ (by rintro rfl; exact hg hc)]
          exact hk.giv c hc
        · rw [Dict.get_set] at hx
          split at hx
          · next e =>
            subst e
            cases hx
            exact ⟨l, a, [], v, rfl, fun a' ha hab => hb (hk.old a' ha b hab), hr, hv, rfl⟩
          · exact hk.val c x hc hx
        · rw [has_set, List.mem_append]
          rcases hk.base c hc with h | h
          · exact .inl (.inr h)
          · rcases List.mem_cons.1 h with rfl | h
            · exact .inl (.inl rfl)
            · exact .inr (.inl h)
        · rw [has_set, List.mem_append]
          rcases has_set.mp h2 with rfl | h2
          · exact .inr (.inr hc)
          · rcases hk.next m h1 h2 c hc with h | h
            · exact .inl (.inr h)
            · rcases List.mem_cons.1 h with rfl | h
              · exact .inl (.inl rfl)
              · exact .inr (.inl h)
        · rcases List.mem_append.1 hc with hc | hc
          · exact hk.que c (List.mem_cons_of_mem _ hc) hn
          · exact .next b c hr hc hn

theorem J.start {w : World A V X} {given : Dict A V} {l : List A} {d : Dict A V} (hj : J w given l d) (a : A) : K w given l a (w.bases a) d where
  giv := hj.giv
  val := fun c x hc hx => (hj.val c x hc hx).more [a]
  old := hj.all
  base := fun c hc => .inr hc
  next := fun b h1 h2 c hc => by
    by_cases hg : c ∈ given.keys
    · exact .inl (giv_has hg (hj.giv c hg))
    · obtain ⟨x, hx⟩ := Option.isSome_iff_exists.1 h2
      obtain ⟨p, a', q, v, e, _, h3, _⟩ := hj.val b x h1.free hx
      exact .inl (hj.all a' (by rw [e]; simp) c (.next b c h3 hc hg))
  que := fun c hc hn => .base c hc hn

theorem J.absorbAll {w : World A V X} {given : Dict A V} {k : Nat} {l m : List A} {d d' : Dict A V} (hm : ∀ a ∈ m, a ∈ given.keys) (hj : J w given l d)
    (h : Attrs.absorbAll w k m d = some d') : J w given (l ++ m) d' := by
  induction m generalizing l d with
  | nil => cases h; simpa using hj
  | cons a m ih =>
    unfold Attrs.absorbAll at h
    split at h
    · cases h
    · next v hv =>
      split at h
      · cases h
      · next d1 hd =>
        have ha := hm a (List.mem_cons_self ..)
        have := (hj.start a).absorb (by rw [← hj.giv a ha]; exact hv) hd
        have := ih (fun b hb => hm b (List.mem_cons_of_mem _ hb)) this h
        simpa using this

theorem J.init (w : World A V X) (given : Dict A V) : J w given [] given where
  giv := fun _ _ => rfl
  val := fun c x hc hx => absurd (Dict.mem_keys_iff.mpr ⟨x, hx⟩) hc
  all := fun _ h => by cases h

/-! ## The loops end -/

def missing (u : List A) (d : Dict A V) : Nat := (u.filter fun c => !d.has c).length

theorem missing_set {u : List A} {d : Dict A V} {b : A} (v : V) (hu : b ∈ u) (hb : d.has b = false) : missing u (d.set b v) < missing u d := by
  unfold missing
  have hs : (u.filter fun c => !(d.set b v).has c) = (u.filter fun c => !d.has c).filter fun c => !decide (b = c) := by
    rw [List.filter_filter]
    apply List.filter_congr
    intro c _
    by_cases e : b = c
    · simp [e, has_set.mpr (.inl rfl)]
    · have : (d.set b v).has c = d.has c := by unfold Dict.has; rw [Dict.get_set_ne _ _ e]
      simp [e, this]
  rw [hs]
  have hm : b ∈ u.filter fun c => !d.has c := by simp [hu, hb]
  obtain ⟨s, t, e⟩ := List.append_of_mem hm
  rw [e, List.filter_append, List.filter_cons]
  simp only [decide_true, Bool.not_true, Bool.false_eq_true, if_false, List.length_append, List.length_cons]
  have h1 := List.length_filter_le (fun c => !decide (b = c)) s
  have h2 := List.length_filter_le (fun c => !decide (b = c)) t
  omega

theorem absorb_ends {w : World A V X} {u : List A} (hu : ∀ b ∈ u, ∀ c ∈ w.bases b, c ∈ u) (a : A) (v : V) (n : Nat) :
    ∀ (q : List A) (d : Dict A V), (∀ b ∈ q, b ∈ u) → missing u d ≤ n → ∃ k, ∀ j, k ≤ j → ∃ d', absorb w a v j q d = some d' ∧ ∀ c, d.has c = true → d'.has c = true := by
  induction n with
  | zero =>
    intro q
    induction q with
    | nil => intro d _ _; exact ⟨1, fun j hj => by obtain ⟨j, rfl⟩ : ∃ i, j = i + 1 := ⟨j - 1, by omega⟩; exact ⟨d, rfl, fun _ h => h⟩⟩
    | cons b q ih =>
      intro d hq hn
      have hb : d.has b = true := by
        cases hb : d.has b with
        | true => rfl
        | false =>
          have := missing_set v (hq b (List.mem_cons_self ..)) hb
          omega
      obtain ⟨k, hk⟩ := ih d (fun c hc => hq c (List.mem_cons_of_mem _ hc)) hn
      refine ⟨k + 1, fun j hj => ?_⟩
      obtain ⟨j, rfl⟩ : ∃ i, j = i + 1 := ⟨j - 1, by omega⟩
      unfold absorb
      rw [if_pos hb]
      exact hk j (by omega)
  | succ n ihn =>
    intro q
    induction q with
    | nil => intro d _ _; exact ⟨1, fun j hj => by obtain ⟨j, rfl⟩ : ∃ i, j = i + 1 := ⟨j - 1, by omega⟩; exact ⟨d, rfl, fun _ h => h⟩⟩
    | cons b q ih =>
      intro d hq hn
      cases hb : d.has b with
      | true =>
        obtain ⟨k, hk⟩ := ih d (fun c hc => hq c (List.mem_cons_of_mem _ hc)) hn
        refine ⟨k + 1, fun j hj => ?_⟩
        obtain ⟨j, rfl⟩ : ∃ i, j = i + 1 := ⟨j - 1, by omega⟩
        unfold absorb
        rw [if_pos hb]
        exact hk j (by omega)
      | false =>
        have hbu := hq b (List.mem_cons_self ..)
        have hlt := missing_set (w.convert a b v) hbu hb
        obtain ⟨k, hk⟩ := ihn (q ++ w.bases b) (d.set b (w.convert a b v)) (fun c hc => by
          rcases List.mem_append.1 hc with hc | hc
          · exact hq c (List.mem_cons_of_mem _ hc)
          · exact hu b hbu c hc) (by omega)
        refine ⟨k + 1, fun j hj => ?_⟩
        obtain ⟨j, rfl⟩ : ∃ i, j = i + 1 := ⟨j - 1, by omega⟩
        unfold absorb
        rw [if_neg (by simp [hb])]
        obtain ⟨d', h1, h2⟩ := hk j (by omega)
        exact ⟨d', h1, fun c hc => h2 c (has_set.mpr (.inr hc))⟩

/-- The loops of all attributes end. -/
theorem absorbAll_ends {w : World A V X} {u : List A} (hu : ∀ b ∈ u, ∀ c ∈ w.bases b, c ∈ u) (l : List A) (d : Dict A V) (hl : ∀ a ∈ l, a ∈ u ∧ d.has a = true) :
    ∃ k, ∀ j, k ≤ j → ∃ d', absorbAll w j l d = some d' := by
  suffices h : ∀ (l : List A) (d : Dict A V), (∀ a ∈ l, a ∈ u ∧ d.has a = true) → ∃ k, ∀ j, k ≤ j → ∃ d', absorbAll w j l d = some d' from h l d hl
  intro l
  induction l with
  | nil => intro d _; exact ⟨0, fun j _ => ⟨d, rfl⟩⟩
  | cons a l ih =>
    intro d hl
    obtain ⟨ha, hd⟩ := hl a (List.mem_cons_self ..)
    obtain ⟨v, hv⟩ := Option.isSome_iff_exists.1 hd
    obtain ⟨k1, hk1⟩ := absorb_ends hu a v (missing u d) (w.bases a) d (hu a ha) (Nat.le_refl _)
    obtain ⟨d1, h1, h2⟩ := hk1 k1 (Nat.le_refl _)
    obtain ⟨k2, hk2⟩ := ih d1 (fun b hb => ⟨(hl b (List.mem_cons_of_mem _ hb)).1, h2 b (hl b (List.mem_cons_of_mem _ hb)).2⟩)
    have same : ∀ (n : Nat) (q : List A) (e d1 : Dict A V), absorb w a v n q e = some d1 → ∀ j, n ≤ j → absorb w a v j q e = some d1 := by
      intro n
      induction n with
      | zero => intro q e d1 h; cases h
      | succ n ih =>
        intro q e d1 h j hj
        obtain ⟨j, rfl⟩ : ∃ i, j = i + 1 := ⟨j - 1, by omega⟩
        cases q with
        | nil => exact h
        | cons b q =>
          unfold absorb at h ⊢
          split
          · next hb => rw [if_pos hb] at h; exact ih _ _ _ h j (by omega)
          · next hb => rw [if_neg hb] at h; exact ih _ _ _ h j (by omega)
    refine ⟨max k1 k2, fun j hj => ?_⟩
    unfold absorbAll
    rw [hv]
    dsimp only
    rw [same k1 _ _ _ h1 j (by omega)]
    exact hk2 j (by omega)

end Verif.Attrs
