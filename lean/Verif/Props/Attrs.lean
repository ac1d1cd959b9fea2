import Verif.Lemmas.Attrs
/-! # C114: attributes of fields -/
namespace Verif.Attrs
variable {A V X : Type} [DecidableEq A]

/-- C114. An attribute that is given to a field keeps the value given, whatever the others imply. -/
theorem C114_given (w : World A V X) (given : Dict A V) (k : Nat) (f : Field A V) (h : make w k given = some f) (c : A) (hc : c ∈ given.keys) :
    getAttribute f c = given.get c := by
  unfold make at h
  split at h
  · cases h
  · next d hd =>
    cases h
    exact ((J.init w given).absorbAll (fun _ h => h) hd).giv c hc

/-- C114. Any other attribute has a value exactly if it is a base of those given, directly or through others; the value is that of the first attribute given that it
follows from, converted by that one. -/
theorem C114_value (w : World A V X) (given : Dict A V) (k : Nat) (f : Field A V) (h : make w k given = some f) (c : A) (hc : c ∉ given.keys) (x : V) :
    getAttribute f c = some x ↔ Inherits w given c x := by
  unfold make at h
  split at h
  · cases h
  · next d hd =>
    cases h
    have hj := (J.init w given).absorbAll (fun _ h => h) hd
    rw [List.nil_append] at hj
    constructor
    · exact hj.val c x hc
    · rintro ⟨b, a, q, v, e, hn, ha, hv, rfl⟩
      obtain ⟨y, hy⟩ := Option.isSome_iff_exists.1 (hj.all a (by rw [e]; simp) c ha)
      obtain ⟨b', a', q', v', e', hn', ha', hv', rfl⟩ := hj.val c y hc hy
      have haa : a = a' := by
        rw [e] at e'
        rcases List.append_eq_append_iff.1 e' with ⟨m, h1, h2⟩ | ⟨m, h1, h2⟩
        · cases m with
          | nil => simpa using (List.cons.inj h2).1
          | cons z m =>
            have := (List.cons.inj h2).1
            subst this
            exact absurd ha (hn' a (by rw [h1]; simp))
        · cases m with
          | nil => simpa using (List.cons.inj h2).1.symm
          | cons z m =>
            have := (List.cons.inj h2).1
            subst this
            exact absurd ha' (hn a' (by rw [h1]; simp))
      subst haa
      rw [hv] at hv'
      cases hv'
      exact hy

/-- C114. The constructor ends, also when attributes are bases of each other in a circle: finitely many attributes are enough. -/
theorem C114_ends (w : World A V X) (given : Dict A V) (u : List A) (hg : ∀ a ∈ given.keys, a ∈ u) (hu : ∀ b ∈ u, ∀ c ∈ w.bases b, c ∈ u) :
    ∃ k, ∀ j, k ≤ j → ∃ f, make w j given = some f := by
  obtain ⟨k, hk⟩ := absorbAll_ends hu given.keys given (fun a ha => ⟨hg a ha, Dict.has_iff.mpr ha⟩)
  refine ⟨k, fun j hj => ?_⟩
  obtain ⟨d, hd⟩ := hk j hj
  exact ⟨_, by unfold make; rw [hd]⟩

/-- C114. A field takes data exactly if each validator that was given accepts it, with the value given for it; validators that only follow from others are not asked. -/
theorem C114_valid (w : World A V X) (given : Dict A V) (k : Nat) (f : Field A V) (h : make w k given = some f) (x : X) :
    valid w f x = true ↔ ∀ a v, given.get a = some v → w.validator a = true → w.validate a x v = true := by
  have hg := C114_given w given k f h
  unfold make at h
  split at h
  · cases h
  · next d hd =>
    cases h
    simp only [getAttribute] at hg
    simp only [valid, List.all_eq_true, List.mem_filter]
    constructor
    · intro ha a v hv hw
      have hm : a ∈ given.keys := Dict.mem_keys_iff.mpr ⟨v, hv⟩
      have := ha a ⟨hm, hw⟩
      rw [hg a hm, hv] at this
      exact this
    · rintro ha a ⟨hm, hw⟩
      rw [hg a hm]
      obtain ⟨v, hv⟩ := Dict.mem_keys_iff.mp hm
      rw [hv]
      exact ha a v hv hw

theorem closed {w : World A V X} {given : Dict A V} {k : Nat} {f : Field A V} (h : make w k given = some f) {a c : A} (ha : a ∈ f.attrs.keys)
    (hc : c ∈ w.bases a) : c ∈ f.attrs.keys := by
  unfold make at h
  split at h
  · cases h
  · next d hd =>
    cases h
    have hj := (J.init w given).absorbAll (fun _ h => h) hd
    rw [List.nil_append] at hj
    by_cases hcg : c ∈ given.keys
    · exact Dict.has_iff.mp (giv_has hcg (hj.giv c hcg))
    · by_cases hag : a ∈ given.keys
      · exact Dict.has_iff.mp (hj.all a hag c (.base c hc hcg))
      · obtain ⟨y, hy⟩ := Dict.mem_keys_iff.mp ha
        obtain ⟨b, a', q, v, e, _, h3, _⟩ := hj.val a y hag hy
        exact Dict.has_iff.mp (hj.all a' (by rw [e]; simp) c (.next a c h3 hc hcg))

/-- C114. A copy of a field has the same attributes as the field, with the same values. -/
theorem C114_copy (w : World A V X) (given : Dict A V) (k k' : Nat) (f g : Field A V) (h : make w k given = some f) (hg : copy w k' f [] = some g) (c : A) :
    getAttribute g c = getAttribute f c := by
  have hm : make w k' f.attrs = some g := hg
  by_cases hc : c ∈ f.attrs.keys
  · exact C114_given w f.attrs k' g hm c hc
  · have h1 : f.attrs.get c = none := Dict.get_eq_none_iff.mpr hc
    unfold getAttribute
    rw [h1]
    cases e : g.attrs.get c with
    | none => rfl
    | some x =>
      obtain ⟨b, a, q, v, ek, _, h3, _⟩ := (C114_value w f.attrs k' g hm c hc x).mp e
      have key : ∀ z, Above w f.attrs a z → z ∈ f.attrs.keys := by
        intro z hz
        induction hz with
        | base z h1 h2 => exact closed h (by rw [ek]; simp) h1
        | next y z _ h1 h2 ih => exact closed h ih h1
      exact absurd (key c h3) hc

theorem get_update (d l : Dict A V) (hl : Dict.WF l) (c : A) : (update d l).get c = (l.get c).or (d.get c) := by
  induction l generalizing d with
  | nil => simp [update]
  | cons p l ih =>
    obtain ⟨a, v⟩ := p
    have hw : Dict.WF l := (List.nodup_cons.1 hl).2
    have ha : a ∉ Dict.keys l := (List.nodup_cons.1 hl).1
    unfold update
    rw [ih _ hw, Dict.get_set]
    simp only [Dict.get]
    by_cases e : a = c
    · subst e
      rw [if_pos rfl, if_pos rfl, Dict.get_eq_none_iff.mpr ha]
      rfl
    · rw [if_neg e, if_neg e]

/-- C114. A copy with new attributes: these have their new values; the others that the field had, also those that only followed from others, keep their values, even if
what they followed from is now given another value. -/
theorem C114_new (w : World A V X) (f g : Field A V) (k : Nat) (new : Dict A V) (hn : Dict.WF new) (h : copy w k f new = some g) (c : A) :
    (∀ v, new.get c = some v → getAttribute g c = some v) ∧ (c ∉ new.keys → c ∈ f.attrs.keys → getAttribute g c = getAttribute f c) := by
  have hu := get_update f.attrs new hn c
  refine ⟨fun v hv => ?_, fun h1 h2 => ?_⟩
  · rw [hv] at hu
    rw [C114_given w _ k g h c (Dict.mem_keys_iff.mpr ⟨v, hu⟩), hu]; rfl
  · rw [Dict.get_eq_none_iff.mpr h1] at hu
    obtain ⟨v, hv⟩ := Dict.mem_keys_iff.mp h2
    rw [C114_given w _ k g h c (Dict.mem_keys_iff.mpr ⟨v, by rw [hu, hv]; rfl⟩), hu]; rfl

/-- C114 (the part of "a copy takes the data that the field takes" that holds). A copy takes only data that the field takes; it takes exactly the data that, besides, the
validators that follow from those given accept. -/
theorem C114_copy_valid_partial (w : World A V X) (given : Dict A V) (k k' : Nat) (f g : Field A V) (h : make w k given = some f) (hg : copy w k' f [] = some g) (x : X) :
    valid w g x = true ↔ valid w f x = true ∧ ∀ c v, c ∉ given.keys → Inherits w given c v → w.validator c = true → w.validate c x v = true := by
  rw [C114_valid w f.attrs k' g hg, C114_valid w given k f h]
  have h1 := C114_given w given k f h
  have h2 := C114_value w given k f h
  simp only [getAttribute] at h1 h2
  constructor
  · refine fun ha => ⟨fun a v hv => ha a v ?_, fun c v hc hi => ha c v ((h2 c hc v).mpr hi)⟩
    rw [h1 a (Dict.mem_keys_iff.mpr ⟨v, hv⟩), hv]
  · rintro ⟨ha, hb⟩ c v hv
    by_cases hc : c ∈ given.keys
    · exact ha c v (by rw [← h1 c hc, hv])
    · exact hb c v hc ((h2 c hc v).mp hv)

/-- C114. A copy of a copy takes the same data as the copy. -/
theorem C114_copies (w : World A V X) (given : Dict A V) (k k' k'' : Nat) (f g e : Field A V) (h : make w k given = some f) (hg : copy w k' f [] = some g)
    (he : copy w k'' g [] = some e) (x : X) : valid w e x = valid w g x := by
  rw [Bool.eq_iff_iff, C114_valid w g.attrs k'' e he, C114_valid w f.attrs k' g hg]
  have := C114_copy w given k k' f g h hg
  simp only [getAttribute] at this
  simp only [this]

inductive Scalar | bits | maxValue | minValue
  deriving DecidableEq

/-- The attributes of numbers (scalar_validators.py). -/
def scalars : World Scalar Nat Nat where
  bases
    | .bits => [.maxValue]
    | _ => []
  convert
    | .bits, .maxValue, v => 2 ^ v - 1
    | _, _, v => v
  validator _ := true
  validate
    | .bits, x, v => decide (x ≤ 2 ^ v)
    | .maxValue, x, v => decide (x ≤ v)
    | .minValue, x, v => decide (v ≤ x)

/-- C114 is false of the data: a field with `Bits: n` takes 2^n, and a copy of it, as every packet has for its fields, does not. -/
theorem C114_false_copy (n : Nat) : ∃ f g, make scalars 9 [(.bits, n)] = some f ∧ copy scalars 9 f [] = some g ∧ valid scalars f (2 ^ n) = true ∧ valid scalars g (2 ^ n) = false := by
  have hp : 0 < 2 ^ n := Nat.two_pow_pos n
  have hf : make scalars 9 [(.bits, n)] = some ⟨[(.bits, n), (.maxValue, 2 ^ n - 1)], [.bits]⟩ := rfl
  have hg : copy scalars 9 ⟨[(.bits, n), (.maxValue, 2 ^ n - 1)], [.bits]⟩ [] = some ⟨[(.bits, n), (.maxValue, 2 ^ n - 1)], [.bits, .maxValue]⟩ := rfl
  refine ⟨_, _, hf, hg, ?_, ?_⟩
  · simp [valid, scalars, Dict.get]
  · have : ¬ 2 ^ n ≤ 2 ^ n - 1 := by omega
    simp [valid, scalars, Dict.get]
    omega

/-- C114 is false of new attributes: a copy of a field with `Bits: 8` that is given `Bits: 16` keeps the maximum of 255. -/
theorem C114_false_bits : ∃ f g, make scalars 9 [(.bits, 8)] = some f ∧ copy scalars 9 f [(.bits, 16)] = some g ∧ getAttribute g .bits = some 16 ∧
    getAttribute g .maxValue = some 255 ∧ valid scalars g 256 = false :=
  ⟨_, _, rfl, rfl, by decide, by decide, by decide⟩

example : ∃ f, make scalars 9 [(.minValue, 3), (.bits, 8)] = some f ∧ getAttribute f .minValue = some 3 ∧ getAttribute f .maxValue = some 255 :=
  ⟨_, rfl, by decide, by decide⟩
example : Inherits scalars [(.bits, 8)] .maxValue 255 :=
  ⟨[], .bits, [], 8, rfl, by simp, .base _ (by simp [scalars]) (by simp [Dict.keys]), rfl, rfl⟩

/-- Two attributes that are bases of each other. -/
def circle : World Bool Nat Nat where
  bases b := [!b]
  convert _ _ v := v + 1
  validator _ := false
  validate _ _ _ := true
example : ∃ f, make circle 9 [(true, 1)] = some f ∧ getAttribute f false = some 2 ∧ getAttribute f true = some 1 := ⟨_, rfl, by decide, by decide⟩
example : ∃ k, ∀ j, k ≤ j → ∃ f, make circle j [(true, 1)] = some f := C114_ends circle _ [true, false] (by decide) (by decide)

end Verif.Attrs
