import Verif.Props.HierDict
import Verif.Spec.Registry
/-! # C20, C21: definition registry and silos -/
namespace Verif
variable {D : Type}

/-- The bookkeeping of one identifier is right. -/
structure PodOk (p : Pod D) (m : Ver → Option D) : Prop where
  wf : p.versions.WF
  ne : p.versions ≠ []
  get : ∀ v, p.versions.get v = m v
  top : ∃ x, p.minorMax.get p.majorMax = some x

/-- ... and so are the maxima, when all versions are non-negative. -/
structure PodMax (p : Pod D) : Prop where
  pos : ∀ v, (p.versions.get v).isSome → 0 ≤ v.major ∧ 0 ≤ v.minor
  major : ∀ v, (p.versions.get v).isSome → v.major ≤ p.majorMax
  major_mem : ∃ v, (p.versions.get v).isSome ∧ v.major = p.majorMax
  minor : ∀ v, (p.versions.get v).isSome → ∃ x, p.minorMax.get v.major = some x ∧ v.minor ≤ x
  minor_mem : ∀ M x, p.minorMax.get M = some x →
    (p.versions.get ⟨M, x⟩).isSome ∨ (x = 0 ∧ ∀ v, (p.versions.get v).isSome → v.major ≠ M)

/-- One registration in the bookkeeping (what `registerDefinition` computes). -/
def Pod.add (p : Pod D) (v : Ver) (d : D) : Pod D :=
  { versions := p.versions.set v d
    majorMax := max v.major p.majorMax
    minorMax := p.minorMax.set v.major (max ((p.minorMax.get v.major).getD 0) v.minor) }

theorem PodOk.add {p : Pod D} {m : Ver → Option D} (hw : p.versions.WF) (hg : ∀ v, p.versions.get v = m v)
    (ht : ∃ x, p.minorMax.get p.majorMax = some x) (v : Ver) (d : D) :
    PodOk (p.add v d) (fun v' => if v' = v then some d else m v') := by
  refine ⟨hw.set _ _, ?_, fun v' => ?_, ?_⟩
  · intro h
    have := Dict.get_set_self p.versions v d
    rw [show p.versions.set v d = [] from h] at this
    simp at this
  · show (p.versions.set v d).get v' = _
    rw [Dict.get_set, hg]
    by_cases h : v = v'
    · subst h; simp
    · rw [if_neg h, if_neg (Ne.symm h)]
  · show ∃ x, (p.minorMax.set v.major _).get (max v.major p.majorMax) = some x
    rw [Dict.get_set]
    split
    · exact ⟨_, rfl⟩
    · next h =>
      obtain ⟨x, hx⟩ := ht
      refine ⟨x, ?_⟩
      rw [show max v.major p.majorMax = p.majorMax by omega]
      exact hx

theorem isSome_set {α β : Type} [DecidableEq α] (d : Dict α β) (k : α) (v : β) (k' : α) :
    ((d.set k v).get k').isSome ↔ k' = k ∨ (d.get k').isSome := by
  rw [Dict.get_set]
  by_cases h : k = k'
  · subst h; simp
  · simp [h, Ne.symm h]

theorem PodMax.first (v : Ver) (d : D) (h : 0 ≤ v.major ∧ 0 ≤ v.minor) : PodMax (Pod.new.add v d) := by
  have hs : ∀ v', ((Pod.new.add v d).versions.get v').isSome ↔ v' = v := by
    intro v'
    show ((Dict.set [] v d).get v').isSome ↔ _
    rw [isSome_set]; simp
  have hmm : max ((Dict.get ([(0, 0)] : Dict Int Int) v.major).getD 0) v.minor = v.minor := by
    have : (Dict.get ([(0, 0)] : Dict Int Int) v.major).getD 0 = 0 := by
      simp only [Dict.get]; split <;> rfl
    rw [this]; omega
  refine ⟨?_, ?_, ⟨v, (hs v).mpr rfl, ?_⟩, ?_, ?_⟩
  · intro v' hv; rw [hs] at hv; subst hv; exact h
  · intro v' hv; rw [hs] at hv; subst hv
    show v'.major ≤ max v'.major 0
    omega
  · show v.major = max v.major 0
    omega
  · intro v' hv; rw [hs] at hv; subst hv
    refine ⟨_, Dict.get_set_self _ _ _, ?_⟩
    omega
  · intro M x hx
    change (Dict.set [(0, 0)] v.major (max ((Dict.get ([(0, 0)] : Dict Int Int) v.major).getD 0) v.minor)).get M = some x at hx
    rw [hmm, Dict.get_set] at hx
    split at hx
    · next hM =>
      cases hx; subst hM
      left; exact (hs _).mpr rfl
    · next hM =>
      right
      refine ⟨?_, fun v' hv => ?_⟩
      · simp only [Dict.get] at hx; split at hx <;> simp at hx; exact hx.symm
      · rw [hs] at hv; subst hv; exact hM

theorem PodMax.add {p : Pod D} (hp : PodMax p) (v : Ver) (d : D) (h : 0 ≤ v.major ∧ 0 ≤ v.minor) :
    PodMax (p.add v d) := by
  have hs : ∀ v', ((p.add v d).versions.get v').isSome ↔ v' = v ∨ (p.versions.get v').isSome :=
    isSome_set _ _ _
  have hm : ∀ M, (p.add v d).minorMax.get M = if v.major = M then some (max ((p.minorMax.get v.major).getD 0) v.minor)
      else p.minorMax.get M := fun M => Dict.get_set _ _ _ _
  refine ⟨?_, ?_, ?_, ?_, ?_⟩
  · intro v' hv
    rcases (hs v').mp hv with rfl | hv
    · exact h
    · exact hp.pos v' hv
  · intro v' hv
    show v'.major ≤ max v.major p.majorMax
    rcases (hs v').mp hv with rfl | hv
    · omega
    · have := hp.major v' hv; omega
  · obtain ⟨w, hw, hw2⟩ := hp.major_mem
    by_cases hc : p.majorMax ≤ v.major
    · refine ⟨v, (hs v).mpr (.inl rfl), ?_⟩
      show v.major = max v.major p.majorMax
      omega
    · refine ⟨w, (hs w).mpr (.inr hw), ?_⟩
      show w.major = max v.major p.majorMax
      omega
  · intro v' hv
    rw [hm]
    rcases (hs v').mp hv with rfl | hv
    · rw [if_pos rfl]; exact ⟨_, rfl, by omega⟩
    · obtain ⟨x, h1, h2⟩ := hp.minor v' hv
      split
      · next he =>
        rw [he, h1]
        exact ⟨_, rfl, by simp only [Option.getD_some]; omega⟩
      · exact ⟨x, h1, h2⟩
  · intro M x hx
    rw [hm] at hx
    split at hx
    · next he =>
      subst he
      left
      cases hx
      rw [hs]
      by_cases hge : (p.minorMax.get v.major).getD 0 ≤ v.minor
      · left
        rw [show max ((p.minorMax.get v.major).getD 0) v.minor = v.minor by omega]
      · right
        rw [show max ((p.minorMax.get v.major).getD 0) v.minor = (p.minorMax.get v.major).getD 0 by omega]
        cases hg : p.minorMax.get v.major with
        | none => rw [hg] at hge; simp at hge; omega
        | some y =>
          rcases hp.minor_mem _ _ hg with h1 | ⟨h1, _⟩
          · exact h1
          · rw [hg] at hge; simp at hge; omega
    · next he =>
      rcases hp.minor_mem M x hx with h1 | ⟨h1, h2⟩
      · left; exact (hs _).mpr (.inr h1)
      · right
        refine ⟨h1, fun v' hv => ?_⟩
        rcases (hs v').mp hv with rfl | hv
        · exact he
        · exact h2 v' hv

/-- The registry holds `m`. -/
structure RegOk (r : Registry D) (m : Str → Ver → Option D) : Prop where
  hd : ∃ pods, HolHD r pods
  absent : ∀ i, r.getitem i = none → ∀ v, m i v = none
  pod : ∀ i p, r.getitem i = some p → PodOk p (m i)

def RegMax (r : Registry D) : Prop := ∀ i p, r.getitem i = some p → PodMax p

theorem HolHD.self {d : HD V} {m : Str → Option V} (h : HolHD d m) : HolHD d d.getitem :=
  ⟨h.1, fun _ => rfl, h.2.2⟩

theorem register_spec {r : Registry D} {m : Str → Ver → Option D} (h : RegOk r m) (i : Str) (v : Ver) (d : D) :
    ∃ r', r.registerDefinition i v d = r' ∧ (∃ pods, HolHD r' pods) ∧
    ∀ k, r'.getitem k = if k = i then some (((r.getitem i).getD Pod.new).add v d) else r.getitem k := by
  obtain ⟨pods, hh⟩ := h.hd
  have := (hh.self.step (.set i (((r.getitem i).getD Pod.new).add v d))).2
  exact ⟨_, rfl, ⟨_, this⟩, this.2.1⟩

theorem unregister_spec {r : Registry D} {m : Str → Ver → Option D} (h : RegOk r m) (i : Str) :
    (∃ pods, HolHD (r.unregisterDefinition i) pods) ∧
    ∀ k, (r.unregisterDefinition i).getitem k = if k = i then none else r.getitem k := by
  obtain ⟨pods, hh⟩ := h.hd
  have := (hh.self.step (.del i)).2
  unfold Registry.unregisterDefinition
  split
  · exact ⟨⟨_, this⟩, this.2.1⟩
  · next hn =>
    refine ⟨⟨_, hh⟩, fun k => ?_⟩
    split
    · next hk =>
      subst hk
      cases hg : r.getitem k with
      | none => rfl
      | some _ => rw [hg] at hn; simp at hn
    · rfl

theorem RegOk.register {r : Registry D} {m : Str → Ver → Option D} (h : RegOk r m) (i : Str) (v : Ver) (d : D) :
    RegOk (r.registerDefinition i v d) (fun i' v' => if i' = i ∧ v' = v then some d else m i' v') := by
  obtain ⟨r', h1, h2, h3⟩ := register_spec h i v d
  rw [h1]
  refine ⟨h2, fun k hk v' => ?_, fun k p hk => ?_⟩
  · rw [h3] at hk
    split at hk
    · cases hk
    · next hki => rw [if_neg (by simp [hki])]; exact h.absent k hk v'
  · rw [h3] at hk
    split at hk
    · next hki =>
      cases hk
      subst hki
      have : (fun v' => if k = k ∧ v' = v then some d else m k v') = fun v' => if v' = v then some d else m k v' := by
        simp
      rw [this]
      cases hg : r.getitem k with
      | none =>
        refine PodOk.add Dict.WF.nil (fun v => ?_) ⟨0, rfl⟩ v d
        rw [h.absent k hg]; rfl
      | some p =>
        have hp := h.pod k p hg
        exact PodOk.add hp.wf hp.get hp.top v d
    · next hki =>
      have : (fun v' => if k = i ∧ v' = v then some d else m k v') = m k := by simp [hki]
      rw [this]; exact h.pod k p hk

theorem RegOk.unregister {r : Registry D} {m : Str → Ver → Option D} (h : RegOk r m) (i : Str) :
    RegOk (r.unregisterDefinition i) (fun i' v' => if i' = i then none else m i' v') := by
  obtain ⟨h2, h3⟩ := unregister_spec h i
  refine ⟨h2, fun k hk v' => ?_, fun k p hk => ?_⟩
  · rw [h3] at hk
    split
    · rfl
    · next hki => rw [if_neg hki] at hk; exact h.absent k hk v'
  · rw [h3] at hk
    split at hk
    · cases hk
    · next hki =>
      have : (fun v' => if k = i then none else m k v') = m k := by simp [hki]
      rw [this]; exact h.pod k p hk

theorem RegOk.run (ops : List (ROp D)) : ∀ {r : Registry D} {m : Str → Ver → Option D}, RegOk r m →
    RegOk (r.run ops) (registered m ops) := by
  induction ops with
  | nil => intro r m h; exact h
  | cons op ops ih =>
    intro r m h
    cases op with
    | register i v d => exact ih (h.register i v d)
    | unregister i => exact ih (h.unregister i)

theorem RegOk.init : RegOk (HD.empty : Registry D) (fun _ _ => none) :=
  ⟨⟨_, HolHD.init⟩, fun _ _ _ => rfl, fun i p h => by rw [HolHD.init.2.1] at h; cases h⟩

theorem PodOk.some_version {p : Pod D} {m : Ver → Option D} (h : PodOk p m) : ∃ v, (m v).isSome := by
  cases hv : p.versions with
  | nil => exact absurd hv h.ne
  | cons e l =>
    refine ⟨e.1, ?_⟩
    rw [← h.get, hv]
    obtain ⟨a, b⟩ := e
    simp [Dict.get]

theorem getDefinition_of_some {r : Registry D} {m : Str → Ver → Option D} (h : RegOk r m) {i : Str} {v : Ver} {d : D}
    (hd : m i v = some d) : r.getDefinition i (some v) = .ok (some d) := by
  unfold Registry.getDefinition
  cases hg : r.getitem i with
  | none => rw [h.absent i hg] at hd; cases hd
  | some p =>
    have hp := h.pod i p hg
    have hne : p.versions.isEmpty = false := by simpa using hp.ne
    simp only [hne, Registry.wantedVersion, hp.get, hd, Bool.false_eq_true, if_false]

theorem getDefinition_of_none {r : Registry D} {m : Str → Ver → Option D} (h : RegOk r m) {i : Str}
    (hd : ∀ v, m i v = none) (v : Option Ver) : r.getDefinition i v = .ok none := by
  unfold Registry.getDefinition
  cases hg : r.getitem i with
  | none => rfl
  | some p =>
    obtain ⟨v, hv⟩ := (h.pod i p hg).some_version
    rw [hd] at hv; cases hv

theorem getDefinition_of_other {r : Registry D} {m : Str → Ver → Option D} (h : RegOk r m) {i : Str} {v w : Ver} {d : D}
    (hw : m i w = some d) (hd : m i v = none) : r.getDefinition i (some v) = .error .name := by
  unfold Registry.getDefinition
  cases hg : r.getitem i with
  | none => rw [h.absent i hg] at hw; cases hw
  | some p =>
    have hp := h.pod i p hg
    have hne : p.versions.isEmpty = false := by simpa using hp.ne
    simp only [hne, Registry.wantedVersion, hp.get, hd, Bool.false_eq_true, if_false]

/-- C20. After every history: a registered version is found, an identifier without any registration gives
`None`. -/
theorem C20_lookup_partial (ops : List (ROp D)) (i : Str) :
    (∀ v d, registered (fun _ _ => none) ops i v = some d →
      Registry.getDefinition (Registry.run HD.empty ops) i (some v) = .ok (some d)) ∧
    ((∀ v, registered (fun _ _ => none) ops i v = none) →
      ∀ v, Registry.getDefinition (Registry.run HD.empty ops) i v = .ok none) :=
  ⟨fun _ _ h => getDefinition_of_some (RegOk.init.run ops) h, fun h v => getDefinition_of_none (RegOk.init.run ops) h v⟩

/-- C20, the part that fails: asking for a version that is not registered, of an identifier of which some
other version is, always raises `NameError` instead of returning `None`. -/
theorem C20_other_version_raises (ops : List (ROp D)) (i : Str) (v w : Ver) (d : D)
    (hw : registered (fun _ _ => none) ops i w = some d) (hv : registered (fun _ _ => none) ops i v = none) :
    Registry.getDefinition (Registry.run HD.empty ops) i (some v) = .error .name :=
  getDefinition_of_other (RegOk.init.run ops) hw hv

/-- C20 as stated is false. -/
theorem C20_false : ¬ ∀ (ops : List (ROp Nat)) (i : Str) (v : Ver),
    registered (fun _ _ => none) ops i v = none →
    Registry.getDefinition (Registry.run HD.empty ops) i (some v) = .ok none := by
  intro h
  have h1 := h [.register ['a'] ⟨1, 0⟩ 7] ['a'] ⟨2, 0⟩ (by decide)
  rw [C20_other_version_raises _ ['a'] ⟨2, 0⟩ ⟨1, 0⟩ 7 (by decide) (by decide)] at h1
  cases h1

/-- C20. Registrations of one identifier do not change what another one gives. -/
theorem C20_independent (ops : List (ROp D)) (i j : Str) (hij : i ≠ j) (v : Ver) (d : D) (w : Option Ver) :
    Registry.getDefinition (Registry.run HD.empty (ops ++ [.register i v d])) j w =
      Registry.getDefinition (Registry.run HD.empty ops) j w ∧
    Registry.getDefinition (Registry.run HD.empty (ops ++ [.unregister i])) j w =
      Registry.getDefinition (Registry.run HD.empty ops) j w := by
  have happ : ∀ (l : List (ROp D)) (op : ROp D) (r : Registry D), Registry.run r (l ++ [op]) = Registry.run (Registry.run r l) [op] := by
    intro l
    induction l with
    | nil => intro op r; rfl
    | cons x l ih =>
      intro op r
      cases x with
      | register i v d => exact ih op _
      | unregister i => exact ih op _
  have hr := RegOk.init.run (D := D) ops
  constructor
  · rw [happ]
    obtain ⟨r', h1, h2, h3⟩ := register_spec hr i v d
    show Registry.getDefinition (Registry.registerDefinition _ i v d) j w = _
    rw [h1]
    unfold Registry.getDefinition
    rw [h3, if_neg (Ne.symm hij)]
  · rw [happ]
    obtain ⟨h2, h3⟩ := unregister_spec hr i
    show Registry.getDefinition (Registry.unregisterDefinition _ i) j w = _
    unfold Registry.getDefinition
    rw [h3, if_neg (Ne.symm hij)]

theorem RegMax.run (ops : List (ROp D)) : ∀ {r : Registry D} {m : Str → Ver → Option D}, RegOk r m → RegMax r →
    NonNeg ops → RegMax (r.run ops) := by
  induction ops with
  | nil => intro r m _ h _; exact h
  | cons op ops ih =>
    intro r m h0 h hn
    have hn' : NonNeg ops := fun i v d hm => hn i v d (by simp [hm])
    cases op with
    | register i v d =>
      refine ih (h0.register i v d) ?_ hn'
      obtain ⟨r', h1, h2, h3⟩ := register_spec h0 i v d
      rw [h1]
      intro k p hk
      rw [h3] at hk
      split at hk
      · cases hk
        have hv := hn i v d (by simp)
        cases hg : r.getitem i with
        | none => exact PodMax.first v d hv
        | some p => exact (h i p hg).add v d hv
      · exact h k p hk
    | unregister i =>
      refine ih (h0.unregister i) ?_ hn'
      obtain ⟨h2, h3⟩ := unregister_spec h0 i
      intro k p hk
      rw [h3] at hk
      split at hk
      · cases hk
      · exact h k p hk

/-- C20. `MOST_RECENT` gives the definition of the greatest version, if all versions registered are
non-negative. -/
theorem C20_most_recent_partial (ops : List (ROp D)) (hn : NonNeg ops) (i : Str) (v : Ver) (d : D)
    (hv : registered (fun _ _ => none) ops i v = some d)
    (hmax : ∀ w, (registered (fun _ _ => none) ops i w).isSome → w.le v) :
    Registry.getDefinition (Registry.run HD.empty ops) i none = .ok (some d) := by
  have h := RegOk.init.run (D := D) ops
  have hm : RegMax (Registry.run HD.empty ops) :=
    RegMax.run (D := D) ops RegOk.init (fun i p hp => by rw [HolHD.init.2.1] at hp; cases hp) hn
  generalize Registry.run HD.empty ops = r at *
  generalize registered (fun _ _ => none) ops = m at *
  unfold Registry.getDefinition
  cases hg : r.getitem i with
  | none => rw [h.absent i hg] at hv; cases hv
  | some p =>
    have hp := h.pod i p hg
    have hx := hm i p hg
    have hne : p.versions.isEmpty = false := by simpa using hp.ne
    have hs : ∀ w, (p.versions.get w).isSome ↔ (m i w).isSome := fun w => by rw [hp.get]
    have hvs : (p.versions.get v).isSome := by rw [hp.get, hv]; rfl
    obtain ⟨w, hw1, hw2⟩ := hx.major_mem
    have hM : p.majorMax = v.major := by
      have h1 := hx.major v hvs
      have h2 := hmax w ((hs w).mp hw1)
      unfold Ver.le at h2
      omega
    obtain ⟨x, hx1, hx2⟩ := hx.minor v hvs
    have hX : x = v.minor := by
      rcases hx.minor_mem _ _ hx1 with h3 | ⟨_, h3⟩
      · have h4 := hmax _ ((hs _).mp h3)
        unfold Ver.le at h4
        simp only at h4
        omega
      · exact absurd rfl (h3 v hvs)
    simp only [hne, Registry.wantedVersion, hM, hx1, hX, Bool.false_eq_true, if_false]
    have : (⟨v.major, v.minor⟩ : Ver) = v := rfl
    rw [this, hp.get, hv]

/-- The restriction to non-negative versions is needed: with only version -1.0 registered, asking for the
most recent one raises `NameError`. -/
theorem C20_false_negative_version :
    Registry.getDefinition (Registry.run HD.empty [.register ['a'] ⟨-1, 0⟩ 7]) ['a'] none = .error .name := by
  rfl

/-- A history in which the greatest version is not the last registered. -/
example : Registry.getDefinition (Registry.run HD.empty [.register ['a'] ⟨1, 2⟩ 12, .register ['a'] ⟨3, 0⟩ 30,
    .register ['a'] ⟨1, 7⟩ 17, .register ['b'] ⟨9, 9⟩ 99]) ['a'] none = .ok (some 30) :=
  C20_most_recent_partial _ (by
    intro i v d h
    simp at h
    rcases h with ⟨_, rfl, _⟩ | ⟨_, rfl, _⟩ | ⟨_, rfl, _⟩ | ⟨_, rfl, _⟩ <;> decide) ['a'] ⟨3, 0⟩ 30 (by decide) (by
    intro w hw
    simp [registered] at hw
    unfold Ver.le
    by_cases h1 : w = ⟨1, 7⟩
    · subst h1; decide
    · by_cases h2 : w = ⟨3, 0⟩
      · subst h2; decide
      · by_cases h3 : w = ⟨1, 2⟩
        · subst h3; decide
        · simp [h1, h2, h3] at hw)

/-! ## Defining classes -/

theorem define_outcome {r : Registry D} {m : Str → Ver → Option D} (h : RegOk r m) (i : Str) (v : Ver) (d : D) :
    ((∀ w, m i w = none) → (r.define i v d).1 = .ok () ∧
      RegOk (r.define i v d).2 (fun i' v' => if i' = i ∧ v' = v then some d else m i' v')) ∧
    ((m i v).isSome → r.define i v d = (.error .dup, r)) ∧
    (m i v = none → (∃ w, (m i w).isSome) → r.define i v d = (.error .name, r)) := by
  unfold Registry.define Registry.hasDefinition
  refine ⟨fun h1 => ?_, fun h1 => ?_, fun h1 h2 => ?_⟩
  · rw [getDefinition_of_none h h1]
    exact ⟨rfl, h.register i v d⟩
  · cases hv : m i v with
    | none => rw [hv] at h1; cases h1
    | some x => rw [getDefinition_of_some h hv]; rfl
  · obtain ⟨w, hw⟩ := h2
    cases hv : m i w with
    | none => rw [hv] at hw; cases hw
    | some x => rw [getDefinition_of_other h hv h1]


/-- `m` is what the classes in `seen` define. -/
def SeenOk (seen : List (Str × Ver)) (m : Str → Ver → Option D) : Prop :=
  ∀ i v, (m i v).isSome ↔ ∃ e, seen.find? (·.1 = i) = some e ∧ e.2 = v

theorem defineAll_outcomes (l : List (Str × Ver × D)) : ∀ {r : Registry D} {m : Str → Ver → Option D}
    {seen : List (Str × Ver)}, RegOk r m → SeenOk seen m → (r.defineAll l).1 = outcomes seen l := by
  induction l with
  | nil => intro r m seen _ _; rfl
  | cons x l ih =>
    obtain ⟨i, v, d⟩ := x
    intro r m seen h hs
    obtain ⟨h1, h2, h3⟩ := define_outcome h i v d
    rw [Registry.defineAll, outcomes]
    cases hf : seen.find? (·.1 = i) with
    | none =>
      have hn : ∀ w, m i w = none := by
        intro w
        cases hm : m i w with
        | none => rfl
        | some x =>
          obtain ⟨e, he, _⟩ := (hs i w).mp (by rw [hm]; rfl)
          rw [hf] at he; cases he
      obtain ⟨h4, h5⟩ := h1 hn
      rw [h4]
      dsimp only
      congr 1
      refine ih h5 ?_
      intro i' v'
      by_cases hi : i' = i
      · subst hi
        rw [List.find?_append, hf]
        simp only [true_and, hn, decide_true, List.find?_cons_of_pos, Option.none_or,
          Option.some.injEq, exists_eq_left']
        by_cases hv : v' = v
        · simp [hv]
        · simp [hv, Ne.symm hv]
      · have hne : (seen ++ [(i, v)]).find? (·.1 = i') = seen.find? (·.1 = i') := by
          rw [List.find?_append]
          simp [Ne.symm hi]
        rw [hne]
        simp only [hi, false_and, if_false]
        exact hs i' v'
    | some e =>
      by_cases he : e.2 = v
      · rw [h2 ((hs i v).mpr ⟨e, hf, he⟩)]
        simp only [if_pos he]
        rw [ih h hs]
      · have hno : m i v = none := by
          cases hm : m i v with
          | none => rfl
          | some x =>
            obtain ⟨e', h4, h5⟩ := (hs i v).mp (by rw [hm]; rfl)
            rw [hf] at h4; cases h4; exact absurd h5 he
        rw [h3 hno ⟨e.2, (hs i e.2).mpr ⟨e, hf, rfl⟩⟩]
        simp only [if_neg he]
        rw [ih h hs]

/-- C53. Whatever packet classes are defined in whatever order in a new silo: the first class of an
identifier is accepted, the same version again is refused as a duplicate, and every other version of the
identifier raises `NameError`. -/
theorem C53_outcomes (l : List (Str × Ver × D)) : (Registry.defineAll HD.empty l).1 = outcomes [] l :=
  defineAll_outcomes l RegOk.init (fun i v => by simp)

/-- So two versions of one packet can never be defined side by side. -/
theorem C53_false_two_versions (i : Str) (v w : Ver) (h : v ≠ w) (d e : D) :
    (Registry.defineAll HD.empty [(i, v, d), (i, w, e)]).1 = [.ok (), .error .name] := by
  rw [C53_outcomes]
  simp [outcomes, h]

example : (Registry.defineAll HD.empty [(['a'], ⟨1, 0⟩, 1), (['b'], ⟨1, 0⟩, 2), (['a'], ⟨1, 0⟩, 3), (['a'], ⟨1, 1⟩, 4)]).1
    = [.ok (), .ok (), .error .dup, .error .name] := by rw [C53_outcomes]; rfl

/-! ## Silos -/

theorem defineClass_stack (s : Silos D) (i v : Str) (silo : Option Str) (d : D) :
    (s.defineClass i v silo d).2.stack = s.stack := by
  unfold Silos.defineClass
  split
  · rfl
  · split
    · rfl
    · split
      · rfl
      · rfl

theorem new_cases (s : Silos D) (name : Option Str) (reuse : Bool) :
    (s.new name reuse).2.stack = s.stack ∧ s.auto ≤ (s.new name reuse).2.auto ∧
    (∀ n, (s.new name reuse).1 = .ok n → name = some n ∨ (name = none ∧ n = Silos.autoName s.auto)) ∧
    (∀ n, s.silos.has n = true → (s.new name reuse).2.silos.get n = s.silos.get n) := by
  have hp : ∀ t : Silos D, ∀ n, (t.silos.has n = true → ∀ k x, t.silos.has k = false →
      (t.silos.set k x).get n = t.silos.get n) := by
    intro t n hn k x hk
    rw [Dict.get_set_ne]
    rintro rfl
    rw [hn] at hk; cases hk
  unfold Silos.new
  cases name with
  | some nm =>
    simp only [Silos.pickName]
    split
    · split
      · exact ⟨rfl, Nat.le_refl _, fun n h => (by cases h; simp), fun n _ => rfl⟩
      · exact ⟨rfl, Nat.le_refl _, fun n h => (by cases h), fun n _ => rfl⟩
    · next hh =>
      refine ⟨rfl, Nat.le_refl _, fun n h => (by cases h; simp), fun n hn => hp s n hn _ _ (by simpa using hh)⟩
  | none =>
    simp only [Silos.pickName]
    by_cases ha : s.auto < 1000000
    · rw [if_pos ha]
      dsimp only
      split
      · split
        · exact ⟨rfl, Nat.le_succ _, fun n h => (by cases h; simp), fun n _ => rfl⟩
        · exact ⟨rfl, Nat.le_succ _, fun n h => (by cases h), fun n _ => rfl⟩
      · next hh =>
        exact ⟨rfl, Nat.le_succ _, fun n h => (by cases h; simp), fun n hn => hp s n hn _ _ (by simpa using hh)⟩
    · rw [if_neg ha]
      exact ⟨rfl, Nat.le_refl _, fun n h => (by cases h), fun n _ => rfl⟩

mutual
theorem exec_stack : ∀ (st : Stmt D) (s : Silos D), (st.exec s).2.stack = s.stack
  | .define i v silo d, s => by rw [Stmt.exec]; exact defineClass_stack s i v silo d
  | .withSilo name reuse body, s => by
    rw [Stmt.exec]
    have hn := (new_cases s name reuse).1
    split
    · next e s' h => rw [h] at hn; exact hn
    · next n s' h =>
      rw [h] at hn
      have hb := execAll_stack body (s'.enter n)
      have : (s'.enter n).stack = n :: s'.stack := rfl
      rw [this] at hb
      dsimp only
      unfold Silos.exit
      rw [hb]
      exact hn
  | .attempt body, s => by rw [Stmt.exec]; exact execAll_stack body s
  | .raise, s => by rw [Stmt.exec]
theorem execAll_stack : ∀ (l : List (Stmt D)) (s : Silos D), (Stmt.execAll s l).2.stack = s.stack
  | [], s => by rw [Stmt.execAll]
  | st :: l, s => by
    rw [Stmt.execAll]
    have h := exec_stack st s
    split
    · next e s' he => rw [he] at h; exact h
    · next s' he => rw [he] at h; rw [execAll_stack l s']; exact h
end

/-- C21. After any program that enters silos in `with` blocks and defines classes in them, whatever raises
in between, the stack of silos, and so the current silo, is the one before. -/
theorem C21_restored (prog : List (Stmt D)) (s : Silos D) : (Stmt.execAll s prog).2.stack = s.stack :=
  execAll_stack prog s

/-- The silo `n` cannot be entered by the statement: it exists, is neither current nor named, and is not one
of the automatic names still to come. -/
def Untouched (s : Silos D) (n : Str) (names : List Str) : Prop :=
  s.silos.has n = true ∧ s.stack.head? ≠ some n ∧ n ∉ names ∧ ∀ k, s.auto ≤ k → n ≠ Silos.autoName k

theorem has_eq_of_get {α β : Type} [DecidableEq α] {d d' : Dict α β} {n : α} (h : d.get n = d'.get n) :
    d.has n = d'.has n := by unfold Dict.has; rw [h]

theorem defineClass_untouched (s : Silos D) (i v : Str) (silo : Option Str) (d : D) (n : Str)
    (h : s.stack.head? ≠ some n) :
    (s.defineClass i v silo d).2.silos.get n = s.silos.get n ∧ (s.defineClass i v silo d).2.auto = s.auto := by
  unfold Silos.defineClass
  split
  · exact ⟨rfl, rfl⟩
  · split
    · exact ⟨rfl, rfl⟩
    · split
      · exact ⟨rfl, rfl⟩
      · next c t hst =>
        rw [hst] at h
        refine ⟨?_, rfl⟩
        dsimp only
        rw [Dict.get_set_ne]
        rintro rfl
        exact h rfl

mutual
theorem exec_untouched : ∀ (st : Stmt D) (s : Silos D) (n : Str), Untouched s n st.names →
    (st.exec s).2.silos.get n = s.silos.get n ∧ s.auto ≤ (st.exec s).2.auto
  | .define i v silo d, s, n, h => by
    rw [Stmt.exec]
    have := defineClass_untouched s i v silo d n h.2.1
    exact ⟨this.1, Nat.le_of_eq this.2.symm⟩
  | .withSilo name reuse body, s, n, h => by
    rw [Stmt.exec]
    obtain ⟨n1, n2, n3, n4⟩ := new_cases s name reuse
    obtain ⟨h1, h2, h3, h4⟩ := h
    rw [Stmt.names] at h3
    split
    · next e s' he => rw [he] at n2 n4; exact ⟨n4 n h1, n2⟩
    · next c s' he =>
      rw [he] at n1 n2 n3 n4
      have hc : c ≠ n := by
        rintro rfl
        rcases n3 c rfl with h | ⟨_, h⟩
        · rw [h] at h3; simp at h3
        · exact h4 s.auto (Nat.le_refl _) h
      have hb : Untouched (s'.enter c) n (Stmt.namesAll body) := by
        refine ⟨?_, ?_, fun hm => h3 (by simp [hm]), fun k hk => h4 k (Nat.le_trans n2 hk)⟩
        · show s'.silos.has n = true
          rw [has_eq_of_get (n4 n h1)]; exact h1
        · show (some c) ≠ some n
          simpa using hc
      obtain ⟨b1, b2⟩ := execAll_untouched body (s'.enter c) n hb
      have hst := execAll_stack body (s'.enter c)
      have : (s'.enter c).stack = c :: s'.stack := rfl
      rw [this] at hst
      dsimp only
      unfold Silos.exit
      rw [hst]
      exact ⟨b1.trans (n4 n h1), Nat.le_trans n2 b2⟩
  | .attempt body, s, n, h => by
    rw [Stmt.names] at h
    rw [Stmt.exec]; exact execAll_untouched body s n h
  | .raise, s, n, h => by rw [Stmt.exec]; exact ⟨rfl, Nat.le_refl _⟩
theorem execAll_untouched : ∀ (l : List (Stmt D)) (s : Silos D) (n : Str), Untouched s n (Stmt.namesAll l) →
    (Stmt.execAll s l).2.silos.get n = s.silos.get n ∧ s.auto ≤ (Stmt.execAll s l).2.auto
  | [], s, n, h => by rw [Stmt.execAll]; exact ⟨rfl, Nat.le_refl _⟩
  | st :: l, s, n, h => by
    rw [Stmt.execAll]
    obtain ⟨h1, h2, h3, h4⟩ := h
    rw [Stmt.namesAll] at h3
    obtain ⟨e1, e2⟩ := exec_untouched st s n ⟨h1, h2, fun hm => h3 (by simp [hm]), h4⟩
    have hs := exec_stack st s
    split
    · next e s' he => rw [he] at e1 e2; exact ⟨e1, e2⟩
    · next s' he =>
      rw [he] at e1 e2 hs
      have := execAll_untouched l s' n ⟨by rw [has_eq_of_get e1]; exact h1, by rw [hs]; exact h2,
        fun hm => h3 (by simp [hm]), fun k hk => h4 k (Nat.le_trans e2 hk)⟩
      exact ⟨this.1.trans e1, Nat.le_trans e2 this.2⟩
end

/-- C21. Definitions made inside a silo are not visible outside: a `with` block does not change the silo
that is current outside (so every lookup there gives the same), unless it names this silo itself. -/
theorem C21_not_visible_outside (s : Silos D) (c : Str) (name : Option Str) (reuse : Bool) (body : List (Stmt D))
    (hc : s.stack.head? = some c) (hs : s.silos.has c = true)
    (hn : c ∉ (Stmt.withSilo name reuse body).names) (ha : ∀ k, s.auto ≤ k → c ≠ Silos.autoName k) :
    let s' := ((Stmt.withSilo name reuse body).exec s).2
    s'.stack.head? = some c ∧ s'.silos.get c = s.silos.get c := by
  intro s'
  have hst : s'.stack = s.stack := exec_stack (Stmt.withSilo name reuse body) s
  refine ⟨by rw [hst]; exact hc, ?_⟩
  show ((Stmt.withSilo name reuse body).exec s).2.silos.get c = _
  rw [Stmt.exec]
  obtain ⟨n1, n2, n3, n4⟩ := new_cases s name reuse
  rw [Stmt.names] at hn
  split
  · next e t he => rw [he] at n4; exact n4 c hs
  · next n t he =>
    rw [he] at n1 n2 n3 n4
    have hcn : n ≠ c := by
      rintro rfl
      rcases n3 n rfl with h | ⟨_, h⟩
      · rw [h] at hn; simp at hn
      · exact ha s.auto (Nat.le_refl _) h
    have hb : Untouched (t.enter n) c (Stmt.namesAll body) :=
      ⟨by show t.silos.has c = true; rw [has_eq_of_get (n4 c hs)]; exact hs, by show some n ≠ some c; simpa using hcn,
        fun hm => hn (by simp [hm]), fun k hk => ha k (Nat.le_trans n2 hk)⟩
    have hu := execAll_untouched body (t.enter n) c hb
    have hst := execAll_stack body (t.enter n)
    have : (t.enter n).stack = n :: t.stack := rfl
    rw [this] at hst
    dsimp only
    unfold Silos.exit
    rw [hst]
    exact hu.1.trans (n4 c hs)

/-- The hypotheses hold at start for the default silo and a block in an unnamed silo (that raises). -/
example : let s : Silos Nat := Silos.init
    s.stack.head? = some Silos.defaultName ∧ s.silos.has Silos.defaultName = true ∧
    (Silos.defaultName ∉ (Stmt.withSilo none false [.define ['a'] ['1', '.', '0'] none 5, .raise] : Stmt Nat).names) ∧
    ∀ k, s.auto ≤ k → Silos.defaultName ≠ Silos.autoName k := by
  refine ⟨rfl, rfl, by simp [Stmt.names, Stmt.namesAll], ?_⟩
  intro k _ h
  have h2 : (Silos.autoName k).take 3 = ['_', '_', 'u'] := by
    unfold Silos.autoName
    rw [List.take_append_of_le_length (by decide)]
    decide
  rw [← h] at h2
  exact absurd h2 (by decide)

/-- C21. Inside a new silo nothing is defined yet, so that packet identifiers of the outer silo can be used
again. -/
theorem C21_new_silo_empty (s : Silos D) (name : Option Str) (n : Str) (s' : Silos D)
    (h : s.new name false = (.ok n, s')) :
    s'.silos.get n = some HD.empty ∧ ∀ i v, Registry.getDefinition (HD.empty : Registry D) i v = .ok none := by
  refine ⟨?_, fun i v => getDefinition_of_none RegOk.init (fun _ => rfl) v⟩
  unfold Silos.new at h
  split at h
  · cases h
  · split at h
    · simp at h
    · cases h
      exact Dict.get_set_self _ _ _

/-- Giving `DEFINITIONS_SILO_NAME` in the class body never works: `siloName` is only assigned when it is
absent (PacketType.py:54-61). -/
theorem C21_false_explicit_silo (s : Silos D) (i v : Str) (n : Str) (d : D) (ver : Ver)
    (hv : Ver.fromString v = .ok ver) : s.defineClass i v (some n) d = (.error .unbound, s) := by
  unfold Silos.defineClass; rw [hv]

example : Ver.fromString ['1', '.', '0'] = .ok ⟨1, 0⟩ := rfl

end Verif
