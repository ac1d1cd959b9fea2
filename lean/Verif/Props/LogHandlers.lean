import Verif.Lemmas.LogHandlers
/-! # C113: the handlers of an application -/
namespace Verif.Logging

theorem mem_writers (s : St) (name : Str) (level h : Nat) : h ∈ writers s name level ↔
    (s.attached = true ∧ s.rootLevel ≤ level ∧ s.level ≤ level) ∧ (∃ f, s.handlers.get h = some f) ∧ (level = 0 ∨ s.hLevel h ≤ level) ∧
      ∀ f ∈ s.hFilters h, logThisLogger (s.filter f) name = true := by
  unfold writers
  split
  · next hc =>
    rw [List.mem_filter, Dict.mem_keys_iff]
    simp [hc, accepts]
  · next hc => simp [hc]

/-- **C113.** A handler writes only messages that are for it: `enableLogging` was called, at last with a level that the message has, and the handler is enabled, and the
message is for what it was last set to. -/
theorem C113_only (hist : List Call) (h : Nat) (name : Str) (level : Nat) (hw : h ∈ writers (after hist) name level) :
    ∃ r x, rootSetting hist = some r ∧ r ≤ level ∧ setting h hist = some x ∧ For x name level := by
  have hi := HInv.after hist
  obtain ⟨⟨h1, h2, h3⟩, ⟨f, hf⟩, h4, h5⟩ := (mem_writers ..).1 hw
  have hr := hi.root
  have hs := hi.set h
  cases hx : setting h hist with
  | none => rw [hx] at hs; rw [hs] at hf; cases hf
  | some x =>
    cases hy : rootSetting hist with
    | none => rw [hy] at hr; rw [hr] at h1; cases h1
    | some r =>
      rw [hy] at hr
      rw [hx] at hs
      obtain ⟨g1, f', g2, g3, g4, _⟩ := hs
      obtain ⟨_, r1, _⟩ := hr
      have := h5 f' g4
      rw [g3, configured_iff] at this
      exact ⟨r, x, rfl, r1 ▸ h3, rfl, g1 ▸ h4, this⟩

/-- **C113.** A handler that was not enabled while all handlers were cleared writes exactly the messages that are for it, whatever else was called. -/
theorem C113_written_partial (hist : List Call) (h : Nat) (name : Str) (level : Nat) (hc : NotCleared h hist) :
    h ∈ writers (after hist) name level ↔ ∃ r x, rootSetting hist = some r ∧ r ≤ level ∧ setting h hist = some x ∧ For x name level := by
  constructor
  · exact C113_only hist h name level
  · rintro ⟨r, x, h1, h2, h3, h4, h5⟩
    have hi := HInv.after hist
    have hr := hi.root
    have hs := hi.set h
    rw [h1] at hr
    rw [h3] at hs
    obtain ⟨r1, r2, r3⟩ := hr
    obtain ⟨g1, f, g2, g3, g4, g5⟩ := hs
    refine (mem_writers ..).2 ⟨⟨r1, by omega, by omega⟩, ⟨f, g2⟩, g1 ▸ h4, fun f' hf' => ?_⟩
    rw [g5 hc] at hf'
    cases List.mem_singleton.1 hf'
    rw [g3, configured_iff]
    exact h5

/-- **C113.** No handler writes a message twice. -/
theorem C113_once (hist : List Call) (name : Str) (level : Nat) : (writers (after hist) name level).Nodup := by
  unfold writers
  split
  · exact List.filter_sublist.nodup (HInv.after hist).wf
  · exact List.nodup_nil

theorem setting_off (pre past : List Call) (h : Nat) (c : Call) (hc : c = .disable h ∨ c = .clear) (hp : ∀ l sp t, .enable h l sp t ∉ pre) :
    setting h (pre ++ c :: past) = none := by
  induction pre with
  | nil => rcases hc with rfl | rfl <;> simp [setting]
  | cons a pre ih =>
    have ih' := ih (fun l sp t hm => hp l sp t (List.mem_cons_of_mem _ hm))
    cases a with
    | root l ms => exact ih'
    | enable k l sp t =>
      have : ¬ k = h := fun e => hp l sp t (by subst e; exact List.mem_cons_self ..)
      simpa [setting, this] using ih'
    | disable k => simp [setting, ih']
    | clear => rfl

/-- **C113.** A handler that was disabled, and not enabled since, writes nothing; nor does any that was not enabled since all were cleared. -/
theorem C113_disabled (pre past : List Call) (h : Nat) (name : Str) (level : Nat) (c : Call) (hc : c = .disable h ∨ c = .clear)
    (hp : ∀ l sp t, .enable h l sp t ∉ pre) : h ∉ writers (after (pre ++ c :: past)) name level := by
  intro hw
  obtain ⟨_, x, _, _, h3, _⟩ := C113_only _ h name level hw
  rw [setting_off pre past h c hc hp] at h3
  cases h3

/-! ## Cases of the theorems -/

def asc : List Call → List Call := List.reverse

/-- A handler for debug messages of `app` with tag `net`, and one for errors of everything. -/
def two : List Call := asc [.root 0 [], .enable 3 10 (some ["app".toList]) (.only ["net".toList]), .enable 4 40 (some []) .all, .enable 5 0 none .all, .disable 5]

example : NotCleared 3 two ∧ setting 3 two = some (10, ["app".toList], .only ["net".toList]) ∧ setting 5 two = none ∧ rootSetting two = some 0 :=
  ⟨trivial, by decide +kernel, by decide +kernel, by decide +kernel⟩

example : writers (after two) "app.db".toList 20 = [3] ∧ writers (after two) (taggedName "app.db".toList "net".toList) 50 = [3, 4] ∧
    writers (after two) (taggedName "app.db".toList "ui".toList) 50 = [4] ∧ writers (after two) "playground.x".toList 30 = [] := by decide +kernel

/-! ## What does not hold -/

/-- C113 is false for a handler that is enabled again after all handlers were cleared: its old filter is still there, so that it does not write a message that is for
it. -/
theorem C113_false_cleared : setting 3 (asc [.root 0 [], .enable 3 10 (some ["app".toList]) (.only []), .clear, .enable 3 10 (some ["lib".toList]) (.only [])]) =
      some (10, ["lib".toList], .only []) ∧ Under "lib".toList "lib.x".toList ∧
    writers (after (asc [.root 0 [], .enable 3 10 (some ["app".toList]) (.only []), .clear, .enable 3 10 (some ["lib".toList]) (.only [])])) "lib.x".toList 50 = [] ∧
    writers (after (asc [.root 0 [], .enable 3 10 (some ["app".toList]) (.only []), .disable 3, .enable 3 10 (some ["lib".toList]) (.only [])])) "lib.x".toList 50 = [3] :=
  ⟨by decide +kernel, ⟨"x".toList, by decide⟩, by decide +kernel, by decide +kernel⟩

end Verif.Logging
