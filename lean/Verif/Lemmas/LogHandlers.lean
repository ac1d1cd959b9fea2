import Verif.Lemmas.Logging
import Verif.Spec.LogHandlers
/-! # Lemmas: handlers and their filters -/
namespace Verif.Logging

/-- A filter that is configured with these modules and tags. -/
theorem configured_iff (ms : List Str) (tags : Tags) (name : Str) :
    logThisLogger (configure ms tags) name = true ↔ (ms = [] ∨ ∃ m ∈ ms, Under m name) ∧ TagOk tags name := by
  have ht : ∀ f : Filter, f.tags = tags → (logThisTag f (getTag name) = true ↔ TagOk tags name) := by
    intro f hf
    unfold logThisTag TagOk
    rw [hf]
    by_cases h : getTag name = []
    · have hn := (noTag_iff name).1 h
      simp only [h, or_true, if_true, true_iff]
      intro t h'
      exact absurd h' (hn t)
    · have hg := (getTag_iff name (getTag name) h).1 rfl
      cases tags with
      | all => simp
      | only l =>
        simp only [reduceCtorEq, h, or_self, if_false, decide_eq_true_eq]
        constructor
        · intro hm t h'
          have := (getTag_iff name t h'.1).2 h'
          exact this ▸ hm
        · intro hm
          exact hm _ hg
  unfold logThisLogger configure
  split
  · next hm =>
    split at hm
    · next he =>
      rw [ht _ rfl]
      simp [he]
    · cases hm
  · next ms' hm =>
    split at hm
    · cases hm
    · next he =>
      cases hm
      rw [Bool.and_eq_true, ht _ rfl, List.any_eq_true]
      simp only [he, false_or]
      exact and_congr (exists_congr fun m => and_congr Iff.rfl (under_iff m name)) Iff.rfl

structure HInv (hist : List Call) (s : St) : Prop where
  wf : Dict.WF s.handlers
  add : s.additional = addedBy hist
  root : match rootSetting hist with
    | none => s.attached = false
    | some r => s.attached = true ∧ s.level = r ∧ s.rootLevel ≤ r
  set : ∀ h, match setting h hist with
    | none => s.handlers.get h = none
    | some x => s.hLevel h = x.1 ∧ ∃ f, s.handlers.get h = some f ∧ s.filter f = configure x.2.1 x.2.2 ∧ f ∈ s.hFilters h ∧ (NotCleared h hist → s.hFilters h = [f])
  off : ∀ h, setting h hist = none → NotCleared h hist → s.hFilters h = []
  lt : ∀ h f, s.handlers.get h = some f → f < s.nFilter
  own : ∀ h h' f, s.handlers.get h = some f → s.handlers.get h' = some f → h = h'

theorem HInv.init : HInv [] .init where
  wf := .nil
  add := rfl
  root := rfl
  set := fun _ => rfl
  off := fun _ _ _ => rfl
  lt := fun _ _ h => by cases h
  own := fun _ _ _ h => by cases h

theorem HInv.root' {hist : List Call} {s : St} (hi : HInv hist s) (level : Nat) (l : List Str) : HInv (.root level l :: hist) (enableLogging s level l) where
  wf := hi.wf
  add := by
    cases l with
    | nil => exact hi.add
    | cons m ms => rfl
  root := by
    refine ⟨rfl, rfl, ?_⟩
    show (if s.rootLevel > level then level else s.rootLevel) ≤ level
    split <;> omega
  set := hi.set
  off := hi.off
  lt := hi.lt
  own := hi.own

theorem HInv.clear {hist : List Call} {s : St} (hi : HInv hist s) : HInv (.clear :: hist) (clearAllHandlers s) where
  wf := .nil
  add := hi.add
  root := hi.root
  set := fun _ => rfl
  off := fun h _ hc => hi.off h hc.1 hc.2
  lt := fun _ _ h => by cases h
  own := fun _ _ _ h => by cases h

theorem HInv.disable {hist : List Call} {s : St} (hi : HInv hist s) (k : Nat) : HInv (.disable k :: hist) (disableHandler s k) := by
  unfold disableHandler
  split
  · next hk =>
    refine ⟨hi.wf, hi.add, hi.root, fun h => ?_, fun h hs hc => ?_, hi.lt, hi.own⟩
    · unfold setting
      by_cases e : k = h
      · subst e; simpa using hk
      · rw [if_neg e]; exact hi.set h
    · unfold setting at hs
      by_cases e : k = h
      · subst e
        have := hi.set k
        cases hx : setting k hist with
        | none => exact hi.off k hx hc
        | some x =>
          rw [hx] at this
          obtain ⟨_, f, h1, _⟩ := this
          rw [hk] at h1; cases h1
      · rw [if_neg e] at hs; exact hi.off h hs hc
  · next f hk =>
    have hget : ∀ h f', (s.handlers.del k).get h = some f' → s.handlers.get h = some f' := fun h f' hg => by
      rw [Dict.get_del hi.wf] at hg
      split at hg
      · cases hg
      · exact hg
    refine ⟨hi.wf.del k, hi.add, hi.root, fun h => ?_, fun h hs hc => ?_, fun h f' hg => hi.lt h f' (hget h f' hg), fun h h' f' h1 h2 => hi.own h h' f' (hget _ _ h1) (hget _ _ h2)⟩
    · unfold setting
      by_cases e : k = h
      · subst e
        simp [Dict.get_del hi.wf]
      · rw [if_neg e]
        have := hi.set h
        split
        · next hx =>
          rw [hx] at this
          simp [Dict.get_del hi.wf, this]
        · next x hx =>
          rw [hx] at this
          have e' : ¬ h = k := fun x => e x.symm
          simp only [Dict.get_del hi.wf, e, upd, e', if_false]
          exact this
    · unfold setting at hs
      by_cases e : k = h
      · subst e
        have := hi.set k
        cases hx : setting k hist with
        | none => rw [hx] at this; rw [this] at hk; cases hk
        | some x =>
          rw [hx] at this
          obtain ⟨_, f', h1, _, _, h4⟩ := this
          rw [hk] at h1
          cases h1
          simp [upd, h4 hc]
      · rw [if_neg e] at hs
        simp only [upd, show ¬ h = k from fun e' => e e'.symm, if_false]
        exact hi.off h hs hc

/-- `enableHandler`, given the modules of the filter. -/
def enableWith (s : St) (h level : Nat) (modules : List Str) (tags : Tags) : St :=
  let s1 := { s with hLevel := upd s.hLevel h level }
  match s.handlers.get h with
  | none => { s1 with
      filter := upd s.filter s.nFilter (configure modules tags)
      nFilter := s.nFilter + 1
      hFilters := upd s.hFilters h (s.hFilters h ++ [s.nFilter])
      handlers := s.handlers.set h s.nFilter }
  | some f => { s1 with filter := upd s.filter f (configure modules tags) }

theorem HInv.enable {hist : List Call} {s : St} (hi : HInv hist s) (k level : Nat) (specific : Option (List Str)) (tags : Tags) :
    HInv (.enable k level specific tags :: hist) (enableHandler s k level specific tags) := by
  have hm : enableHandler s k level specific tags = enableWith s k level (specific.getD ["playground".toList] ++ addedBy hist) tags := by
    rw [← hi.add]
    cases specific <;> rfl
  rw [hm]
  unfold enableWith
  dsimp only
  have hk := hi.set k
  split
  · next hn =>
    have hx : setting k hist = none := by
      cases hx : setting k hist with
      | none => rfl
      | some x =>
        rw [hx] at hk
        obtain ⟨_, f', h1, _⟩ := hk
        rw [hn] at h1; cases h1
    refine ⟨hi.wf.set _ _, hi.add, hi.root, fun h => ?_, fun h hs hc => ?_, fun h f hg => ?_, fun h h' f h1 h2 => ?_⟩
    · unfold setting
      by_cases e : k = h
      · subst e
        rw [if_pos rfl]
        refine ⟨by simp [upd], s.nFilter, Dict.get_set_self _ _ _, by simp [upd], by simp [upd], fun hc => ?_⟩
        simp [upd, hi.off k hx hc]
      · rw [if_neg e]
        have := hi.set h
        have e' : ¬ h = k := fun x => e x.symm
        split
        · next hy =>
          rw [hy] at this
          simpa [Dict.get_set_ne _ _ e] using this
        · next x hy =>
          rw [hy] at this
          obtain ⟨h1, f, h2, h3, h4, h5⟩ := this
          have hl := hi.lt h f h2
          refine ⟨by simpa [upd, e'] using h1, f, by simpa [Dict.get_set_ne _ _ e] using h2, ?_, by simpa [upd, e'] using h4, fun hc => by simpa [upd, e'] using h5 hc⟩
          simpa [upd, show ¬ f = s.nFilter by omega] using h3
    · unfold setting at hs
      by_cases e : k = h
      · rw [if_pos e] at hs; cases hs
      · rw [if_neg e] at hs
        simp only [upd, show ¬ h = k from fun x => e x.symm, if_false]
        exact hi.off h hs hc
    · show f < s.nFilter + 1
      have hg : (s.handlers.set k s.nFilter).get h = some f := hg
      rw [Dict.get_set] at hg
      split at hg
      · cases hg; omega
      · have := hi.lt h f hg; omega
    · have h1 : (s.handlers.set k s.nFilter).get h = some f := h1
      have h2 : (s.handlers.set k s.nFilter).get h' = some f := h2
      rw [Dict.get_set] at h1 h2
      split at h1
      · next e1 =>
        cases h1
        split at h2
        · next e2 => exact e1.symm.trans e2
        · have := hi.lt h' _ h2; omega
      · split at h2
        · cases h2
          have := hi.lt h _ h1; omega
        · exact hi.own h h' f h1 h2
  · next f hf =>
    cases hx : setting k hist with
    | none => rw [hx] at hk; rw [hk] at hf; cases hf
    | some x =>
      rw [hx] at hk
      obtain ⟨_, f', h1, _, h3, h4⟩ := hk
      rw [hf] at h1
      cases h1
      refine ⟨hi.wf, hi.add, hi.root, fun h => ?_, fun h hs hc => ?_, hi.lt, hi.own⟩
      · unfold setting
        by_cases e : k = h
        · subst e
          rw [if_pos rfl]
          exact ⟨by simp [upd], f, hf, by simp [upd], h3, h4⟩
        · rw [if_neg e]
          have := hi.set h
          have e' : ¬ h = k := fun x => e x.symm
          split
          · next hy => rw [hy] at this; exact this
          · next y hy =>
            rw [hy] at this
            obtain ⟨g1, g, g2, g3, g4, g5⟩ := this
            refine ⟨by simpa [upd, e'] using g1, g, g2, ?_, g4, g5⟩
            have : ¬ g = f := fun x => by subst x; exact e (hi.own k h g hf g2)
            simpa [upd, this] using g3
      · unfold setting at hs
        by_cases e : k = h
        · rw [if_pos e] at hs; cases hs
        · rw [if_neg e] at hs; exact hi.off h hs hc

theorem HInv.after (hist : List Call) : HInv hist (Logging.after hist) := by
  induction hist with
  | nil => exact .init
  | cons c past ih =>
    cases c with
    | root level l => exact ih.root' level l
    | enable k level specific tags => exact ih.enable k level specific tags
    | disable k => exact ih.disable k
    | clear => exact ih.clear

end Verif.Logging
