import Verif.Spec.Power
import Verif.Props.Device
namespace Verif.Device

/-- No process that runs unnoticed. -/
def Safe (s : St) (d : Nat) : Prop := (s.dev d).status = .enabled ∨ (s.dev d).proc ≠ .alive

def Keeps (s s' : St) : Prop := ∀ k, Safe s k → Safe s' k

theorem Keeps.refl (s : St) : Keeps s s := fun _ h => h
theorem Keeps.trans {s s' s'' : St} (h : Keeps s s') (h' : Keeps s' s'') : Keeps s s'' := fun k hk => h' k (h k hk)

theorem Soft.keeps {L s s'} (h : Soft L s s') : Keeps s s' := by
  intro k hk
  rcases h k with e | ⟨_, _, e⟩
  · unfold Safe; rw [e]; exact hk
  · exact .inr (by rw [e]; simp)

theorem safe_of_dev {s s' : St} {k : Nat} (h : s'.dev k = s.dev k) (hs : Safe s k) : Safe s' k := by unfold Safe; rw [h]; exact hs

theorem Local.keeps {d L s s'} (h : Local d L s s') (hd : Safe s d → Safe s' d) : Keeps s s' := by
  intro k hk
  by_cases hkd : k = d
  · subst hkd; exact hd hk
  · rcases h.other k hkd with e | ⟨_, _, e⟩
    · exact safe_of_dev e hk
    · exact .inr (by rw [e]; simp)

theorem finish_safe (s : St) (d : Nat) (st : Status) (h : st = .enabled ∨ (s.dev d).proc ≠ .alive) : Safe (finish s d st).1 d := by
  rcases h with h | h
  · exact .inl (by rw [finish_status]; exact h)
  · exact .inr (by rw [finish_proc]; exact h)

theorem spawn_raises {c : Cfg} {s : St} {d : Nat} (h : (spawn c s d).2 = true) :
    (spawn c s d).1.dev d = s.dev d ∨ ((spawn c s d).1.dev d).proc = .dead := by
  unfold spawn at h ⊢
  split
  · next hc => rw [hc] at h; cases h
  · next hc => rw [hc] at h; cases h
  · next died _ => cases died with
    | false => exact .inl (by simp [St.upd])
    | true => exact .inr (by simp [St.upd])

theorem launch_raises {c : Cfg} {s : St} (hw : Wf c s) {d : Nat} (h : (launch c s d).2 = true) :
    (launch c s d).1.dev d = s.dev d ∨ ((launch c s d).1.dev d).proc = .dead := by
  obtain ⟨h1, h2⟩ := depsEnabled_spec c s d
  have hself : (dependenciesEnabled c s d).1.dev d = s.dev d := h1.same (.inl (hw.self d))
  unfold launch at h ⊢
  cases hb : dependenciesEnabled c s d with
  | mk s' b =>
    rw [hb] at h1 h2 h hself
    dsimp only at h1 h2 h hself ⊢
    cases b with
    | false => cases h
    | true =>
      dsimp only at h ⊢
      cases hk : c.kind d with
      | ap r =>
        rw [hk] at h
        cases r with
        | true => exact .inl hself
        | false => dsimp only at h ⊢; exact (spawn_raises h).imp (·.trans hself) id
      | iface =>
        rw [hk] at h
        dsimp only at h ⊢
        cases hc : (s'.dev d).conn with
        | none => exact .inl hself
        | some a =>
          rw [hc] at h
          dsimp only at h ⊢
          have hda : d ≠ a := by
            intro e; subst e
            rw [h1.conn] at hc
            exact hw.self d (hw.conn d d hc)
          obtain ⟨j1, _⟩ := enabled_spec c s' a
          have h3 : (enabled c s' a).1.dev d = s'.dev d := j1.same (.inl (by simpa using hda))
          cases he : enabled c s' a with
          | mk s'' b =>
            rw [he] at h h3
            dsimp only at h h3 ⊢
            cases b with
            | false => exact .inl (h3.trans hself)
            | true => dsimp only at h ⊢; exact (spawn_raises h).imp (·.trans (h3.trans hself)) id

theorem shutdown_raises {c : Cfg} {s : St} {d : Nat} (h : (shutdown c s d).2 = true) : (shutdown c s d).1.dev d = s.dev d := by
  unfold shutdown at h ⊢
  cases hp : (s.dev d).proc with
  | gone => rfl
  | dead => rfl
  | alive =>
    rw [hp] at h
    dsimp only at h ⊢
    cases hk : c.kill s.kills with
    | true => rw [hk] at h; cases h
    | false => rfl

theorem andThen_safe {c : Cfg} {d : Nat} {s s' : St} (hd : s'.dev d = s.dev d) (st : Status) :
    (Safe s d → Safe (andThen d st (shutdown c s' d)).1 d) ∧ ((andThen d st (shutdown c s' d)).2 = false → Safe (andThen d st (shutdown c s' d)).1 d) := by
  obtain ⟨_, _, h3⟩ := shutdown_spec c s' d []
  have h4 := @shutdown_raises c s' d
  cases hb : shutdown c s' d with
  | mk s'' b =>
    rw [hb] at h3 h4
    cases b with
    | true => exact ⟨fun h => safe_of_dev ((h4 rfl).trans hd) h, by simp [andThen]⟩
    | false =>
      have : Safe (finish s'' d st).1 d := finish_safe _ _ _ (.inr (by have := h3 rfl; dsimp only at this; rw [this]; simp))
      exact ⟨fun _ => this, fun _ => this⟩

theorem afterLaunch_safe {c : Cfg} {d : Nat} {s s' : St} (hw : Wf c s') (hd : s'.dev d = s.dev d) :
    (Safe s d → Safe (afterLaunch d (launch c s' d)).1 d) ∧ ((afterLaunch d (launch c s' d)).2 = false → Safe (afterLaunch d (launch c s' d)).1 d) := by
  have h4 := @launch_raises c s' hw d
  cases hb : launch c s' d with
  | mk s'' b =>
    rw [hb] at h4
    cases b with
    | true =>
      refine ⟨fun h => ?_, by simp [afterLaunch]⟩
      rcases h4 rfl with h4 | h4
      · exact safe_of_dev (h4.trans hd) h
      · exact .inr (by show (s''.dev d).proc ≠ _; dsimp only at h4; rw [h4]; simp)
    | false =>
      have : Safe (finish s'' d (if running s'' d then .enabled else .abnormal)).1 d := by
        apply finish_safe
        by_cases hr : running s'' d = true
        · exact .inl (by rw [if_pos hr])
        · exact .inr (by simpa [running] using hr)
      exact ⟨fun _ => this, fun _ => this⟩

theorem branches_safe {c : Cfg} {s : St} (hw : Wf c s) (d : Nat) :
    (Safe s d → Safe (branches c s d).1 d) ∧ ((s.dev d).status = .disabled → (branches c s d).2 = false → Safe (branches c s d).1 d) := by
  obtain ⟨h1, h2⟩ := depsEnabled_spec c s d
  have hself : (dependenciesEnabled c s d).1.dev d = s.dev d := h1.same (.inl (hw.self d))
  have hw' := h1.wf hw
  unfold branches
  split
  · next hst =>
    refine ⟨?_, fun h => by rw [hst] at h; cases h⟩
    intro hs
    split
    · exact (andThen_safe rfl _).1 hs
    · split
      · next hr => exact finish_safe _ _ _ (.inr (by simpa [running] using hr))
      · cases hb : dependenciesEnabled c s d with
        | mk s' b =>
          rw [hb] at hself hw'
          cases b with
          | true => exact finish_safe _ _ _ (.inl rfl)
          | false => exact (andThen_safe hself _).1 hs
  · next hst =>
    refine ⟨?_, fun h => by rw [hst] at h; cases h⟩
    intro hs
    have hp : (s.dev d).proc ≠ .alive := by
      rcases hs with h | h
      · rw [hst] at h; cases h
      · exact h
    split
    · exact finish_safe _ _ _ (.inr hp)
    · cases hb : dependenciesEnabled c s d with
      | mk s' b =>
        rw [hb] at hself hw'
        cases b with
        | true => exact (afterLaunch_safe hw' hself).1 hs
        | false => exact finish_safe _ _ _ (.inr (by dsimp only at hself; rw [hself]; exact hp))
  · split
    · cases hb : dependenciesEnabled c s d with
      | mk s' b =>
        rw [hb] at hself hw'
        cases b with
        | true => exact ⟨fun _ => finish_safe _ _ _ (.inl rfl), fun _ _ => finish_safe _ _ _ (.inl rfl)⟩
        | false => exact ⟨(andThen_safe hself _).1, fun _ => (andThen_safe hself _).2⟩
    · next hr =>
      have hp : (s.dev d).proc ≠ .alive := by simpa [running] using hr
      split
      · cases hb : dependenciesEnabled c s d with
        | mk s' b =>
          rw [hb] at hself hw'
          cases b with
          | true => exact ⟨(afterLaunch_safe hw' hself).1, fun _ => (afterLaunch_safe hw' hself).2⟩
          | false =>
            have := finish_safe s' d .waiting (.inr (by dsimp only at hself; rw [hself]; exact hp))
            exact ⟨fun _ => this, fun _ _ => this⟩
      · exact ⟨fun _ => finish_safe _ _ _ (.inr hp), fun _ _ => finish_safe _ _ _ (.inr hp)⟩

theorem branches_keeps {c : Cfg} {s : St} (hw : Wf c s) (d : Nat) : Keeps s (branches c s d).1 :=
  (branches_spec hw d).loc.keeps (branches_safe hw d).1

theorem toggle_keeps (s : St) (d : Nat) : Keeps s (s.upd d fun x => { x with toggle := true }) := by
  intro k hk
  by_cases h : k = d
  · subst h; unfold Safe; rw [upd_self]; exact hk
  · exact safe_of_dev (upd_ne s h _) hk

theorem enableAp_keeps {c : Cfg} {s : St} (hw : Wf c s) {d : Nat} (hk : c.kind d ≠ .iface) : Keeps s (enableAp c s d).1 := by
  unfold enableAp
  split
  · exact .refl _
  · unfold enableWith
    obtain ⟨h1, _⟩ := enabled_spec c s d
    cases he : enabled c s d with
    | mk s1 b =>
      rw [he] at h1
      dsimp only at h1
      cases b with
      | true => exact h1.keeps
      | false =>
        dsimp only
        have hw2 := upd_wf (h1.wf hw) d (fun x => { x with toggle := true }) rfl rfl
        rw [machine_ap hw2 hk]
        exact h1.keeps.trans ((toggle_keeps s1 d).trans (branches_keeps hw2 d))

theorem enableDeps_keeps {c : Cfg} : ∀ (ds : List Nat) (s : St), Wf c s → (∀ a ∈ ds, c.kind a ≠ .iface) → Keeps s (enableDeps c (enableAp c) s ds).1
  | [], s, _, _ => .refl _
  | d :: ds, s, hw, hk => by
    obtain ⟨h1, _⟩ := enabled_spec c s d
    have hk' : ∀ a ∈ ds, c.kind a ≠ .iface := fun a ha => hk a (by simp [ha])
    unfold enableDeps
    cases he : enabled c s d with
    | mk s1 b =>
      rw [he] at h1
      dsimp only at h1
      have hw1 := h1.wf hw
      cases b with
      | true => exact h1.keeps.trans (enableDeps_keeps ds s1 hw1 hk')
      | false =>
        dsimp only
        have h2 := enableAp_keeps hw1 (hk d (by simp))
        have hw2 := (enableAp_up hw1 (hk d (by simp))).wf hw1
        cases ha : enableAp c s1 d with
        | mk s2 r =>
          rw [ha] at h2 hw2
          cases r with
          | true => exact h1.keeps.trans h2
          | false => exact h1.keeps.trans (h2.trans (enableDeps_keeps ds s2 hw2 hk'))

theorem enable_keeps {c : Cfg} {s : St} (hw : Wf c s) (d : Nat) : Keeps s (enable c s d).1 := by
  unfold enable
  split
  · next r hk => exact enableAp_keeps hw (by rw [hk]; simp)
  · next hk =>
    unfold enableWith
    obtain ⟨h1, _⟩ := enabled_spec c s d
    cases he : enabled c s d with
    | mk s1 b =>
      rw [he] at h1
      dsimp only at h1
      cases b with
      | true => exact h1.keeps
      | false =>
        dsimp only
        have hw2 := upd_wf (h1.wf hw) d (fun x => { x with toggle := true }) rfl rfl
        refine h1.keeps.trans ((toggle_keeps s1 d).trans ?_)
        generalize (s1.upd d fun x => { x with toggle := true }) = s2 at hw2
        unfold machine
        split
        · have hks : ∀ a ∈ (s2.dev d).deps, c.kind a ≠ .iface := fun a ha => (hw2.deps d a ha).2
          have hu := enableDeps_up (s2.dev d).deps s2 hw2 hks
          have h3 := enableDeps_keeps (s2.dev d).deps s2 hw2 hks
          cases hd : enableDeps c (enableAp c) s2 (s2.dev d).deps with
          | mk s3 r =>
            rw [hd] at hu h3
            cases r with
            | true => exact h3
            | false => exact h3.trans (branches_keeps (hu.wf hw2) d)
        · exact branches_keeps hw2 d

theorem disable_keeps {c : Cfg} {s : St} (hw : Wf c s) (d : Nat) : Keeps s (disable c s d).1 := by
  unfold disable
  split
  · exact .refl _
  · obtain ⟨h1, h2⟩ := enabled_spec c s d
    cases he : enabled c s d with
    | mk s1 b =>
      rw [he] at h1 h2
      dsimp only at h1 h2
      cases b with
      | false => exact h1.keeps
      | true =>
        dsimp only
        have hw2 := upd_wf (h1.wf hw) d (fun x => { x with toggle := true }) rfl rfl
        refine h1.keeps.trans ((toggle_keeps s1 d).trans ?_)
        generalize (s1.upd d fun x => { x with toggle := true }) = s2 at hw2
        unfold machine
        split
        · have hks : ∀ a ∈ (s2.dev d).deps, c.kind a ≠ .iface := fun a ha => (hw2.deps d a ha).2
          have hu := enableDeps_up (s2.dev d).deps s2 hw2 hks
          have h3 := enableDeps_keeps (s2.dev d).deps s2 hw2 hks
          cases hd : enableDeps c (enableAp c) s2 (s2.dev d).deps with
          | mk s3 r =>
            rw [hd] at hu h3
            cases r with
            | true => exact h3
            | false => exact h3.trans (branches_keeps (hu.wf hw2) d)
        · exact branches_keeps hw2 d

end Verif.Device
