import Verif.Lemmas.Device
/-! # C50: the states of the devices of a network -/
namespace Verif.Device

/-- A device on which `enable` is called and that is neither enabled nor waiting. -/
theorem branches_outcome {c : Cfg} {s : St} (hw : Wf c s) {d : Nat} (hs : (s.dev d).status = .disabled ∨ (s.dev d).status = .abnormal)
    (hp : (s.dev d).proc ≠ .alive) (ht : (s.dev d).toggle = true) (hr : (branches c s d).2 = false) :
    (((branches c s d).1.dev d).status = .enabled ∧ Ready c s d ∧ ((branches c s d).1.dev d).proc = .alive) ∨
    (((branches c s d).1.dev d).status = .abnormal ∧ Ready c s d ∧ ((branches c s d).1.dev d).proc = .gone) ∨
    (((branches c s d).1.dev d).status = .waiting ∧ ¬ Ready c s d) := by
  obtain ⟨h1, h2⟩ := depsEnabled_spec c s d
  have hb : branches c s d = match dependenciesEnabled c s d with
      | (s', true) => afterLaunch d (launch c s' d)
      | (s', false) => finish s' d .waiting := by
    unfold branches
    rcases hs with hs | hs <;> rw [hs] <;> simp only [running, hp, ht, decide_false, if_true, Bool.false_eq_true, if_false] <;> (cases dependenciesEnabled c s d with | mk x y => cases y <;> rfl)
  rw [hb] at hr ⊢
  cases he : dependenciesEnabled c s d with
  | mk s1 b =>
    rw [he] at h1 h2 hr
    dsimp only at h1 h2 hr ⊢
    cases b with
    | false => exact .inr (.inr ⟨finish_status _ _ _, fun h => absurd (h2.mpr h) (by simp)⟩)
    | true =>
      have hrd := h2.mp rfl
      obtain ⟨_, _, i3⟩ := launch_spec (h1.wf hw) d
      have i3 := i3 ((h1.ready c d).mpr hrd)
      dsimp only at hr ⊢
      cases hl : launch c s1 d with
      | mk s2 r =>
        rw [hl] at hr i3
        cases r with
        | true => cases hr
        | false =>
          simp only [afterLaunch, finish_status, finish_proc]
          have i3 := i3 rfl
          dsimp only at i3
          cases hpp : (s2.dev d).proc with
          | alive => exact .inl ⟨by simp [running, hpp], hrd, rfl⟩
          | gone => exact .inr (.inl ⟨by simp [running, hpp], hrd, rfl⟩)
          | dead => exact absurd hpp i3

/-- `enable` of an interface that is not enabled: its dependencies are tried first, in state `s1`, then the state machine runs. -/
theorem enable_iface {c : Cfg} {s : St} {d : Nat} (hk : c.kind d = .iface) (hs : (s.dev d).status ≠ .enabled) (hi : Inv c s) :
    ∃ s1 r, enableDeps c (enableAp c) ((cleanup s d).upd d fun x => { x with toggle := true }) (s.dev d).deps = (s1, r) ∧
      enable c s d = (if r then (s1, true) else branches c s1 d) ∧ Up (d :: (s.dev d).deps) s s1 ∧ Inv c s1 ∧
      s1.dev d = { s.dev d with proc := .gone, toggle := true } := by
  have he : enabled c s d = (cleanup s d, false) := by
    unfold enabled; rw [if_neg (by rw [hk]; simp)]; simp [hs]
  have hsoft := (enabled_spec c s d).1
  rw [he] at hsoft
  have hn1 : ((cleanup s d).dev d).status ≠ .enabled := by rw [hsoft.status]; exact hs
  have hu := toggled_up hn1
  have hi1 := enabled_inv hi d
  rw [he] at hi1
  have hi2 := upd_inv hi1 d (fun x => { x with toggle := true }) rfl rfl rfl
  have hdev : ((cleanup s d).upd d fun x => { x with toggle := true }).dev d = { s.dev d with proc := .gone, toggle := true } := by
    rw [upd_self]; unfold cleanup; rw [upd_self, if_neg hs]
  have hdeps : (((cleanup s d).upd d fun x => { x with toggle := true }).dev d).deps = (s.dev d).deps := by rw [hdev]
  have hup : Up (d :: (s.dev d).deps) s ((cleanup s d).upd d fun x => { x with toggle := true }) :=
    (hsoft.up.trans hu).mono (by simp)
  generalize hs2 : ((cleanup s d).upd d fun x => { x with toggle := true }) = s2 at *
  have hks : ∀ a ∈ (s.dev d).deps, c.kind a ≠ .iface := fun a ha => (hi.wf.deps d a ha).2
  have h3 := enableDeps_up (s.dev d).deps s2 hi2.wf hks
  have h4 := enableDeps_noWait (s.dev d).deps s2 hi2 hks
  refine ⟨(enableDeps c (enableAp c) s2 (s.dev d).deps).1, (enableDeps c (enableAp c) s2 (s.dev d).deps).2, rfl, ?_, hup.trans (h3.mono (fun k hk => by simp [hk])), h4, ?_⟩
  · unfold enable
    rw [hk]
    dsimp only
    unfold enableWith
    rw [he]
    dsimp only
    rw [hs2]
    unfold machine
    rw [hdev]
    dsimp only
    rw [if_pos ⟨hs, rfl⟩]
    cases enableDeps c (enableAp c) s2 (s.dev d).deps with
    | mk s1 r => cases r <;> rfl
  · rw [h3.out d (hi.wf.self d), hdev]

/-- Whatever happened before, a device becomes enabled through a call or a crash only if its dependencies count as enabled and its process
runs, at the end of that call. (The start of a new manager is `C50_restart`.) -/
theorem C50_enabled_only (c : Cfg) (h : List Ev) (e : Ev) (he : ∀ a i, e ≠ .restart a i) (d : Nat)
    (hn : ((exec c .init h).dev d).status ≠ .enabled) (hs : ((step c (exec c .init h) e).1.dev d).status = .enabled) :
    Ready c (step c (exec c .init h) e).1 d ∧ ((step c (exec c .init h) e).1.dev d).proc = .alive := by
  have hi := exec_inv h _ (Inv.init c)
  generalize exec c .init h = s at *
  have hi' := step_inv hi e
  cases e with
  | enable k =>
    obtain ⟨h1, h2, h3⟩ := enable_spec hi.wf k
    refine ⟨?_, h1.fresh d hn hs⟩
    by_cases hd : d = k
    · subst hd; exact h3 hn hs
    · by_cases hk : c.kind d = .iface
      · exfalso
        by_cases hm : d ∈ (s.dev k).deps
        · exact (hi.wf.deps k d hm).2 hk
        · simp only [step] at hs
          rw [h1.out d (by simp [hd, hm])] at hs
          exact hn hs
      · exact h2.apReady hk
  | disable k =>
    obtain ⟨h1, h2, h3, h4⟩ := disable_spec hi.wf k
    simp only [step] at hs
    exfalso
    by_cases hd : d = k
    · subst hd
      have := h3 (fun hh => hn hh.1)
      rw [this.2] at hs; exact hn hs
    · rw [h2 d hd] at hs; exact hn hs
  | connect i a =>
    exfalso
    simp only [step, connect] at hs
    split at hs
    · by_cases hd : d = i
      · subst hd; rw [upd_self] at hs; exact hn hs
      · rw [upd_ne s hd] at hs; exact hn hs
    · exact hn hs
  | disconnect i =>
    exfalso
    simp only [step, disconnect] at hs
    by_cases hd : d = i
    · subst hd; rw [upd_self] at hs; exact hn hs
    · rw [upd_ne s hd] at hs; exact hn hs
  | died k =>
    exfalso
    simp only [step] at hs
    by_cases hd : d = k
    · subst hd; rw [upd_self] at hs; split at hs <;> exact hn hs
    · rw [upd_ne s hd] at hs; exact hn hs
  | restart a i => exact absurd rfl (he a i)

/-- `enable` and `disable` change only the device itself and, for `enable`, the devices it depends on; and nothing about devices that are enabled already. -/
theorem C50_only_self (c : Cfg) (h : List Ev) (d k : Nat) :
    (k ≠ d → k ∉ ((exec c .init h).dev d).deps → (enable c (exec c .init h) d).1.dev k = (exec c .init h).dev k) ∧
    (((exec c .init h).dev k).status = .enabled → (enable c (exec c .init h) d).1.dev k = (exec c .init h).dev k) ∧
    (k ≠ d → (disable c (exec c .init h) d).1.dev k = (exec c .init h).dev k) := by
  have hi := exec_inv h _ (Inv.init c)
  generalize exec c .init h = s at *
  obtain ⟨h1, _, _⟩ := enable_spec hi.wf d
  obtain ⟨_, h2, _⟩ := disable_spec hi.wf d
  exact ⟨fun hk hk' => h1.out k (by simp [hk, hk']), h1.same k, h2 k⟩

/-- The outcome of `enable`, when it does not raise, on an interface that is disabled or was shut down: enabled, with its dependencies met and its
process running; abnormal, when its dependencies are met but the process does not run; or waiting, when they are not met. -/
theorem C50_enable_outcome (c : Cfg) (h : List Ev) (d : Nat) (hk : c.kind d = .iface)
    (hs : ((exec c .init h).dev d).status = .disabled ∨ ((exec c .init h).dev d).status = .abnormal)
    (hr : (enable c (exec c .init h) d).2 = false) :
    let s' := (enable c (exec c .init h) d).1
    ((s'.dev d).status = .enabled ∧ Ready c s' d ∧ (s'.dev d).proc = .alive) ∨
    ((s'.dev d).status = .abnormal ∧ Ready c s' d ∧ (s'.dev d).proc = .gone) ∨
    ((s'.dev d).status = .waiting ∧ ¬ Ready c s' d) := by
  have hi := exec_inv h _ (Inv.init c)
  generalize exec c .init h = s at *
  have hn : (s.dev d).status ≠ .enabled := by rcases hs with e | e <;> rw [e] <;> simp
  obtain ⟨s1, r, _, h2, h3, h4, h5⟩ := enable_iface hk hn hi
  rw [h2] at hr ⊢
  cases r with
  | true => cases hr
  | false =>
    rw [if_neg (by simp)] at hr ⊢
    have := branches_outcome h4.wf (d := d) (by rw [h5]; exact hs) (by rw [h5]; simp) (by rw [h5]) hr
    have hl := (branches_spec h4.wf d).loc.ready (c := c) (h4.wf.self d)
    dsimp only
    rw [hl]
    exact this

/-- `disable` of an enabled device that runs here and whose process ends when it is told to: it is disabled, and it is gone. -/
theorem C50_disable_partial (c : Cfg) (h : List Ev) (d : Nat) (hk : c.kind d ≠ .ap true) (hs : ((exec c .init h).dev d).status = .enabled)
    (hp : ((exec c .init h).dev d).proc = .alive) (hkill : ∀ n, c.kill n = true) :
    (disable c (exec c .init h) d).2 = false ∧
    ((disable c (exec c .init h) d).1.dev d).status = .disabled ∧ ((disable c (exec c .init h) d).1.dev d).proc = .gone := by
  have hi := exec_inv h _ (Inv.init c)
  generalize exec c .init h = s at *
  obtain ⟨_, _, _, h4⟩ := disable_spec hi.wf d
  obtain ⟨a, _, b⟩ := h4 hs hk
  have := b.mpr (.inr ⟨hp, hkill _⟩)
  exact ⟨this, a this⟩

/-- `disable` reports an error exactly when the process is dead or does not end in time, and then the device stays enabled. -/
theorem C50_disable_fails (c : Cfg) (h : List Ev) (d : Nat) (hk : c.kind d ≠ .ap true) (hs : ((exec c .init h).dev d).status = .enabled) :
    ((disable c (exec c .init h) d).2 = true ↔
      ((exec c .init h).dev d).proc = .dead ∨ ((exec c .init h).dev d).proc = .alive ∧ c.kill (exec c .init h).kills = false) ∧
    ((disable c (exec c .init h) d).2 = true → ((disable c (exec c .init h) d).1.dev d).status = .enabled) := by
  have hi := exec_inv h _ (Inv.init c)
  generalize exec c .init h = s at *
  obtain ⟨_, _, _, h4⟩ := disable_spec hi.wf d
  obtain ⟨_, a, b⟩ := h4 hs hk
  refine ⟨?_, a⟩
  cases hd : (disable c s d).2 with
  | false =>
    have := b.mp hd
    rcases this with e | ⟨e1, e2⟩
    · simp [e]
    · simp [e1, e2]
  | true =>
    rw [hd] at b
    cases hp : (s.dev d).proc with
    | gone => rw [hp] at b; simp at b
    | dead => simp
    | alive =>
      cases hkk : c.kill s.kills with
      | true => rw [hp, hkk] at b; simp at b
      | false => simp

/-! ## `enable` works -/

theorem spawn_up {c : Cfg} (hc : ∀ n, c.launch n = .up) (s : St) (d : Nat) : spawn c s d = (({ s with launches := s.launches + 1 } : St).upd d fun x => { x with proc := .alive }, false) := by
  unfold spawn; rw [hc]

theorem launch_up {c : Cfg} (hc : ∀ n, c.launch n = .up) {s : St} (hw : Wf c s) {d : Nat} (hr : Ready c s d) (hk : c.kind d ≠ .ap true) :
    (launch c s d).2 = false ∧ ((launch c s d).1.dev d).proc = .alive := by
  obtain ⟨h1, h2⟩ := depsEnabled_spec c s d
  unfold launch
  cases hb : dependenciesEnabled c s d with
  | mk s' b =>
    rw [hb] at h1 h2
    dsimp only at h1 h2
    have hbt := h2.mpr hr
    subst hbt
    dsimp only
    split
    · next e => exact absurd e hk
    · rw [spawn_up hc]; exact ⟨rfl, by rw [upd_self]⟩
    · next e =>
      split
      · next hn => rw [h1.conn] at hn; exact absurd hn (hr.1 e)
      · next a ha =>
        obtain ⟨j1, j2⟩ := enabled_spec c s' a
        have ham : a ∈ (s.dev d).deps := hw.conn d a (h1.conn d ▸ ha)
        have hon := (h1.on c a).mpr (hr.2 a ham)
        cases he : enabled c s' a with
        | mk s'' b =>
          rw [he] at j2
          have := j2.mpr hon
          dsimp only at this
          subst this
          dsimp only
          rw [spawn_up hc]; exact ⟨rfl, by rw [upd_self]⟩

/-- A device that is neither enabled nor waiting, without a process, comes up. -/
theorem branches_up {c : Cfg} (hc : ∀ n, c.launch n = .up) {s : St} (hw : Wf c s) {d : Nat} (hs : (s.dev d).status = .disabled ∨ (s.dev d).status = .abnormal)
    (hp : (s.dev d).proc ≠ .alive) (ht : (s.dev d).toggle = true) (hr : Ready c s d) (hk : c.kind d ≠ .ap true) :
    (branches c s d).2 = false ∧ ((branches c s d).1.dev d).status = .enabled := by
  obtain ⟨h1, h2⟩ := depsEnabled_spec c s d
  have hb : branches c s d = match dependenciesEnabled c s d with
      | (s', true) => afterLaunch d (launch c s' d)
      | (s', false) => finish s' d .waiting := by
    unfold branches
    rcases hs with hs | hs <;> rw [hs] <;> simp only [running, hp, ht, decide_false, if_true, Bool.false_eq_true, if_false] <;> (cases dependenciesEnabled c s d with | mk x y => cases y <;> rfl)
  rw [hb]
  cases he : dependenciesEnabled c s d with
  | mk s1 b =>
    rw [he] at h1 h2
    dsimp only at h1 h2
    have := h2.mpr hr
    subst this
    obtain ⟨l1, l2⟩ := launch_up hc (h1.wf hw) ((h1.ready c d).mpr hr) hk
    dsimp only
    cases hl : launch c s1 d with
    | mk s2 r =>
      rw [hl] at l1 l2
      dsimp only at l1 l2
      subst l1
      simp only [afterLaunch]
      exact ⟨rfl, by rw [finish_status]; simp [running, l2]⟩

theorem enableAp_works {c : Cfg} (hc : ∀ n, c.launch n = .up) {s : St} (hi : Inv c s) {d : Nat} (hk : c.kind d ≠ .iface) :
    (enableAp c s d).2 = false ∧ On c (enableAp c s d).1 d := by
  unfold enableAp
  split
  · next e => exact ⟨rfl, .inl e⟩
  · next e =>
    unfold enableWith
    obtain ⟨h1, h2⟩ := enabled_spec c s d
    have hi1 := enabled_inv hi d
    cases he : enabled c s d with
    | mk s1 b =>
      rw [he] at h1 h2 hi1
      dsimp only at h1 h2 hi1
      cases b with
      | true => exact ⟨rfl, (h1.on c d).mpr (h2.mp rfl)⟩
      | false =>
        dsimp only
        have hi2 := upd_inv hi1 d (fun x => { x with toggle := true }) rfl rfl rfl
        rw [machine_ap hi2.wf hk]
        have hn : (s.dev d).status ≠ .enabled := fun hh => absurd (h2.mpr (.inr hh)) (by simp)
        have hs1 : s1 = cleanup s d := by
          unfold enabled at he; rw [if_neg e] at he; exact (congrArg Prod.fst he).symm
        have hst : (s.dev d).status = .disabled ∨ (s.dev d).status = .abnormal := by
          have := hi.apWait d hk
          cases hh : (s.dev d).status <;> simp_all
        have := branches_up hc hi2.wf (d := d) (by rw [upd_self]; dsimp only; rw [h1.status]; exact hst)
          (by rw [upd_self, hs1]; unfold cleanup; rw [upd_self, if_neg hn]; simp) (by rw [upd_self]) (hi2.wf.apReady hk) e
        exact ⟨this.1, .inr this.2⟩

theorem enableDeps_works {c : Cfg} (hc : ∀ n, c.launch n = .up) : ∀ (ds : List Nat) (s : St), Inv c s → (∀ a ∈ ds, c.kind a ≠ .iface) →
    (enableDeps c (enableAp c) s ds).2 = false ∧ ∀ a ∈ ds, On c (enableDeps c (enableAp c) s ds).1 a
  | [], s, _, _ => ⟨rfl, by simp⟩
  | d :: ds, s, hi, hk => by
    obtain ⟨h1, h2⟩ := enabled_spec c s d
    have hi1 := enabled_inv hi d
    have keep : ∀ {L s s'} (_ : Up L s s') (a : Nat), On c s a → On c s' a := by
      intro L s s' hu a ha
      rcases ha with ha | ha
      · exact .inl ha
      · exact .inr (by rw [hu.same a ha]; exact ha)
    have hk' : ∀ a ∈ ds, c.kind a ≠ .iface := fun a ha => hk a (by simp [ha])
    unfold enableDeps
    cases he : enabled c s d with
    | mk s1 b =>
      rw [he] at h1 h2 hi1
      dsimp only at h1 h2 hi1
      cases b with
      | true =>
        have := enableDeps_works hc ds s1 hi1 hk'
        refine ⟨this.1, fun a ha => ?_⟩
        rcases List.mem_cons.mp ha with ha | ha
        · subst ha; exact keep (enableDeps_up ds s1 hi1.wf hk') a ((h1.on c a).mpr (h2.mp rfl))
        · exact this.2 a ha
      | false =>
        have h3 := enableAp_works hc hi1 (hk d (by simp))
        have hi2 := enableAp_noWait hi1 (hk d (by simp))
        dsimp only
        cases ha : enableAp c s1 d with
        | mk s2 r =>
          rw [ha] at h3 hi2
          dsimp only at h3 hi2
          rw [h3.1]
          have := enableDeps_works hc ds s2 hi2 hk'
          refine ⟨this.1, fun a ha => ?_⟩
          rcases List.mem_cons.mp ha with ha | ha
          · subst ha; exact keep (enableDeps_up ds s2 hi2.wf hk') a h3.2
          · exact this.2 a ha

/-- `enable` works: if processes that are started run, `enable` of a connected interface that is not waiting enables it, and all the access points
it depends on. -/
theorem C50_enable_works (c : Cfg) (hc : ∀ n, c.launch n = .up) (h : List Ev) (d : Nat) (hk : c.kind d = .iface)
    (hconn : ((exec c .init h).dev d).conn ≠ none) (hs : ((exec c .init h).dev d).status ≠ .waiting) (hs' : ((exec c .init h).dev d).status ≠ .enabled) :
    let r := enable c (exec c .init h) d
    r.2 = false ∧ (r.1.dev d).status = .enabled ∧ ∀ a ∈ ((exec c .init h).dev d).deps, On c r.1 a := by
  have hi := exec_inv h _ (Inv.init c)
  generalize exec c .init h = s at *
  obtain ⟨s1, r, h1, h2, h3, h4, h5⟩ := enable_iface hk hs' hi
  have hks : ∀ a ∈ (s.dev d).deps, c.kind a ≠ .iface := fun a ha => (hi.wf.deps d a ha).2
  have hi2 : Inv c ((cleanup s d).upd d fun x => { x with toggle := true }) := by
    have := enabled_inv hi d
    have he : enabled c s d = (cleanup s d, false) := by
      unfold enabled; rw [if_neg (by rw [hk]; simp)]; simp [hs']
    rw [he] at this
    exact upd_inv this d (fun x => { x with toggle := true }) rfl rfl rfl
  have hd := enableDeps_works hc (s.dev d).deps _ hi2 hks
  rw [h1] at hd
  have hr := hd.1
  dsimp only at hr
  subst hr
  dsimp only
  rw [h2, if_neg (by simp)]
  have hst : (s.dev d).status = .disabled ∨ (s.dev d).status = .abnormal := by
    cases hh : (s.dev d).status <;> simp_all
  have hrd : Ready c s1 d := ⟨fun _ => by rw [h5]; exact hconn, by rw [h5]; exact hd.2⟩
  have hb := branches_up hc h4.wf (d := d) (by rw [h5]; exact hst) (by rw [h5]; simp) (by rw [h5]) hrd (by rw [hk]; simp)
  have hres := branches_spec h4.wf d
  refine ⟨hb.1, hb.2, fun a ha => ?_⟩
  have := ((hres.on hb.1 hb.2).1).2 a
  rw [hres.loc.deps, h5] at this
  exact this ha

/-! ## A new manager -/

theorem install_spec {c : Cfg} {s : St} (hi : Inv c s) {d : Nat} (hr : (install c s d).2 = false) :
    Local d (s.dev d).conn.toList (reload s d) (install c s d).1 ∧
    (((install c s d).1.dev d).status = .enabled ↔ (s.dev d).proc = .alive ∧ Ready c (reload s d) d) ∧
    (((install c s d).1.dev d).status = .waiting ↔ (s.dev d).proc = .alive ∧ ¬ Ready c (reload s d) d) ∧
    (((install c s d).1.dev d).status = .disabled ↔ (s.dev d).proc ≠ .alive) := by
  have hi' := reload_inv hi d
  have hm : install c s d = branches c (reload s d) d := by
    unfold install machine
    rw [if_neg (by rw [upd_self]; simp)]
    rfl
  rw [hm] at hr ⊢
  have hdev : (reload s d).dev d = { s.dev d with status := .disabled, toggle := false, deps := (s.dev d).conn.toList } := by rw [reload, upd_self]
  have hsp := (branches_spec hi'.wf d).loc
  rw [hdev] at hsp
  refine ⟨hsp, ?_⟩
  obtain ⟨h1, h2⟩ := depsEnabled_spec c (reload s d) d
  unfold branches at hr ⊢
  rw [hdev] at hr ⊢
  dsimp only at hr ⊢
  by_cases hp : (s.dev d).proc = .alive
  · rw [if_pos (by simp [running, hdev, hp])] at hr ⊢
    cases he : dependenciesEnabled c (reload s d) d with
    | mk s1 b =>
      rw [he] at h1 h2 hr
      dsimp only at h1 h2 hr ⊢
      cases b with
      | true => have := h2.mp rfl; dsimp only; rw [finish_status]; simp [hp, this]
      | false =>
        have hnr : ¬ Ready c (reload s d) d := fun hh => absurd (h2.mpr hh) (by simp)
        dsimp only at hr ⊢
        cases hsd : shutdown c s1 d with
        | mk s2 r =>
          rw [hsd] at hr
          cases r with
          | true => cases hr
          | false => simp only [andThen]; rw [finish_status]; simp [hp, hnr]
  · rw [if_neg (by simp [running, hdev, hp])] at hr ⊢
    rw [if_neg (by simp)]
    rw [finish_status]; simp [hp]

theorem installAps {c : Cfg} : ∀ (ds : List Nat) (s : St), Inv c s → (∀ a ∈ ds, c.kind a ≠ .iface) → ds.Nodup → (installAll c s ds).2 = false →
    Inv c (installAll c s ds).1 ∧ (∀ k, k ∉ ds → (installAll c s ds).1.dev k = s.dev k) ∧
    ∀ a ∈ ds, ((installAll c s ds).1.dev a).status = if (s.dev a).proc = .alive then .enabled else .disabled
  | [], s, hi, _, _, _ => ⟨hi, fun _ _ => rfl, by simp⟩
  | d :: ds, s, hi, hk, hnd, hr => by
    have hi1 := install_inv hi d
    unfold installAll at hr ⊢
    have hsp := @install_spec c s hi d
    cases he : install c s d with
    | mk s1 r =>
      rw [he] at hr hi1 hsp
      cases r with
      | true => cases hr
      | false =>
        dsimp only at hr hi1 ⊢
        obtain ⟨h1, h2, _, h4⟩ := hsp rfl
        have hap := hi.wf.ap (hk d (by simp))
        rw [hap.2] at h1
        have hother : ∀ k, k ≠ d → s1.dev k = s.dev k := by
          intro k hkd
          rcases h1.other k hkd with e | ⟨m, _⟩
          · exact e.trans (by rw [reload, upd_ne s hkd])
          · simp at m
        obtain ⟨i1, i2, i3⟩ := installAps ds s1 hi1 (fun a ha => hk a (by simp [ha])) (List.nodup_cons.mp hnd).2 hr
        have hdn := (List.nodup_cons.mp hnd).1
        refine ⟨i1, ?_, ?_⟩
        · intro k hkn
          simp only [List.mem_cons, not_or] at hkn
          rw [i2 k hkn.2, hother k hkn.1]
        · intro a ha
          by_cases had : a = d
          · subst had
            rw [i2 a hdn]
            have hrd := (reload_inv hi a).wf.apReady (hk a (by simp))
            by_cases hp : (s.dev a).proc = .alive
            · rw [if_pos hp]; exact h2.mpr ⟨hp, hrd⟩
            · rw [if_neg hp]; exact h4.mpr hp
          · have ham : a ∈ ds := by simpa [had] using ha
            rw [i3 a ham, hother a had]

theorem installIfs {c : Cfg} : ∀ (ds : List Nat) (s : St), Inv c s → (∀ a ∈ ds, c.kind a = .iface) → ds.Nodup → (installAll c s ds).2 = false →
    (∀ k, k ∉ ds → ((installAll c s ds).1.dev k).status = (s.dev k).status ∧ (c.kind k = .iface → (installAll c s ds).1.dev k = s.dev k)) ∧
    ∀ i ∈ ds, (((installAll c s ds).1.dev i).status = .enabled ↔ (s.dev i).proc = .alive ∧ ∃ a, (s.dev i).conn = some a ∧ On c s a) ∧
      (((installAll c s ds).1.dev i).status = .waiting ↔ (s.dev i).proc = .alive ∧ ¬ ∃ a, (s.dev i).conn = some a ∧ On c s a) ∧
      (((installAll c s ds).1.dev i).status = .disabled ↔ (s.dev i).proc ≠ .alive)
  | [], s, hi, _, _, _ => ⟨fun _ _ => ⟨rfl, fun _ => rfl⟩, by simp⟩
  | d :: ds, s, hi, hk, hnd, hr => by
    have hi1 := install_inv hi d
    unfold installAll at hr ⊢
    have hsp := @install_spec c s hi d
    have hkd := hk d (by simp)
    cases he : install c s d with
    | mk s1 r =>
      rw [he] at hr hi1 hsp
      cases r with
      | true => cases hr
      | false =>
        dsimp only at hr hi1 ⊢
        obtain ⟨h1, h2, h3, h4⟩ := hsp rfl
        dsimp only at h1 h2 h3 h4
        have hother : ∀ k, k ≠ d → (s1.dev k).status = (s.dev k).status ∧ (c.kind k = .iface → s1.dev k = s.dev k) := by
          intro k hkd
          rcases h1.other k hkd with e | ⟨m, _, e⟩
          · rw [e, reload, upd_ne s hkd]; exact ⟨rfl, fun _ => rfl⟩
          · refine ⟨by rw [e, reload, upd_ne s hkd], fun hki => ?_⟩
            have := hi.wf.conn d k (by simpa using m)
            exact absurd hki (hi.wf.deps d k this).2
        obtain ⟨i2, i3⟩ := installIfs ds s1 hi1 (fun a ha => hk a (by simp [ha])) (List.nodup_cons.mp hnd).2 hr
        have hdn := (List.nodup_cons.mp hnd).1
        have hon : ∀ a, c.kind a ≠ .iface → (On c s1 a ↔ On c s a) := by
          intro a ha
          have : a ≠ d := fun e => ha (e ▸ hkd)
          simp only [On, (hother a this).1]
        refine ⟨?_, ?_⟩
        · intro k hkn
          simp only [List.mem_cons, not_or] at hkn
          have := i2 k hkn.2
          have h' := hother k hkn.1
          exact ⟨this.1.trans h'.1, fun hh => (this.2 hh).trans (h'.2 hh)⟩
        · intro a ha
          by_cases had : a = d
          · subst had
            rw [(i2 a hdn).1]
            have hrd : Ready c (reload s a) a ↔ ∃ b, (s.dev a).conn = some b ∧ On c s b := by
              have hdev : (reload s a).dev a = { s.dev a with status := .disabled, toggle := false, deps := (s.dev a).conn.toList } := by rw [reload, upd_self]
              unfold Ready
              rw [hdev]
              dsimp only
              cases hc : (s.dev a).conn with
              | none => simp [hkd]
              | some b =>
                have hba : b ≠ a := by
                  intro e
                  have := (hi.wf.deps a b (hi.wf.conn a b hc)).2
                  rw [e] at this; exact this hkd
                simp [hkd, On, reload, upd_ne s hba]
            rw [← hrd]
            exact ⟨h2, h3, h4⟩
          · have ham : a ∈ ds := by simpa [had] using ha
            have := i3 a ham
            have hex : (∃ b, (s.dev a).conn = some b ∧ On c s1 b) ↔ ∃ b, (s.dev a).conn = some b ∧ On c s b := by
              constructor
              · rintro ⟨b, h, h'⟩; exact ⟨b, h, (hon b (hi.wf.deps a b (hi.wf.conn a b h)).2).mp h'⟩
              · rintro ⟨b, h, h'⟩; exact ⟨b, h, (hon b (hi.wf.deps a b (hi.wf.conn a b h)).2).mpr h'⟩
            rw [(hother a had).2 (hk a ha), hex] at this
            exact this

theorem installAll_append {c : Cfg} : ∀ (l l' : List Nat) (s : St), (installAll c s (l ++ l')).2 = false →
    (installAll c s l).2 = false ∧ installAll c s (l ++ l') = installAll c (installAll c s l).1 l'
  | [], _, _, _ => ⟨rfl, rfl⟩
  | d :: l, l', s, h => by
    simp only [List.cons_append, installAll] at h ⊢
    cases he : install c s d with
    | mk s1 r =>
      rw [he] at h
      cases r with
      | true => cases h
      | false => exact installAll_append l l' s1 h

/-- A new manager that loads all devices (access points first) finds out what runs: an access point is enabled when its process runs, and
disabled otherwise; an interface is enabled when its process runs and the access point to which it is connected is remote or runs, waiting when
only the former holds, and disabled otherwise. -/
theorem C50_restart (c : Cfg) (h : List Ev) (aps ifs : List Nat) (ha : ∀ a ∈ aps, c.kind a ≠ .iface) (hi : ∀ i ∈ ifs, c.kind i = .iface)
    (hn : aps.Nodup) (hn' : ifs.Nodup)
    (hall : ∀ i ∈ ifs, ∀ a, ((exec c .init h).dev i).conn = some a → a ∈ aps)
    (hr : (step c (exec c .init h) (.restart aps ifs)).2 = false) :
    let s := exec c .init h
    let s' := (step c s (.restart aps ifs)).1
    (∀ a ∈ aps, (s'.dev a).status = if (s.dev a).proc = .alive then .enabled else .disabled) ∧
    (∀ i ∈ ifs,
      ((s'.dev i).status = .enabled ↔ (s.dev i).proc = .alive ∧ ∃ a, (s.dev i).conn = some a ∧ (c.kind a = .ap true ∨ (s.dev a).proc = .alive)) ∧
      ((s'.dev i).status = .waiting ↔ (s.dev i).proc = .alive ∧ ¬ ∃ a, (s.dev i).conn = some a ∧ (c.kind a = .ap true ∨ (s.dev a).proc = .alive)) ∧
      ((s'.dev i).status = .disabled ↔ (s.dev i).proc ≠ .alive)) := by
  have hinv := exec_inv h _ (Inv.init c)
  generalize exec c .init h = s at *
  simp only [step] at hr ⊢
  obtain ⟨h1, h2⟩ := installAll_append aps ifs s hr
  rw [h2] at hr ⊢
  obtain ⟨a1, a2, a3⟩ := installAps aps s hinv ha hn h1
  obtain ⟨b1, b2⟩ := installIfs ifs _ a1 hi hn' hr
  have hdis : ∀ i ∈ ifs, i ∉ aps := fun i hh hh' => ha i hh' (hi i hh)
  refine ⟨fun a haa => ?_, fun i hii => ?_⟩
  · rw [(b1 a (fun hh => ha a haa (hi a hh))).1, a3 a haa]
  · have := b2 i hii
    rw [a2 i (hdis i hii)] at this
    have hex : (∃ a, (s.dev i).conn = some a ∧ On c (installAll c s aps).1 a) ↔
        ∃ a, (s.dev i).conn = some a ∧ (c.kind a = .ap true ∨ (s.dev a).proc = .alive) := by
      have hone : ∀ a, (s.dev i).conn = some a → (On c (installAll c s aps).1 a ↔ (c.kind a = .ap true ∨ (s.dev a).proc = .alive)) := by
        intro a hca
        unfold On
        rw [a3 a (hall i hii a hca)]
        by_cases hp : (s.dev a).proc = .alive <;> simp [hp]
      constructor
      · rintro ⟨a, x, y⟩; exact ⟨a, x, (hone a x).mp y⟩
      · rintro ⟨a, x, y⟩; exact ⟨a, x, (hone a x).mpr y⟩
    rw [hex] at this
    exact this

/-! ## What does not hold -/

/-- Devices 0 and 1 are access points, 1 is remote; the others are interfaces. -/
def exCfg : Cfg := ⟨fun k => if k = 0 then .ap false else if k = 1 then .ap true else .iface, fun _ => .up, fun _ => true⟩

/-- Enabling interface 2 enables its access point too. -/
example : let s := exec exCfg .init [.connect 2 0, .enable 2]
    (s.dev 2).status = .enabled ∧ (s.dev 0).status = .enabled ∧ (s.dev 2).proc = .alive := by decide +kernel

/-- The state after a crash and a restart. -/
example : let s := exec exCfg .init [.connect 2 0, .connect 3 1, .enable 2, .enable 3, .died 0, .restart [0, 1] [2, 3]]
    (s.dev 0).status = .disabled ∧ (s.dev 2).status = .waiting ∧ (s.dev 3).status = .enabled := by decide +kernel

/-- A failed launch. -/
example : let s := exec { exCfg with launch := fun n => if n = 0 then .up else .down } .init [.connect 2 0, .enable 2]
    (s.dev 2).status = .abnormal ∧ (s.dev 0).status = .enabled := by decide +kernel

/-- An interface that is not connected waits. -/
example : ((exec exCfg .init [.enable 2]).dev 2).status = .waiting := by decide +kernel

example : let s := exec exCfg .init [.connect 2 1, .enable 2, .disable 2]
    (s.dev 2).status = .disabled ∧ (s.dev 2).proc = .gone := by decide +kernel

/-- `enable` on a waiting device, whose dependencies can be met by now, disables it. -/
theorem C50_false_waiting : ∃ (c : Cfg) (h : List Ev) (d : Nat), (∀ n, c.launch n = .up) ∧ ((exec c .init h).dev d).status = .waiting ∧
    ((exec c .init h).dev d).conn ≠ none ∧ ((enable c (exec c .init h) d).1.dev d).status = .disabled :=
  ⟨exCfg, [.enable 2, .connect 2 1], 2, fun _ => rfl, by decide +kernel⟩

/-- `disable` on a waiting device changes nothing: it stays waiting. -/
theorem C50_false_disable_waiting : ∃ (c : Cfg) (h : List Ev) (d : Nat), ((exec c .init h).dev d).status = .waiting ∧
    ((disable c (exec c .init h) d).1.dev d).status = .waiting :=
  ⟨exCfg, [.enable 2], 2, by decide +kernel⟩

/-- Disabling an access point leaves the interfaces connected to it enabled: no device reacts to the alert that is posted. -/
theorem C50_false_dependants : (∃ (c : Cfg) (h : List Ev) (d : Nat), ((exec c .init h).dev d).status = .enabled ∧ ¬ Ready c (exec c .init h) d) ∧
    ∀ (s : St) (me d : Nat), reacts s me d posted = false :=
  ⟨⟨exCfg, [.connect 2 0, .enable 2, .disable 0], 2, by decide +kernel, fun h => by
      have := h.2 0 (by decide +kernel)
      revert this
      unfold On
      decide +kernel⟩, fun s me d => by simp [reacts, posted]⟩

/-- A device whose process crashed cannot be disabled: the call fails and the device stays enabled. -/
theorem C50_false_crashed : ∃ (c : Cfg) (h : List Ev) (d : Nat), ((exec c .init h).dev d).proc = .dead ∧ ((exec c .init h).dev d).status = .enabled ∧
    (disable c (exec c .init h) d).2 = true ∧ ((disable c (exec c .init h) d).1.dev d).status = .enabled :=
  ⟨exCfg, [.connect 2 1, .enable 2, .died 2], 2, by decide +kernel⟩

end Verif.Device
