import Verif.Spec.Device
namespace Verif.Device

/-- Only dependencies of interfaces, and these are access points. -/
structure Wf (c : Cfg) (s : St) : Prop where
  deps : ∀ i, ∀ a ∈ (s.dev i).deps, c.kind i = .iface ∧ c.kind a ≠ .iface
  conn : ∀ i a, (s.dev i).conn = some a → a ∈ (s.dev i).deps

theorem Wf.self {c s} (h : Wf c s) (d : Nat) : d ∉ (s.dev d).deps := fun hd => (h.deps d d hd).2 (h.deps d d hd).1

/-- Nothing happened except that the run files of some devices of `L` that are not enabled were removed. -/
def Soft (L : List Nat) (s s' : St) : Prop :=
  ∀ k, s'.dev k = s.dev k ∨ (k ∈ L ∧ (s.dev k).status ≠ .enabled ∧ s'.dev k = { s.dev k with proc := .gone })

theorem Soft.refl (L : List Nat) (s : St) : Soft L s s := fun _ => .inl rfl

theorem Soft.trans {L s s' s''} (h : Soft L s s') (h' : Soft L s' s'') : Soft L s s'' := by
  intro k
  rcases h k with e | ⟨m, n, e⟩ <;> rcases h' k with e' | ⟨m', n', e'⟩
  · exact .inl (e'.trans e)
  · exact .inr ⟨m', by rwa [e] at n', by rw [e', e]⟩
  · exact .inr ⟨m, n, by rw [e', e]⟩
  · exact .inr ⟨m, n, by rw [e', e]⟩

theorem Soft.mono {L L' s s'} (h : Soft L s s') (hl : ∀ k ∈ L, k ∈ L') : Soft L' s s' := fun k => (h k).imp id (fun ⟨m, r⟩ => ⟨hl k m, r⟩)

theorem Soft.status {L s s'} (h : Soft L s s') (k : Nat) : (s'.dev k).status = (s.dev k).status := by rcases h k with e | ⟨_, _, e⟩ <;> rw [e]
theorem Soft.deps {L s s'} (h : Soft L s s') (k : Nat) : (s'.dev k).deps = (s.dev k).deps := by rcases h k with e | ⟨_, _, e⟩ <;> rw [e]
theorem Soft.conn {L s s'} (h : Soft L s s') (k : Nat) : (s'.dev k).conn = (s.dev k).conn := by rcases h k with e | ⟨_, _, e⟩ <;> rw [e]
theorem Soft.toggle {L s s'} (h : Soft L s s') (k : Nat) : (s'.dev k).toggle = (s.dev k).toggle := by rcases h k with e | ⟨_, _, e⟩ <;> rw [e]
theorem Soft.same {L s s'} (h : Soft L s s') {k : Nat} (hk : k ∉ L ∨ (s.dev k).status = .enabled) : s'.dev k = s.dev k := by
  rcases h k with e | ⟨m, n, e⟩
  · exact e
  · rcases hk with hk | hk
    · exact absurd m hk
    · exact absurd hk n
theorem Soft.on {L s s'} (h : Soft L s s') (c : Cfg) (k : Nat) : On c s' k ↔ On c s k := by simp only [On, h.status]
theorem Soft.ready {L s s'} (h : Soft L s s') (c : Cfg) (k : Nat) : Ready c s' k ↔ Ready c s k := by simp only [Ready, h.conn, h.deps, h.on c]
theorem Soft.wf {L s s' c} (h : Soft L s s') (hw : Wf c s) : Wf c s' :=
  ⟨fun i a ha => hw.deps i a (h.deps i ▸ ha), fun i a ha => by rw [h.deps i]; exact hw.conn i a (h.conn i ▸ ha)⟩

theorem enabled_spec (c : Cfg) (s : St) (d : Nat) : Soft [d] s (enabled c s d).1 ∧ ((enabled c s d).2 = true ↔ On c s d) := by
  unfold enabled
  split
  · next h => exact ⟨.refl _ _, by simp [On, h]⟩
  · next h =>
    refine ⟨?_, by simp [On, h]⟩
    intro k
    simp only [cleanup, St.upd]
    by_cases hk : k = d
    · subst hk
      simp only [if_true]
      split
      · exact .inl rfl
      · next h2 => exact .inr ⟨by simp, h2, rfl⟩
    · simp [hk]

theorem depsLoop_spec (c : Cfg) : ∀ (ds : List Nat) (s : St), Soft ds s (depsLoop c s ds).1 ∧ ((depsLoop c s ds).2 = true ↔ ∀ a ∈ ds, On c s a)
  | [], s => ⟨.refl _ _, by simp [depsLoop]⟩
  | d :: ds, s => by
    obtain ⟨h1, h2⟩ := enabled_spec c s d
    obtain ⟨h3, h4⟩ := depsLoop_spec c ds (enabled c s d).1
    have h5 : Soft (d :: ds) s (enabled c s d).1 := h1.mono (by simp)
    unfold depsLoop
    cases hb : enabled c s d with
    | mk s' b =>
      rw [hb] at h1 h2 h3 h4 h5
      cases b with
      | true =>
        dsimp only at h1 h2 h3 h4 h5 ⊢
        refine ⟨h5.trans (h3.mono (fun k hk => by simp [hk])), ?_⟩
        rw [h4]
        simp only [h1.on c, List.forall_mem_cons]
        simp [h2.mp rfl]
      | false =>
        dsimp only at h1 h2 h5 ⊢
        refine ⟨h5, ?_⟩
        simp only [List.forall_mem_cons]
        constructor
        · intro h; cases h
        · intro h; exact absurd (h2.mpr h.1) (by simp)

theorem depsEnabled_spec (c : Cfg) (s : St) (d : Nat) :
    Soft (s.dev d).deps s (dependenciesEnabled c s d).1 ∧ ((dependenciesEnabled c s d).2 = true ↔ Ready c s d) := by
  unfold dependenciesEnabled
  split
  · next h => exact ⟨.refl _ _, by simp [Ready, h.1, h.2]⟩
  · next h =>
    obtain ⟨h1, h2⟩ := depsLoop_spec c (s.dev d).deps s
    refine ⟨h1, h2.trans ?_⟩
    rw [Ready]
    constructor
    · exact fun x => ⟨fun hk hn => h ⟨hk, hn⟩, x⟩
    · exact fun x => x.2

theorem upd_self (s : St) (d : Nat) (f : Dev → Dev) : (s.upd d f).dev d = f (s.dev d) := by simp [St.upd]
theorem upd_ne (s : St) {d k : Nat} (h : k ≠ d) (f : Dev → Dev) : (s.upd d f).dev k = s.dev k := by simp [St.upd, h]

/-- What a step of device `d` does to the others, and to the configuration of `d` itself. -/
structure Local (d : Nat) (L : List Nat) (s s' : St) : Prop where
  other : ∀ k, k ≠ d → s'.dev k = s.dev k ∨ (k ∈ L ∧ (s.dev k).status ≠ .enabled ∧ s'.dev k = { s.dev k with proc := .gone })
  deps : (s'.dev d).deps = (s.dev d).deps
  conn : (s'.dev d).conn = (s.dev d).conn

theorem Local.otherStatus {d L s s'} (h : Local d L s s') {k : Nat} (hk : k ≠ d) : (s'.dev k).status = (s.dev k).status := by
  rcases h.other k hk with e | ⟨_, _, e⟩ <;> rw [e]
theorem Local.otherDeps {d L s s'} (h : Local d L s s') (k : Nat) : (s'.dev k).deps = (s.dev k).deps := by
  by_cases hk : k = d
  · rw [hk, h.deps]
  · rcases h.other k hk with e | ⟨_, _, e⟩ <;> rw [e]
theorem Local.otherConn {d L s s'} (h : Local d L s s') (k : Nat) : (s'.dev k).conn = (s.dev k).conn := by
  by_cases hk : k = d
  · rw [hk, h.conn]
  · rcases h.other k hk with e | ⟨_, _, e⟩ <;> rw [e]
theorem Local.wf {c d L s s'} (h : Local d L s s') (hw : Wf c s) : Wf c s' :=
  ⟨fun i a ha => hw.deps i a (h.otherDeps i ▸ ha), fun i a ha => by rw [h.otherDeps i]; exact hw.conn i a (h.otherConn i ▸ ha)⟩
theorem Local.ready {c d L s s'} (h : Local d L s s') (hd : d ∉ (s.dev d).deps) : Ready c s' d ↔ Ready c s d := by
  simp only [Ready, h.conn, h.deps, On]
  constructor
  · rintro ⟨h1, h2⟩
    exact ⟨h1, fun a ha => by rw [← h.otherStatus (fun e => hd (e ▸ ha) : a ≠ d)]; exact h2 a ha⟩
  · rintro ⟨h1, h2⟩
    exact ⟨h1, fun a ha => by rw [h.otherStatus (fun e => hd (e ▸ ha) : a ≠ d)]; exact h2 a ha⟩
theorem Local.refl (d : Nat) (L : List Nat) (s : St) : Local d L s s := ⟨fun _ _ => .inl rfl, rfl, rfl⟩
theorem Local.trans {d L s s' s''} (h : Local d L s s') (h' : Local d L s' s'') : Local d L s s'' := by
  refine ⟨?_, h'.deps.trans h.deps, h'.conn.trans h.conn⟩
  intro k hk
  rcases h.other k hk with e | ⟨m, n, e⟩ <;> rcases h'.other k hk with e' | ⟨m', n', e'⟩
  · exact .inl (e'.trans e)
  · exact .inr ⟨m', by rwa [e] at n', by rw [e', e]⟩
  · exact .inr ⟨m, n, by rw [e', e]⟩
  · exact .inr ⟨m, n, by rw [e', e]⟩
theorem Soft.local {L s s'} (h : Soft L s s') (d : Nat) : Local d L s s' := ⟨fun k _ => h k, h.deps d, h.conn d⟩
theorem local_upd (s : St) (d : Nat) (L : List Nat) (f : Dev → Dev) (h1 : ∀ x, (f x).deps = x.deps) (h2 : ∀ x, (f x).conn = x.conn) : Local d L s (s.upd d f) :=
  ⟨fun k hk => .inl (upd_ne s hk f), by rw [upd_self, h1], by rw [upd_self, h2]⟩

/-- What `_shutdown` does. -/
theorem shutdown_spec (c : Cfg) (s : St) (d : Nat) (L : List Nat) : Local d L s (shutdown c s d).1 ∧
    ((shutdown c s d).1.dev d).status = (s.dev d).status ∧
    ((shutdown c s d).2 = false → ((shutdown c s d).1.dev d).proc = .gone) := by
  unfold shutdown
  split
  · next h => exact ⟨.refl _ _ _, rfl, fun _ => h⟩
  · exact ⟨.refl _ _ _, rfl, by simp⟩
  · split
    · exact ⟨⟨fun k hk => .inl (by simp [St.upd, hk]), by simp [St.upd], by simp [St.upd]⟩, by simp [St.upd], by simp [St.upd]⟩
    · exact ⟨⟨fun _ _ => .inl rfl, rfl, rfl⟩, rfl, by simp⟩

theorem spawn_spec (c : Cfg) (s : St) (d : Nat) (L : List Nat) : Local d L s (spawn c s d).1 ∧
    ((spawn c s d).1.dev d).status = (s.dev d).status ∧ ((spawn c s d).2 = false → ((spawn c s d).1.dev d).proc ≠ .dead) := by
  unfold spawn
  split
  · exact ⟨⟨fun k hk => .inl (by simp [St.upd, hk]), by simp [St.upd], by simp [St.upd]⟩, by simp [St.upd], by simp [St.upd]⟩
  · exact ⟨⟨fun k hk => .inl (by simp [St.upd, hk]), by simp [St.upd], by simp [St.upd]⟩, by simp [St.upd], by simp [St.upd]⟩
  · next died _ => cases died <;> exact ⟨⟨fun k hk => .inl (by simp [St.upd, hk]), by simp [St.upd], by simp [St.upd]⟩, by simp [St.upd], by simp⟩

/-- What `_launch` does when the dependencies are met. -/
theorem launch_spec {c : Cfg} {s : St} (hw : Wf c s) (d : Nat) : Local d (s.dev d).deps s (launch c s d).1 ∧
    ((launch c s d).1.dev d).status = (s.dev d).status ∧
    (Ready c s d → (launch c s d).2 = false → ((launch c s d).1.dev d).proc ≠ .dead) := by
  obtain ⟨h1, h2⟩ := depsEnabled_spec c s d
  unfold launch
  cases hb : dependenciesEnabled c s d with
  | mk s' b =>
    rw [hb] at h1 h2
    dsimp only at h1 h2
    cases b with
    | false => exact ⟨h1.local d, h1.status d, fun hr => absurd (h2.mpr hr) (by simp)⟩
    | true =>
      dsimp only
      split
      · exact ⟨h1.local d, h1.status d, by simp⟩
      · obtain ⟨i1, i2, i3⟩ := spawn_spec c s' d (s.dev d).deps
        exact ⟨(h1.local d).trans i1, i2.trans (h1.status d), fun _ => i3⟩
      · split
        · exact ⟨h1.local d, h1.status d, by simp⟩
        · next a ha =>
          obtain ⟨j1, j2⟩ := enabled_spec c s' a
          have ham : a ∈ (s.dev d).deps := hw.conn d a (h1.conn d ▸ ha)
          cases he : enabled c s' a with
          | mk s'' b =>
            rw [he] at j1 j2
            dsimp only at j1 j2
            have j3 : Local d (s.dev d).deps s s'' := (h1.local d).trans ((j1.mono (by simpa using ham)).local d)
            have j4 : (s''.dev d).status = (s.dev d).status := (j1.status d).trans (h1.status d)
            cases b with
            | false => exact ⟨j3, j4, by simp⟩
            | true =>
              obtain ⟨i1, i2, i3⟩ := spawn_spec c s'' d (s.dev d).deps
              exact ⟨j3.trans i1, i2.trans j4, fun _ => i3⟩

theorem finish_local (s : St) (d : Nat) (L : List Nat) (st : Status) : Local d L s (finish s d st).1 := ⟨fun k hk => .inl (by simp [finish, St.upd, hk]), by simp [finish, St.upd], by simp [finish, St.upd]⟩
theorem finish_status (s : St) (d : Nat) (st : Status) : ((finish s d st).1.dev d).status = st := by simp [finish, upd_self]
theorem finish_proc (s : St) (d : Nat) (st : Status) : ((finish s d st).1.dev d).proc = (s.dev d).proc := by simp [finish, upd_self]

/-- The result of the state machine for the device itself. -/
structure Result (c : Cfg) (d : Nat) (s s' : St) (raised : Bool) : Prop where
  loc : Local d (s.dev d).deps s s'
  stays : raised = true → (s'.dev d).status = (s.dev d).status
  on : raised = false → (s'.dev d).status = .enabled → Ready c s' d ∧ (s'.dev d).proc = .alive
  off : raised = false → (s'.dev d).status = .disabled → (s.dev d).status = .enabled → (s.dev d).toggle = true → (s'.dev d).proc = .gone

theorem finish_off {c : Cfg} {d : Nat} {s s' : St} (hl : Local d (s.dev d).deps s s') {st : Status} (h : st ≠ .enabled) (h' : st = .disabled → (s.dev d).status = .enabled → (s.dev d).toggle = true → (s'.dev d).proc = .gone) :
    Result c d s (finish s' d st).1 (finish s' d st).2 :=
  ⟨hl.trans (finish_local _ _ _ _), by simp [finish], fun _ hs => absurd (by rwa [finish_status] at hs) h,
   fun _ hs => by rw [finish_status] at hs; rw [finish_proc]; exact h' hs⟩

theorem finish_on {c : Cfg} {d : Nat} {s s' : St} (hw : Wf c s) (hl : Local d (s.dev d).deps s s') (hr : Ready c s d) (hp : (s'.dev d).proc = .alive) :
    Result c d s (finish s' d .enabled).1 (finish s' d .enabled).2 :=
  ⟨hl.trans (finish_local _ _ _ _), by simp [finish],
   fun _ _ => ⟨((hl.trans (finish_local s' d (s.dev d).deps .enabled)).ready (hw.self d)).mpr hr, by rw [finish_proc]; exact hp⟩,
   fun _ hs => by rw [finish_status] at hs; cases hs⟩

theorem andThen_spec {c : Cfg} {d : Nat} {s s' : St} (hl : Local d (s.dev d).deps s s') (hs : (s'.dev d).status = (s.dev d).status) {st : Status} (h : st ≠ .enabled) :
    Result c d s (andThen d st (shutdown c s' d)).1 (andThen d st (shutdown c s' d)).2 := by
  obtain ⟨h1, h2, h3⟩ := shutdown_spec c s' d (s.dev d).deps
  cases hb : shutdown c s' d with
  | mk s'' b =>
    rw [hb] at h1 h2 h3
    cases b with
    | true => exact ⟨hl.trans h1, fun _ => h2.trans hs, by simp [andThen], by simp [andThen]⟩
    | false => exact finish_off (hl.trans h1) h (fun _ _ _ => h3 rfl)

theorem afterLaunch_spec {c : Cfg} {d : Nat} {s s' : St} (hw : Wf c s) (hl : Soft (s.dev d).deps s s') (hr : Ready c s d) (hn : (s.dev d).status ≠ .enabled) :
    Result c d s (afterLaunch d (launch c s' d)).1 (afterLaunch d (launch c s' d)).2 := by
  obtain ⟨h1, h2, h3⟩ := launch_spec (hl.wf hw) d
  rw [hl.deps] at h1
  cases hb : launch c s' d with
  | mk s'' b =>
    rw [hb] at h1 h2 h3
    dsimp only at h1 h2 h3
    cases b with
    | true => exact ⟨(hl.local d).trans h1, fun _ => h2.trans (hl.status d), by simp [afterLaunch], by simp [afterLaunch]⟩
    | false =>
      show Result c d s (finish s'' d _).1 (finish s'' d _).2
      by_cases ha : (s''.dev d).proc = .alive
      · rw [show running s'' d = true by simp [running, ha]]
        exact finish_on hw ((hl.local d).trans h1) hr ha
      · rw [show running s'' d = false by simp [running, ha]]
        exact finish_off ((hl.local d).trans h1) (by simp) (fun _ h => absurd h hn)

theorem branches_spec {c : Cfg} {s : St} (hw : Wf c s) (d : Nat) : Result c d s (branches c s d).1 (branches c s d).2 := by
  obtain ⟨h1, h2⟩ := depsEnabled_spec c s d
  have hsame : (dependenciesEnabled c s d).1.dev d = s.dev d := h1.same (.inl (hw.self d))
  have hrest : (s.dev d).status ≠ .enabled → ∀ (s' : St), dependenciesEnabled c s d = (s', true) → Result c d s (afterLaunch d (launch c s' d)).1 (afterLaunch d (launch c s' d)).2 := by
    intro hn s' hb
    rw [hb] at h1 h2
    exact afterLaunch_spec hw h1 (h2.mp rfl) hn
  unfold branches
  split
  · next hst =>
    split
    · exact andThen_spec (.refl _ _ _) rfl (by simp)
    · next ht =>
      split
      · exact finish_off (.refl _ _ _) (by simp) (fun _ _ h => absurd h ht)
      · next hrun =>
        have ha : (s.dev d).proc = .alive := by simpa [running] using hrun
        cases hb : dependenciesEnabled c s d with
        | mk s' b =>
          rw [hb] at h1 h2 hsame
          dsimp only at h1 h2 hsame
          cases b with
          | true => exact finish_on hw (h1.local d) (h2.mp rfl) (by rw [hsame]; exact ha)
          | false => exact andThen_spec (h1.local d) (h1.status d) (by simp)
  · next hst =>
    split
    · exact finish_off (.refl _ _ _) (by simp) (fun _ h => by rw [hst] at h; cases h)
    · cases hb : dependenciesEnabled c s d with
      | mk s' b =>
        cases b with
        | true => exact hrest (by rw [hst]; simp) s' hb
        | false => rw [hb] at h1; exact finish_off (h1.local d) (by simp) (by simp)
  · next hst1 hst2 =>
    have hne : (s.dev d).status ≠ .enabled := hst1
    split
    · next hrun =>
      have ha : (s.dev d).proc = .alive := by simpa [running] using hrun
      cases hb : dependenciesEnabled c s d with
      | mk s' b =>
        rw [hb] at h1 h2 hsame
        dsimp only at h1 h2 hsame
        cases b with
        | true => exact finish_on hw (h1.local d) (h2.mp rfl) (by rw [hsame]; exact ha)
        | false => exact andThen_spec (h1.local d) (h1.status d) (by simp)
    · split
      · cases hb : dependenciesEnabled c s d with
        | mk s' b =>
          cases b with
          | true => exact hrest hne s' hb
          | false => rw [hb] at h1; exact finish_off (h1.local d) (by simp) (by simp)
      · exact finish_off (.refl _ _ _) (by simp) (fun _ h => absurd h hne)

/-! ## Enabling -/

/-- Access points have no dependencies. -/
theorem Wf.ap {c s} (h : Wf c s) {d : Nat} (hk : c.kind d ≠ .iface) : (s.dev d).deps = [] ∧ (s.dev d).conn = none := by
  have h1 : (s.dev d).deps = [] := List.eq_nil_iff_forall_not_mem.mpr fun a ha => hk (h.deps d a ha).1
  refine ⟨h1, ?_⟩
  cases hc : (s.dev d).conn with
  | none => rfl
  | some a => have := h.conn d a hc; rw [h1] at this; cases this

theorem Wf.apReady {c s} (h : Wf c s) {d : Nat} (hk : c.kind d ≠ .iface) : Ready c s d :=
  ⟨fun e => absurd e hk, by rw [(h.ap hk).1]; simp⟩

/-- Devices of `L` may have been enabled; those that were enabled before are as they were. -/
structure Up (L : List Nat) (s s' : St) : Prop where
  deps : ∀ k, (s'.dev k).deps = (s.dev k).deps
  conn : ∀ k, (s'.dev k).conn = (s.dev k).conn
  out : ∀ k, k ∉ L → s'.dev k = s.dev k
  same : ∀ k, (s.dev k).status = .enabled → s'.dev k = s.dev k
  fresh : ∀ k, (s.dev k).status ≠ .enabled → (s'.dev k).status = .enabled → (s'.dev k).proc = .alive

theorem Up.refl (L : List Nat) (s : St) : Up L s s := ⟨fun _ => rfl, fun _ => rfl, fun _ _ => rfl, fun _ _ => rfl, fun _ h h' => absurd h' h⟩
theorem Up.mono {L L' s s'} (h : Up L s s') (hl : ∀ k ∈ L, k ∈ L') : Up L' s s' :=
  ⟨h.deps, h.conn, fun k hk => h.out k (fun x => hk (hl k x)), h.same, h.fresh⟩
theorem Up.trans {L s s' s''} (h : Up L s s') (h' : Up L s' s'') : Up L s s'' where
  deps k := (h'.deps k).trans (h.deps k)
  conn k := (h'.conn k).trans (h.conn k)
  out k hk := (h'.out k hk).trans (h.out k hk)
  same k hk := (h'.same k (by rw [h.same k hk]; exact hk)).trans (h.same k hk)
  fresh k hk hk' := by
    by_cases he : (s'.dev k).status = .enabled
    · rw [h'.same k he]; exact h.fresh k hk he
    · exact h'.fresh k he hk'
theorem Up.wf {c L s s'} (h : Up L s s') (hw : Wf c s) : Wf c s' :=
  ⟨fun i a ha => hw.deps i a (h.deps i ▸ ha), fun i a ha => by rw [h.deps i]; exact hw.conn i a (h.conn i ▸ ha)⟩
theorem Soft.up {L s s'} (h : Soft L s s') : Up L s s' :=
  ⟨h.deps, h.conn, fun k hk => h.same (.inl hk), fun k hk => h.same (.inr hk), fun k hk hk' => absurd ((h.status k) ▸ hk') hk⟩

/-- A device whose status is not `enabled` and whose machine ran. -/
theorem Result.up {c d s s' r} (h : Result c d s s' r) (hn : (s.dev d).status ≠ .enabled) : Up (d :: (s.dev d).deps) s s' where
  deps := h.loc.otherDeps
  conn := h.loc.otherConn
  out k hk := by
    simp only [List.mem_cons, not_or] at hk
    rcases h.loc.other k hk.1 with e | ⟨m, _⟩
    · exact e
    · exact absurd m hk.2
  same k hk := by
    have hkd : k ≠ d := fun e => hn (e ▸ hk)
    rcases h.loc.other k hkd with e | ⟨_, n, _⟩
    · exact e
    · exact absurd hk n
  fresh k hk hk' := by
    by_cases hkd : k = d
    · subst hkd
      cases r with
      | true => exact absurd (h.stays rfl ▸ hk') hk
      | false => exact (h.on rfl hk').2
    · rw [h.loc.otherStatus hkd] at hk'; exact absurd hk' hk

/-- The machine is started for a device whose toggle was set. -/
theorem toggled_up {s : St} {d : Nat} (hn : (s.dev d).status ≠ .enabled) : Up [d] s (s.upd d fun x => { x with toggle := true }) := by
  refine ⟨?_, ?_, ?_, ?_, ?_⟩
  · intro k; simp only [St.upd]; split <;> rfl
  · intro k; simp only [St.upd]; split <;> rfl
  · intro k hk; simp only [List.mem_singleton] at hk; exact upd_ne s hk _
  · intro k hk; exact upd_ne s (by intro e; subst e; exact hn hk) _
  · intro k hk hk'
    simp only [St.upd] at hk'
    split at hk' <;> exact absurd hk' hk

theorem enableAp_up {c : Cfg} {s : St} (hw : Wf c s) {d : Nat} (hk : c.kind d ≠ .iface) : Up [d] s (enableAp c s d).1 := by
  unfold enableAp
  split
  · exact .refl _ _
  · unfold enableWith
    obtain ⟨h1, h2⟩ := enabled_spec c s d
    cases he : enabled c s d with
    | mk s1 b =>
      rw [he] at h1 h2
      dsimp only at h1 h2
      cases b with
      | true => exact h1.up
      | false =>
        have hn : (s1.dev d).status ≠ .enabled := by
          rw [h1.status]; intro e; exact absurd (h2.mpr (.inr e)) (by simp)
        have hw1 := (toggled_up hn).wf (h1.up.wf hw)
        have hd := (hw1.ap hk).1
        have hu := toggled_up hn
        show Up [d] s (machine c _ (s1.upd d fun x => { x with toggle := true }) d).1
        generalize hs2 : (s1.upd d fun x => { x with toggle := true }) = s2 at hw1 hd hu ⊢
        have hn2 : (s2.dev d).status ≠ .enabled := by rw [← hs2, upd_self]; exact hn
        have hm : machine c (fun s _ => (s, false)) s2 d = branches c s2 d := by
          unfold machine
          split
          · rw [hd]; rfl
          · rfl
        rw [hm]
        have := (branches_spec hw1 d).up hn2
        rw [hd] at this
        exact (h1.up.trans hu).trans this

theorem enableDeps_up {c : Cfg} : ∀ (ds : List Nat) (s : St), Wf c s → (∀ a ∈ ds, c.kind a ≠ .iface) → Up ds s (enableDeps c (enableAp c) s ds).1
  | [], s, _, _ => .refl _ _
  | d :: ds, s, hw, hk => by
    obtain ⟨h1, h2⟩ := enabled_spec c s d
    unfold enableDeps
    cases he : enabled c s d with
    | mk s1 b =>
      rw [he] at h1 h2
      dsimp only at h1 h2
      have hu : Up (d :: ds) s s1 := h1.up.mono (by simp)
      cases b with
      | true => exact hu.trans ((enableDeps_up ds s1 (hu.wf hw) (fun a ha => hk a (by simp [ha]))).mono (fun k hk => by simp [hk]))
      | false =>
        dsimp only
        have h3 := enableAp_up (hu.wf hw) (hk d (by simp))
        have h4 : Up (d :: ds) s (enableAp c s1 d).1 := hu.trans (h3.mono (by simp))
        cases ha : enableAp c s1 d with
        | mk s2 r =>
          rw [ha] at h4
          cases r with
          | true => exact h4
          | false => exact h4.trans ((enableDeps_up ds s2 (h4.wf hw) (fun a ha => hk a (by simp [ha]))).mono (fun k hk => by simp [hk]))

/-- What `machine` does for a device that is not enabled. -/
theorem machine_off {c : Cfg} {s : St} (hw : Wf c s) {d : Nat} (hn : (s.dev d).status ≠ .enabled) :
    Up (d :: (s.dev d).deps) s (machine c (enableAp c) s d).1 ∧ Wf c (machine c (enableAp c) s d).1 ∧
    (((machine c (enableAp c) s d).1.dev d).status = .enabled → Ready c (machine c (enableAp c) s d).1 d) := by
  have key : ∀ s1, Up (s.dev d).deps s s1 → Up (d :: (s.dev d).deps) s (branches c s1 d).1 ∧ Wf c (branches c s1 d).1 ∧
      (((branches c s1 d).1.dev d).status = .enabled → Ready c (branches c s1 d).1 d) := by
    intro s1 hu
    have hw1 := hu.wf hw
    have hsame := hu.out d (hw.self d)
    have hr := branches_spec hw1 d
    have hup := hr.up (by rw [hsame]; exact hn)
    rw [hsame] at hup
    have := (hu.mono (fun k hk => by simp [hk]) : Up (d :: (s.dev d).deps) s s1).trans hup
    refine ⟨this, this.wf hw, fun h2 => ?_⟩
    cases h1 : (branches c s1 d).2 with
    | true => rw [hr.stays h1, hsame] at h2; exact absurd h2 hn
    | false => exact (hr.on h1 h2).1
  unfold machine
  split
  · have hu := enableDeps_up (c := c) (s.dev d).deps s hw (fun a ha => (hw.deps d a ha).2)
    cases he : enableDeps c (enableAp c) s (s.dev d).deps with
    | mk s1 r =>
      rw [he] at hu
      cases r with
      | true => exact ⟨hu.mono (fun k hk => by simp [hk]), hu.wf hw, fun h => by
          have := hu.out d (hw.self d)
          dsimp only at h this
          rw [this] at h; exact absurd h hn⟩
      | false => exact key s1 hu
  · exact key s (.refl _ _)

/-- What `enable` does. -/
theorem enable_spec {c : Cfg} {s : St} (hw : Wf c s) (d : Nat) :
    Up (d :: (s.dev d).deps) s (enable c s d).1 ∧ Wf c (enable c s d).1 ∧
    ((s.dev d).status ≠ .enabled → ((enable c s d).1.dev d).status = .enabled → Ready c (enable c s d).1 d) := by
  unfold enable
  split
  · next r hk =>
    have hk' : c.kind d ≠ .iface := by rw [hk]; simp
    have := enableAp_up hw hk'
    exact ⟨this.mono (by simp), this.wf hw, fun _ _ => (this.wf hw).apReady hk'⟩
  · next hk =>
    unfold enableWith
    obtain ⟨h1, h2⟩ := enabled_spec c s d
    cases he : enabled c s d with
    | mk s1 b =>
      rw [he] at h1 h2
      dsimp only at h1 h2
      have hu : Up (d :: (s.dev d).deps) s s1 := h1.up.mono (by simp)
      cases b with
      | true => exact ⟨hu, hu.wf hw, fun hn _ => by have := h2.mp rfl; simp [On, hk, hn] at this⟩
      | false =>
        have hn : (s1.dev d).status ≠ .enabled := by
          rw [h1.status]; intro e; exact absurd (h2.mpr (.inr e)) (by simp)
        have hu2 : Up (d :: (s.dev d).deps) s (s1.upd d fun x => { x with toggle := true }) := hu.trans ((toggled_up hn).mono (by simp))
        dsimp only
        have hn2 : ((s1.upd d fun x => { x with toggle := true }).dev d).status ≠ .enabled := by rw [upd_self]; exact hn
        obtain ⟨m1, m2, m3⟩ := machine_off (hu2.wf hw) hn2
        rw [hu2.deps] at m1
        exact ⟨hu2.trans m1, m2, fun _ h => m3 h⟩

/-! ## Disabling -/

theorem disable_spec {c : Cfg} {s : St} (hw : Wf c s) (d : Nat) :
    Local d (d :: (s.dev d).deps) s (disable c s d).1 ∧ (∀ k, k ≠ d → (disable c s d).1.dev k = s.dev k) ∧
    (¬ ((s.dev d).status = .enabled ∧ c.kind d ≠ .ap true) → (disable c s d).2 = false ∧ ((disable c s d).1.dev d).status = (s.dev d).status) ∧
    ((s.dev d).status = .enabled → c.kind d ≠ .ap true →
      ((disable c s d).2 = false → ((disable c s d).1.dev d).status = .disabled ∧ ((disable c s d).1.dev d).proc = .gone) ∧
      ((disable c s d).2 = true → ((disable c s d).1.dev d).status = .enabled) ∧
      ((disable c s d).2 = false ↔ (s.dev d).proc = .gone ∨ (s.dev d).proc = .alive ∧ c.kill s.kills = true)) := by
  unfold disable
  split
  · next hk => exact ⟨.refl _ _ _, fun _ _ => rfl, fun _ => ⟨rfl, rfl⟩, fun _ h => absurd hk h⟩
  · next hk =>
    by_cases hst : (s.dev d).status = .enabled
    · have he : enabled c s d = (s, true) := by
        unfold enabled
        rw [if_neg hk]
        congr 1
        · unfold cleanup St.upd
          cases s with
          | mk dev l kk =>
            dsimp only at hst ⊢
            congr 1; funext k
            split
            · next hh => subst hh; rw [if_pos hst]
            · rfl
        · simp [hst]
      rw [he]
      dsimp only
      have hm : machine c (enableAp c) (s.upd d fun x => { x with toggle := true }) d =
          andThen d .disabled (shutdown c (s.upd d fun x => { x with toggle := true }) d) := by
        unfold machine
        rw [if_neg (by rw [upd_self]; simp [hst])]
        unfold branches
        rw [upd_self, hst]; simp
      rw [hm]
      cases hp : (s.dev d).proc with
      | gone =>
        rw [show shutdown c (s.upd d fun x => { x with toggle := true }) d = ((s.upd d fun x => { x with toggle := true }), false) by simp [shutdown, upd_self, hp]]
        simp only [andThen, finish]
        refine ⟨⟨fun k hk => .inl (by simp [St.upd, hk]), by simp [St.upd], by simp [St.upd]⟩, fun k hk => by simp [St.upd, hk], fun h => absurd ⟨hst, hk⟩ h, ?_⟩
        intro _ _
        simp [St.upd, hp]
      | dead =>
        rw [show shutdown c (s.upd d fun x => { x with toggle := true }) d = ((s.upd d fun x => { x with toggle := true }), true) by simp [shutdown, upd_self, hp]]
        simp only [andThen]
        refine ⟨⟨fun k hk => .inl (by simp [St.upd, hk]), by simp [St.upd], by simp [St.upd]⟩, fun k hk => by simp [St.upd, hk], fun h => absurd ⟨hst, hk⟩ h, ?_⟩
        intro _ _
        simp [St.upd, hst]
      | alive =>
        unfold shutdown
        rw [upd_self]
        dsimp only
        rw [hp]
        dsimp only
        rw [show (s.upd d fun x => { x with toggle := true }).kills = s.kills from rfl]
        split
        · next hkill =>
          simp only [andThen, finish]
          refine ⟨⟨fun k hk => .inl (by simp [St.upd, hk]), by simp [St.upd], by simp [St.upd]⟩, fun k hk => by simp [St.upd, hk], fun h => absurd ⟨hst, hk⟩ h, ?_⟩
          intro _ _
          simp [St.upd, hkill]
        · next hkill =>
          simp only [andThen]
          refine ⟨⟨fun k hk => .inl (by simp [St.upd, hk]), by simp [St.upd], by simp [St.upd]⟩, fun k hk => by simp [St.upd, hk], fun h => absurd ⟨hst, hk⟩ h, ?_⟩
          intro _ _
          simp [St.upd, hkill, hst]
    · obtain ⟨h1, h2⟩ := enabled_spec c s d
      cases he : enabled c s d with
      | mk s1 b =>
        rw [he] at h1 h2
        dsimp only at h1 h2
        have hb : b = false := by
          cases b with
          | false => rfl
          | true => have := h2.mp rfl; simp [On, hk, hst] at this
        subst hb
        exact ⟨(h1.mono (by simp)).local d, fun k hkd => h1.same (.inl (by simpa using hkd)), fun _ => ⟨rfl, h1.status d⟩, fun h => absurd h hst⟩

/-! ## Reachable states -/

/-- The invariant of all histories. -/
structure Inv (c : Cfg) (s : St) : Prop where
  wf : Wf c s
  apWait : ∀ d, c.kind d ≠ .iface → (s.dev d).status ≠ .waiting

theorem Inv.init (c : Cfg) : Inv c St.init := ⟨⟨fun i a ha => by simp [St.init, Dev.new] at ha, fun i a ha => by simp [St.init, Dev.new] at ha⟩, fun d _ => by simp [St.init, Dev.new]⟩

/-- The machine of an access point that is not waiting does not make it wait. -/
theorem branches_noWait {c : Cfg} {s : St} (hw : Wf c s) {d : Nat} (hk : c.kind d ≠ .iface) (hn : (s.dev d).status ≠ .waiting) :
    ((branches c s d).1.dev d).status ≠ .waiting := by
  have hr := hw.apReady hk
  obtain ⟨h1, h2⟩ := depsEnabled_spec c s d
  have hd : dependenciesEnabled c s d = ((dependenciesEnabled c s d).1, true) := by rw [← h2.mpr hr]
  have hsh : ∀ s', (s'.dev d).status ≠ .waiting → ((andThen d .disabled (shutdown c s' d)).1.dev d).status ≠ .waiting := by
    intro s' h'
    obtain ⟨_, i2, _⟩ := shutdown_spec c s' d []
    cases hb : shutdown c s' d with
    | mk s'' b =>
      rw [hb] at i2
      cases b with
      | true => simp only [andThen]; rw [i2]; exact h'
      | false => simp only [andThen, finish_status]; simp
  have hl : ((afterLaunch d (launch c (dependenciesEnabled c s d).1 d)).1.dev d).status ≠ .waiting := by
    obtain ⟨_, i2, _⟩ := launch_spec (h1.wf hw) d
    cases hb : launch c (dependenciesEnabled c s d).1 d with
    | mk s'' b =>
      rw [hb] at i2
      cases b with
      | true => simp only [afterLaunch]; rw [i2, h1.status]; exact hn
      | false => simp only [afterLaunch, finish_status]; split <;> simp
  unfold branches
  rw [hd]
  split
  · split
    · exact hsh s hn
    · split
      · rw [finish_status]; simp
      · simp only []; rw [finish_status]; simp
  · next h => exact absurd h hn
  · split
    · simp only []; rw [finish_status]; simp
    · split
      · exact hl
      · rw [finish_status]; simp

/-- `machine` of an access point is `branches`. -/
theorem machine_ap {c : Cfg} {s : St} (hw : Wf c s) {d : Nat} (hk : c.kind d ≠ .iface) (en : St → Nat → St × Bool) : machine c en s d = branches c s d := by
  unfold machine
  split
  · rw [(hw.ap hk).1]; rfl
  · rfl

theorem upd_wf {c : Cfg} {s : St} (hw : Wf c s) (d : Nat) (f : Dev → Dev) (h1 : (f (s.dev d)).deps = (s.dev d).deps) (h2 : (f (s.dev d)).conn = (s.dev d).conn) : Wf c (s.upd d f) := by
  constructor
  · intro i a ha
    by_cases hi : i = d
    · subst hi; rw [upd_self, h1] at ha; exact hw.deps i a ha
    · rw [upd_ne s hi] at ha; exact hw.deps i a ha
  · intro i a ha
    by_cases hi : i = d
    · subst hi; rw [upd_self, h2] at ha; rw [upd_self, h1]; exact hw.conn i a ha
    · rw [upd_ne s hi] at ha ⊢; exact hw.conn i a ha

theorem enableAp_noWait {c : Cfg} {s : St} (hi : Inv c s) {d : Nat} (hk : c.kind d ≠ .iface) : Inv c (enableAp c s d).1 := by
  have hup := enableAp_up hi.wf hk
  refine ⟨hup.wf hi.wf, fun k hk' => ?_⟩
  by_cases hkd : k = d
  · subst hkd
    unfold enableAp
    split
    · exact hi.apWait k hk
    · unfold enableWith
      obtain ⟨h1, h2⟩ := enabled_spec c s k
      cases he : enabled c s k with
      | mk s1 b =>
        rw [he] at h1 h2
        dsimp only at h1 h2
        cases b with
        | true => simp only []; rw [h1.status]; exact hi.apWait k hk
        | false =>
          simp only []
          have hw1 : Wf c (s1.upd k fun x => { x with toggle := true }) := upd_wf (h1.wf hi.wf) _ _ rfl rfl
          rw [machine_ap hw1 hk]
          exact branches_noWait hw1 hk (by rw [upd_self]; simp only []; rw [h1.status]; exact hi.apWait k hk)
  · rw [hup.out k (by simpa using hkd)]; exact hi.apWait k hk'

theorem enableDeps_noWait {c : Cfg} : ∀ (ds : List Nat) (s : St), Inv c s → (∀ a ∈ ds, c.kind a ≠ .iface) → Inv c (enableDeps c (enableAp c) s ds).1
  | [], s, h, _ => h
  | d :: ds, s, h, hk => by
    obtain ⟨h1, h2⟩ := enabled_spec c s d
    unfold enableDeps
    cases he : enabled c s d with
    | mk s1 b =>
      rw [he] at h1 h2
      dsimp only at h1 h2
      have hi1 : Inv c s1 := ⟨h1.wf h.wf, fun k hk => by rw [h1.status]; exact h.apWait k hk⟩
      cases b with
      | true => exact enableDeps_noWait ds s1 hi1 (fun a ha => hk a (by simp [ha]))
      | false =>
        have h3 := enableAp_noWait hi1 (hk d (by simp))
        dsimp only
        cases ha : enableAp c s1 d with
        | mk s2 r =>
          rw [ha] at h3
          cases r with
          | true => exact h3
          | false => exact enableDeps_noWait ds s2 h3 (fun a ha => hk a (by simp [ha]))

theorem branches_inv {c : Cfg} {s : St} (hi : Inv c s) (d : Nat) : Inv c (branches c s d).1 := by
  have hr := branches_spec hi.wf d
  refine ⟨hr.loc.wf hi.wf, fun k hk => ?_⟩
  by_cases hkd : k = d
  · subst hkd; exact branches_noWait hi.wf hk (hi.apWait k hk)
  · rw [hr.loc.otherStatus hkd]; exact hi.apWait k hk

theorem machine_inv {c : Cfg} {s : St} (hi : Inv c s) (d : Nat) : Inv c (machine c (enableAp c) s d).1 := by
  unfold machine
  split
  · have := enableDeps_noWait (c := c) (s.dev d).deps s hi (fun a ha => (hi.wf.deps d a ha).2)
    cases he : enableDeps c (enableAp c) s (s.dev d).deps with
    | mk s1 r =>
      rw [he] at this
      cases r with
      | true => exact this
      | false => exact branches_inv this d
  · exact branches_inv hi d

theorem upd_inv {c : Cfg} {s : St} (hi : Inv c s) (d : Nat) (f : Dev → Dev) (h1 : (f (s.dev d)).deps = (s.dev d).deps) (h2 : (f (s.dev d)).conn = (s.dev d).conn)
    (h3 : (f (s.dev d)).status = (s.dev d).status) : Inv c (s.upd d f) := by
  refine ⟨upd_wf hi.wf d f h1 h2, fun k hk => ?_⟩
  by_cases hkd : k = d
  · subst hkd; rw [upd_self, h3]; exact hi.apWait k hk
  · rw [upd_ne s hkd]; exact hi.apWait k hk

theorem enabled_inv {c : Cfg} {s : St} (hi : Inv c s) (d : Nat) : Inv c (enabled c s d).1 := by
  obtain ⟨h1, _⟩ := enabled_spec c s d
  exact ⟨h1.wf hi.wf, fun k hk => by rw [h1.status]; exact hi.apWait k hk⟩

theorem enable_inv {c : Cfg} {s : St} (hi : Inv c s) (d : Nat) : Inv c (enable c s d).1 := by
  unfold enable
  split
  · next r hk => exact enableAp_noWait hi (by rw [hk]; simp)
  · unfold enableWith
    have h1 := enabled_inv hi d
    cases he : enabled c s d with
    | mk s1 b =>
      rw [he] at h1
      cases b with
      | true => exact h1
      | false => exact machine_inv (upd_inv h1 d (fun x => { x with toggle := true }) rfl rfl rfl) d

theorem disable_inv {c : Cfg} {s : St} (hi : Inv c s) (d : Nat) : Inv c (disable c s d).1 := by
  unfold disable
  split
  · exact hi
  · have h1 := enabled_inv hi d
    cases he : enabled c s d with
    | mk s1 b =>
      rw [he] at h1
      cases b with
      | true => exact machine_inv (upd_inv h1 d (fun x => { x with toggle := true }) rfl rfl rfl) d
      | false => exact h1

/-- The state before the machine of `install` runs. -/
def reload (s : St) (d : Nat) : St := s.upd d fun x => { x with status := .disabled, toggle := false, deps := x.conn.toList }

theorem reload_inv {c : Cfg} {s : St} (hi : Inv c s) (d : Nat) : Inv c (reload s d) := by
  refine ⟨⟨?_, ?_⟩, ?_⟩
  · intro i a ha
    by_cases hid : i = d
    · subst hid
      rw [reload, upd_self] at ha
      exact hi.wf.deps i a (hi.wf.conn i a (by simpa using ha))
    · rw [reload, upd_ne s hid] at ha; exact hi.wf.deps i a ha
  · intro i a ha
    by_cases hid : i = d
    · subst hid
      rw [reload, upd_self] at ha ⊢
      simpa using ha
    · rw [reload, upd_ne s hid] at ha ⊢; exact hi.wf.conn i a ha
  · intro k hk
    by_cases hkd : k = d
    · subst hkd; rw [reload, upd_self]; simp
    · rw [reload, upd_ne s hkd]; exact hi.apWait k hk

theorem install_inv {c : Cfg} {s : St} (hi : Inv c s) (d : Nat) : Inv c (install c s d).1 := machine_inv (reload_inv hi d) d

theorem installAll_inv {c : Cfg} : ∀ (ds : List Nat) (s : St), Inv c s → Inv c (installAll c s ds).1
  | [], _, h => h
  | d :: ds, s, h => by
    have h1 := install_inv h d
    unfold installAll
    cases he : install c s d with
    | mk s1 r =>
      rw [he] at h1
      cases r with
      | true => exact h1
      | false => exact installAll_inv ds s1 h1

theorem connect_inv {c : Cfg} {s : St} (hi : Inv c s) (i a : Nat) : Inv c (connect c s i a).1 := by
  unfold connect
  split
  · next hk =>
    refine ⟨⟨?_, ?_⟩, ?_⟩
    · intro k b hb
      by_cases hki : k = i
      · subst hki
        rw [upd_self] at hb
        simp only [] at hb
        split at hb
        · exact hi.wf.deps k b hb
        · rcases List.mem_append.mp hb with hb | hb
          · exact hi.wf.deps k b hb
          · rw [List.mem_singleton.mp hb]; exact hk
      · rw [upd_ne s hki] at hb; exact hi.wf.deps k b hb
    · intro k b hb
      by_cases hki : k = i
      · subst hki
        rw [upd_self] at hb ⊢
        simp only [Option.some.injEq] at hb ⊢
        subst hb
        split
        · assumption
        · simp
      · rw [upd_ne s hki] at hb ⊢; exact hi.wf.conn k b hb
    · intro k hk'
      by_cases hki : k = i
      · subst hki; exact absurd hk.1 hk'
      · rw [upd_ne s hki]; exact hi.apWait k hk'
  · exact hi

theorem disconnect_inv {c : Cfg} {s : St} (hi : Inv c s) (i : Nat) : Inv c (disconnect s i).1 := by
  refine ⟨⟨?_, ?_⟩, ?_⟩
  · intro k b hb
    by_cases hki : k = i
    · subst hki; rw [disconnect, upd_self] at hb; exact hi.wf.deps k b hb
    · rw [disconnect, upd_ne s hki] at hb; exact hi.wf.deps k b hb
  · intro k b hb
    by_cases hki : k = i
    · subst hki; rw [disconnect, upd_self] at hb; cases hb
    · rw [disconnect, upd_ne s hki] at hb ⊢; exact hi.wf.conn k b hb
  · intro k hk
    by_cases hki : k = i
    · subst hki; rw [disconnect, upd_self]; exact hi.apWait k hk
    · rw [disconnect, upd_ne s hki]; exact hi.apWait k hk

theorem died_inv {c : Cfg} {s : St} (hi : Inv c s) (d : Nat) : Inv c (step c s (.died d)).1 := by
  simp only [step]
  apply upd_inv hi <;> split <;> rfl

theorem step_inv {c : Cfg} {s : St} (hi : Inv c s) (e : Ev) : Inv c (step c s e).1 := by
  cases e with
  | enable d => exact enable_inv hi d
  | disable d => exact disable_inv hi d
  | connect i a => exact connect_inv hi i a
  | disconnect i => exact disconnect_inv hi i
  | died d => exact died_inv hi d
  | restart aps ifs => exact installAll_inv _ s hi

theorem exec_inv {c : Cfg} : ∀ (h : List Ev) (s : St), Inv c s → Inv c (exec c s h)
  | [], _, h => h
  | e :: h, _, hi => exec_inv h _ (step_inv hi e)

end Verif.Device
