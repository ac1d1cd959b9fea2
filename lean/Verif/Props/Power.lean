import Verif.Lemmas.PowerRun
/-! # C77: switching the network on and off -/
namespace Verif.Power
open Verif.Device

/-! ## The invariant of all histories -/

theorem on_inv {c f} : ∀ (ds : List Nat) (s : St), Inv c s → Inv c (on c f s ds).1
  | [], _, h => h
  | d :: ds, s, h => by
    unfold on
    by_cases ha : f.auto d = true
    · rw [if_pos ha]
      have h1 := enabled_inv h d
      cases hb : enabled c s d with
      | mk s' b =>
        rw [hb] at h1
        cases b with
        | true => exact on_inv ds s' h1
        | false =>
          have h2 := enable_inv h1 d
          dsimp only at h2 ⊢
          cases he : enable c s' d with
          | mk s'' r =>
            rw [he] at h2
            cases r with
            | true => exact h2
            | false => exact on_inv ds s'' h2
    · rw [if_neg ha]; exact on_inv ds s h

theorem off_inv {c} : ∀ (ds : List Nat) (s : St), Inv c s → Inv c (off c s ds).1
  | [], _, h => h
  | d :: ds, s, h => by
    unfold off
    have h1 := enabled_inv h d
    cases hb : enabled c s d with
    | mk s' b =>
      rw [hb] at h1
      cases b with
      | false => exact off_inv ds s' h1
      | true =>
        have h2 := disable_inv h1 d
        dsimp only at h2 ⊢
        cases he : disable c s' d with
        | mk s'' r =>
          rw [he] at h2
          cases r with
          | true => exact h2
          | false => exact off_inv ds s'' h2

theorem outcome_st (r : St × Bool) : (outcome r).1 = r.1 := by
  cases r with
  | mk s b => cases b <;> rfl

theorem outcome_msg (r : St × Bool) : (outcome r).2 = if r.2 then .error else .done := by
  cases r with
  | mk s b => cases b <;> rfl

theorem enableMsg_st {c : Cfg} (s : St) (d : Nat) : (enableMsg c s d).1 = (enabled c s d).1 := by
  unfold enableMsg enabled
  by_cases hk : c.kind d = .ap true
  · rw [if_pos hk, if_pos hk]
  · rw [if_neg hk, if_neg hk]
    cases (s.dev d).status <;> rfl

theorem act_inv {c f} {m : Mgr} (h : Inv c m.s) (a : Act) : Inv c (act c f m a).1 := by
  cases a with
  | on => show Inv c (outcome _).1; rw [outcome_st]; exact on_inv _ _ h
  | off => show Inv c (outcome _).1; rw [outcome_st]; exact off_inv _ _ h
  | enable d =>
    unfold act
    dsimp only
    by_cases hd : d ∈ f.ds
    · rw [if_pos hd]
      have h1 := enable_inv h d
      cases he : Device.enable c m.s d with
      | mk s' r =>
        rw [he] at h1
        cases r with
        | true => exact h1
        | false => dsimp only; rw [enableMsg_st]; exact enabled_inv h1 d
    · rw [if_neg hd]; exact h
  | disable d =>
    unfold act
    dsimp only
    by_cases hd : d ∈ f.ds
    · rw [if_pos hd, outcome_st]; exact disable_inv h d
    · rw [if_neg hd]; exact h
  | connect i a =>
    unfold act
    dsimp only
    by_cases hi : i ∈ f.ds
    · rw [if_pos hi]
      by_cases ha : a ∈ f.ds
      · rw [if_pos ha, outcome_st]; exact connect_inv h i a
      · rw [if_neg ha]; exact h
    · rw [if_neg hi]; exact h
  | disconnect i =>
    unfold act
    dsimp only
    by_cases hi : i ∈ f.ds
    · rw [if_pos hi]
      by_cases hk : c.kind i = .iface
      · rw [if_pos hk, outcome_st]; exact disconnect_inv h i
      · rw [if_neg hk]; exact h
    · rw [if_neg hi]; exact h
  | remove d =>
    unfold act
    dsimp only
    by_cases hi : d ∈ f.ds
    · rw [if_pos hi]
      by_cases hk : c.kind d = .iface
      · rw [if_pos hk, outcome_st]; exact disconnect_inv h d
      · rw [if_neg hk]; exact h
    · rw [if_neg hi]; exact h
  | status => exact h

theorem command_inv {c f s} (h : Inv c s) (a : Act) : Inv c (command c f s a).1 := by
  have h3 := (load_spec (f := f) h).2.2
  unfold command
  cases hl : load c f s with
  | mk m r =>
    rw [hl] at h3
    cases r with
    | true => exact h3
    | false => exact act_inv h3 a

theorem exec_inv {c} : ∀ (h : List Ev) (s : St), Inv c s → Inv c (exec c s h)
  | [], _, h => h
  | e :: es, s, h => by
    refine exec_inv es _ ?_
    cases e with
    | died d => exact died_inv h d
    | cmd f a => exact command_inv h a

/-! ## The theorems -/

/-- A command whose devices could be loaded. -/
theorem command_loaded {c f s0} (hi0 : Inv c s0) (a : Act) (hl : (command c f s0 a).2 ≠ .loadFailed) :
    ∃ m, LI c f s0 m.s f.ds ∧ m.objs.Nodup ∧ (∀ k, k ∈ m.objs ↔ k ∈ f.ds) ∧ command c f s0 a = act c f m a := by
  obtain ⟨h1, -, -⟩ := load_spec (f := f) hi0
  unfold command at hl ⊢
  cases hb : load c f s0 with
  | mk m r =>
    rw [hb] at h1 hl
    cases r with
    | true => exact absurd rfl hl
    | false => obtain ⟨g1, g2, g3⟩ := h1 rfl; exact ⟨m, g1, g2, g3, rfl⟩

theorem outcome_ne (r : St × Bool) : (outcome r).2 ≠ .loadFailed := by
  rw [outcome_msg]; split <;> simp

theorem act_loaded {c f m a} : (act c f m a).2 ≠ .loadFailed := by
  cases a with
  | on => exact outcome_ne _
  | off => exact outcome_ne _
  | enable d =>
    unfold act
    dsimp only
    by_cases hd : d ∈ f.ds
    · rw [if_pos hd]
      cases Device.enable c m.s d with
      | mk s' r =>
        cases r with
        | true => simp
        | false =>
          unfold enableMsg
          dsimp only
          by_cases hk : c.kind d = .ap true
          · rw [if_pos hk]; simp
          · rw [if_neg hk]; cases (s'.dev d).status <;> simp
    · rw [if_neg hd]; simp
  | disable d => unfold act; dsimp only; split; exact outcome_ne _; simp
  | connect i a => unfold act; dsimp only; split; split; exact outcome_ne _; simp; simp
  | disconnect i => unfold act; dsimp only; split; split; exact outcome_ne _; simp; simp
  | remove d => unfold act; dsimp only; split; split; exact outcome_ne _; simp; simp
  | status => unfold act; simp

/-- The devices cannot be loaded only if there is a stranded interface whose process does not end. -/
theorem C77_load (c : Cfg) (h : List Ev) (f : File) (a : Act) (hl : (command c f (exec c .init h) a).2 = .loadFailed) :
    (∃ d, Stranded c f (exec c .init h) d) ∧ ∃ n, c.kill n = false := by
  have hi0 := exec_inv h _ (Inv.init c)
  obtain ⟨-, h2, -⟩ := load_spec (f := f) hi0
  unfold command at hl
  cases hb : load c f (exec c .init h) with
  | mk m r =>
    rw [hb] at h2 hl
    cases r with
    | true => obtain ⟨d, h3, h4⟩ := h2 rfl; exact ⟨⟨d, h3⟩, h4⟩
    | false => exact absurd hl act_loaded

theorem loaded_of_kill {c : Cfg} (hk : ∀ n, c.kill n = true) (h : List Ev) (f : File) (a : Act) : (command c f (exec c .init h) a).2 ≠ .loadFailed := by
  intro hl
  obtain ⟨n, hn⟩ := (C77_load c h f a hl).2
  rw [hk] at hn
  cases hn

/-- A command that only looks at the devices ends the processes of stranded interfaces and changes nothing else. -/
theorem C77_status (c : Cfg) (h : List Ev) (f : File) (hl : (command c f (exec c .init h) .status).2 ≠ .loadFailed) :
    ∀ d, Alive (command c f (exec c .init h) .status).1 d ↔ Alive (exec c .init h) d ∧ ¬ Stranded c f (exec c .init h) d := by
  have hi0 := exec_inv h _ (Inv.init c)
  generalize exec c .init h = s at *
  obtain ⟨m, h1, -, -, h4⟩ := command_loaded hi0 .status hl
  rw [h4]
  intro d
  show Alive m.s d ↔ _
  by_cases hd : d ∈ f.ds
  · exact (h1.done d hd).alive
  · unfold Alive
    rw [h1.rest d hd]
    exact ⟨fun x => ⟨x, fun hs => hd hs.1⟩, fun x => x.1⟩

/-- `on` stops nothing but stranded interfaces, and starts nothing but what is wanted, whatever happens to the processes it starts. -/
theorem C77_on_only (c : Cfg) (h : List Ev) (f : File) (hl : (command c f (exec c .init h) .on).2 ≠ .loadFailed) :
    let s := exec c .init h
    let s' := (command c f s .on).1
    (∀ d, Alive s d → ¬ Stranded c f s d → Alive s' d) ∧
    (∀ d, ¬ Remote c d → Alive s' d → (Alive s d ∨ Wanted c f s d) ∧ ¬ Stranded c f s d) := by
  have hi0 := exec_inv h _ (Inv.init c)
  generalize exec c .init h = s at *
  dsimp only
  obtain ⟨m, h1, h2, h3, h4⟩ := command_loaded hi0 .on hl
  rw [h4]
  have hst : (act c f m .on).1 = (on c f m.s m.objs).1 := outcome_st _
  rw [hst]
  have hI : OnI c f s m.s m.s m.objs := ⟨h1.run, fun _ _ x => x, fun _ _ _ x => .inl x, fun _ _ _ => rfl, fun _ _ => rfl⟩
  have hR := on_spec (fun k hk => (h1.done k hk).wait) hi0 m.objs m.s hI h2 (fun d hd => (h3 d).mp hd)
  constructor
  · intro d ha hns
    by_cases hd : d ∈ f.ds
    · exact hR.keep d hd ((h1.done d hd).alive.mpr ⟨ha, hns⟩)
    · unfold Alive; rw [hR.out d hd, h1.rest d hd]; exact ha
  · intro d hr ha
    by_cases hd : d ∈ f.ds
    · rcases hR.only d hd hr ha with x | ⟨x, y⟩
      · have := (h1.done d hd).alive.mp x
        exact ⟨.inl this.1, this.2⟩
      · exact ⟨.inr x, y⟩
    · unfold Alive at ha
      rw [hR.out d hd, h1.rest d hd] at ha
      exact ⟨.inl ha, fun hs => hd hs.1⟩

/-- If processes start and end as they are told to, `on` has this effect: the devices that run after it are those that ran before and those
that are wanted, except stranded interfaces. -/
theorem C77_on_partial (c : Cfg) (hc : ∀ n, c.launch n = .up) (hk : ∀ n, c.kill n = true) (h : List Ev) (f : File) :
    let s := exec c .init h
    (command c f s .on).2 = .done ∧
    ∀ d, ¬ Remote c d → (Alive (command c f s .on).1 d ↔ (Alive s d ∨ Wanted c f s d) ∧ ¬ Stranded c f s d) := by
  have hl := loaded_of_kill hk h f .on
  have honly := C77_on_only c h f hl
  have hi0 := exec_inv h _ (Inv.init c)
  generalize exec c .init h = s at *
  dsimp only at honly ⊢
  obtain ⟨m, h1, h2, h3, h4⟩ := command_loaded hi0 .on hl
  have hI : OnI c f s m.s m.s m.objs := ⟨h1.run, fun _ _ x => x, fun _ _ _ x => .inl x, fun _ _ _ => rfl, fun _ _ => rfl⟩
  obtain ⟨w1, -, w3⟩ := on_works hc hi0 h1 m.objs m.s hI h2 (fun d hd => (h3 d).mp hd)
  have hst : (command c f s .on).1 = (on c f m.s m.objs).1 := by rw [h4]; exact outcome_st _
  refine ⟨by rw [h4]; show (outcome _).2 = _; rw [outcome_msg, w1]; rfl, fun d hr => ⟨honly.2 d hr, ?_⟩⟩
  rintro ⟨ha | hw, hns⟩
  · exact honly.1 d ha hns
  · rw [hst]
    cases hw with
    | ap _ hd ha hkd => exact ((w3 d ((h3 d).mpr hd)) ha).1 hkd
    | iface _ a hd ha hkd hl => exact (((w3 d ((h3 d).mpr hd)) ha).2 hkd a (settled_some.mpr hl)).1 hns
    | under i _ hi ha hki hl hkd => exact (((w3 i ((h3 i).mpr hi)) ha).2 hki d (settled_some.mpr hl)).2 (by unfold Remote; rw [hkd]; simp)

/-- The connections after a command `on`. -/
theorem on_conn {c f s0} (hi0 : Inv c s0) (hl : (command c f s0 .on).2 ≠ .loadFailed) (d a : Nat) (hd : d ∈ f.ds) :
    Linked f (command c f s0 .on).1 d a ↔ Linked f s0 d a := by
  obtain ⟨m, h1, h2, h3, h4⟩ := command_loaded hi0 .on hl
  have hst : (command c f s0 .on).1 = (on c f m.s m.objs).1 := by rw [h4]; exact outcome_st _
  have hI : OnI c f s0 m.s m.s m.objs := ⟨h1.run, fun _ _ x => x, fun _ _ _ x => .inl x, fun _ _ _ => rfl, fun _ _ => rfl⟩
  have hR := on_spec (fun k hk => (h1.done k hk).wait) hi0 m.objs m.s hI h2 (fun d hd => (h3 d).mp hd)
  rw [hst]
  constructor
  · rintro ⟨x, _⟩; rw [hR.run.conn d hd] at x; exact settled_some.mp x
  · intro hl; exact ⟨by rw [hR.run.conn d hd]; exact settled_some.mpr hl, hl.2⟩

/-- Switching on twice: then everything that is wanted runs. -/
theorem C77_on_twice (c : Cfg) (hc : ∀ n, c.launch n = .up) (hk : ∀ n, c.kill n = true) (h : List Ev) (f : File) :
    let s := exec c .init h
    let s' := exec c .init (h ++ [.cmd f .on, .cmd f .on])
    (∀ d, Wanted c f s d → Alive s' d) ∧ ∀ d, ¬ Stranded c f s' d := by
  dsimp only
  have happ : ∀ (g : List Ev) (s : St) (g' : List Ev), exec c s (g ++ g') = exec c (exec c s g) g' := by
    intro g
    induction g with
    | nil => intro s g'; rfl
    | cons e g ih => intro s g'; exact ih _ g'
  have e1 : exec c .init (h ++ [.cmd f .on]) = (command c f (exec c .init h) .on).1 := by rw [happ]; rfl
  have e2 : exec c .init (h ++ [.cmd f .on, .cmd f .on]) = (command c f (exec c .init (h ++ [.cmd f .on])) .on).1 := by
    rw [show h ++ [Ev.cmd f .on, .cmd f .on] = (h ++ [.cmd f .on]) ++ [.cmd f .on] by simp, happ]; rfl
  have p1 := C77_on_partial c hc hk h f
  have p2 := C77_on_partial c hc hk (h ++ [.cmd f .on]) f
  have hi0 := exec_inv h _ (Inv.init c)
  have hi1 := exec_inv (h ++ [.cmd f .on]) _ (Inv.init c)
  have c1 := on_conn hi0 (loaded_of_kill hk h f .on)
  have c2 := on_conn hi1 (loaded_of_kill hk (h ++ [.cmd f .on]) f .on)
  rw [e2]
  generalize hs1 : exec c .init (h ++ [.cmd f .on]) = s1 at *
  generalize exec c .init h = s at *
  dsimp only at p1 p2
  rw [← e1] at p1 c1
  have apk : ∀ {t : St} {d a : Nat}, Inv c t → Linked f t d a → c.kind a ≠ .iface := fun ht hl => settled_kind ht.wf hl.1
  have loc : ∀ {a : Nat}, c.kind a ≠ .iface → ¬ Remote c a → c.kind a = .ap false := by
    intro a h1 h2
    cases hh : c.kind a with
    | ap r => cases r with
      | true => exact absurd hh h2
      | false => rfl
    | iface => exact absurd hh h1
  have ni : ∀ {d : Nat}, c.kind d = .iface → ¬ Remote c d := fun h => by unfold Remote; rw [h]; simp
  -- nobody is stranded after the first time
  have hns : ∀ d, ¬ Stranded c f s1 d := by
    rintro d ⟨hd, hkd, ha, hn⟩
    obtain ⟨hor, hnst⟩ := (p1.2 d (ni hkd)).mp ha
    have : ∃ a, Linked f s d a ∧ (Remote c a ∨ Alive s1 a) := by
      rcases hor with hal | hw
      · have : ∃ a, Linked f s d a ∧ (Remote c a ∨ Alive s a) := Classical.byContradiction fun hn => hnst ⟨hd, hkd, hal, hn⟩
        obtain ⟨a, hla, hra⟩ := this
        refine ⟨a, hla, ?_⟩
        by_cases hr : Remote c a
        · exact .inl hr
        · exact .inr ((p1.2 a hr).mpr ⟨.inl (hra.elim (fun x => absurd x hr) (fun x => x)), ap_not_stranded (apk hi0 hla)⟩)
      · cases hw with
        | ap _ _ _ hkk => rw [hkd] at hkk; cases hkk
        | under _ _ _ _ _ _ hkk => rw [hkd] at hkk; cases hkk
        | iface _ a _ hau _ hla =>
          refine ⟨a, hla, ?_⟩
          by_cases hr : Remote c a
          · exact .inl hr
          · exact .inr ((p1.2 a hr).mpr ⟨.inr (.under d a hd hau hkd hla (loc (apk hi0 hla) hr)), ap_not_stranded (apk hi0 hla)⟩)
    obtain ⟨a, hla, hra⟩ := this
    exact hn ⟨a, (c1 d a hd).mpr hla, hra⟩
  have want : ∀ d, Wanted c f s d → Wanted c f s1 d := by
    intro d hw
    cases hw with
    | ap _ h1 h2 h3 => exact .ap d h1 h2 h3
    | iface _ a h1 h2 h3 h4 => exact .iface d a h1 h2 h3 ((c1 d a h1).mpr h4)
    | under i _ h1 h2 h3 h4 h5 => exact .under i d h1 h2 h3 ((c1 i d h1).mpr h4) h5
  have nr : ∀ d, Wanted c f s d → ¬ Remote c d := by
    intro d hw
    cases hw with
    | ap _ h1 h2 h3 => unfold Remote; rw [h3]; simp
    | iface _ a h1 h2 h3 h4 => exact ni h3
    | under i _ h1 h2 h3 h4 h5 => unfold Remote; rw [h5]; simp
  refine ⟨fun d hw => (p2.2 d (nr d hw)).mpr ⟨.inr (want d hw), hns d⟩, ?_⟩
  rintro d ⟨hd, hkd, ha, hn⟩
  obtain ⟨hor, -⟩ := (p2.2 d (ni hkd)).mp ha
  have : ∃ a, Linked f s1 d a ∧ (Remote c a ∨ Alive (command c f s1 .on).1 a) := by
    rcases hor with hal | hw
    · have : ∃ a, Linked f s1 d a ∧ (Remote c a ∨ Alive s1 a) := Classical.byContradiction fun hn => hns d ⟨hd, hkd, hal, hn⟩
      obtain ⟨a, hla, hra⟩ := this
      refine ⟨a, hla, ?_⟩
      by_cases hr : Remote c a
      · exact .inl hr
      · exact .inr ((p2.2 a hr).mpr ⟨.inl (hra.elim (fun x => absurd x hr) (fun x => x)), hns a⟩)
    · cases hw with
      | ap _ _ _ hkk => rw [hkd] at hkk; cases hkk
      | under _ _ _ _ _ _ hkk => rw [hkd] at hkk; cases hkk
      | iface _ a _ hau _ hla =>
        refine ⟨a, hla, ?_⟩
        by_cases hr : Remote c a
        · exact .inl hr
        · exact .inr ((p2.2 a hr).mpr ⟨.inr (.under d a hd hau hkd hla (loc (apk hi1 hla) hr)), hns a⟩)
  obtain ⟨a, hla, hra⟩ := this
  exact hn ⟨a, (c2 d a hd).mpr hla, hra⟩

theorem off_remote {c f s0} : ∀ (ds : List Nat) (s : St), Run c f s0 s → (∀ d ∈ ds, d ∈ f.ds) → ∀ {k : Nat}, k ∈ f.ds → Remote c k →
    (Alive (off c s ds).1 k ↔ Alive s k)
  | [], _, _, _, _, _, _ => Iff.rfl
  | d :: ds, s, h, hds, k, hk, hr => by
    have hd := hds d (by simp)
    have hds' : ∀ x ∈ ds, x ∈ f.ds := fun x hx => hds x (by simp [hx])
    obtain ⟨e1, e2⟩ := enabled_spec c s d
    have hi := enabled_inv h.inv d
    have hm1 : ∀ k ∈ f.ds, (Alive (enabled c s d).1 k ↔ Alive s k) := fun k hk => h.softAlive e1 hi hk
    have hr1 := h.soft e1 hi
    unfold off
    cases hb : enabled c s d with
    | mk s' b =>
      rw [hb] at hi hm1 hr1 e2
      dsimp only at hi hm1 hr1 e2 ⊢
      cases b with
      | false => exact (off_remote ds s' hr1 hds' hk hr).trans (hm1 k hk)
      | true =>
        dsimp only
        by_cases hrem : Remote c d
        · rw [disable_remote hrem]
          exact (off_remote ds s' hr1 hds' hk hr).trans (hm1 k hk)
        · have hal : Alive s d := by
            rcases e2.mp rfl with x | x
            · exact absurd x hrem
            · exact (h.sync d hd).mp x
          obtain ⟨d1, d2, -, -⟩ := disable_run hr1 hd hrem ((hm1 d hd).mpr hal)
          have hkd : k ≠ d := fun e => hrem (e ▸ hr)
          cases hdis : disable c s' d with
          | mk s'' r =>
            rw [hdis] at d1 d2
            dsimp only at d1 d2 ⊢
            have hsame : Alive s'' k ↔ Alive s k := by rw [← hm1 k hk]; unfold Alive; rw [d2 k hkd]
            cases r with
            | false => exact (off_remote ds s'' d1 hds' hk hr).trans hsame
            | true => exact hsame

/-- `off`: if it does not complain, no device of the file runs; if it does, a device that ran could not be stopped and still runs. It starts nothing and does not
touch processes of devices that are not in the file. -/
theorem C77_off (c : Cfg) (h : List Ev) (f : File) :
    let s := exec c .init h
    let r := command c f s .off
    (r.2 = .done → ∀ d ∈ f.ds, ¬ Remote c d → ¬ Alive r.1 d) ∧
    (r.2 = .error → ∃ d ∈ f.ds, Alive s d ∧ Alive r.1 d ∧ ∃ n, c.kill n = false) ∧
    (r.2 = .done ∨ r.2 = .error ∨ r.2 = .loadFailed) ∧
    (r.2 ≠ .loadFailed → (∀ d, Alive r.1 d → Alive s d) ∧ ∀ d, d ∉ f.ds → r.1.dev d = s.dev d) := by
  have hi0 := exec_inv h _ (Inv.init c)
  generalize exec c .init h = s at *
  dsimp only
  by_cases hl : (command c f s .off).2 = .loadFailed
  · rw [hl]; simp
  · obtain ⟨m, h1, h2, h3, h4⟩ := command_loaded hi0 .off hl
    have hst : (command c f s .off).1 = (off c m.s m.objs).1 := by rw [h4]; exact outcome_st _
    have hms : (command c f s .off).2 = if (off c m.s m.objs).2 then .error else .done := by rw [h4]; exact outcome_msg _
    obtain ⟨-, pre, post, g1, g2, g3, g4, g5, g6⟩ := off_spec m.objs m.s h1.run h2 (fun d hd => (h3 d).mp hd)
    rw [hst, hms]
    cases hr : (off c m.s m.objs).2 with
    | false =>
      have hp := g5 hr
      have hall : ∀ k ∈ f.ds, k ∈ pre := fun k hk => by have := (h3 k).mpr hk; rw [g1, hp] at this; simpa using this
      refine ⟨fun _ d hd hrem => g2 d (hall d hd) hrem, by simp, .inl rfl, fun _ => ⟨fun d ha => ?_, fun d hd => (g4 d hd).trans (h1.rest d hd)⟩⟩
      by_cases hd : d ∈ f.ds
      · by_cases hrem : Remote c d
        · -- a remote device is left alone
          by_cases hdp : Alive m.s d
          · exact ((h1.done d hd).alive.mp hdp).1
          · exact absurd ((off_remote m.objs m.s h1.run (fun d hd => (h3 d).mp hd) hd hrem).mp ha) hdp
        · exact absurd ha (g2 d (hall d hd) hrem)
      · unfold Alive at ha; rw [g4 d hd, h1.rest d hd] at ha; exact ha
    | true =>
      obtain ⟨x, p, q1, q2, q3, q4⟩ := g6 hr
      have hxo : x ∈ m.objs := by rw [g1, q1]; simp
      have hxd := (h3 x).mp hxo
      have hxp : x ∉ pre := by
        intro hm
        rw [g1, q1, List.nodup_append] at h2
        exact h2.2.2 x hm x (by simp) rfl
      refine ⟨by simp, fun _ => ⟨x, hxd, ((h1.done x hxd).alive.mp q3).1, (g3 x hxd hxp).mpr q3, q4⟩, by simp, fun _ => ⟨fun d ha => ?_, fun d hd => (g4 d hd).trans (h1.rest d hd)⟩⟩
      by_cases hd : d ∈ f.ds
      · by_cases hdp : d ∈ pre
        · by_cases hrem : Remote c d
          · exact ((h1.done d hd).alive.mp ((off_remote m.objs m.s h1.run (fun d hd => (h3 d).mp hd) hd hrem).mp ha)).1
          · exact absurd ha (g2 d hdp hrem)
        · exact ((h1.done d hd).alive.mp ((g3 d hd hdp).mp ha)).1
      · unfold Alive at ha; rw [g4 d hd, h1.rest d hd] at ha; exact ha

/-- If processes end as they are told to, `off` stops every device. -/
theorem C77_off_works (c : Cfg) (hk : ∀ n, c.kill n = true) (h : List Ev) (f : File) :
    (command c f (exec c .init h) .off).2 = .done ∧ ∀ d ∈ f.ds, ¬ Remote c d → ¬ Alive (command c f (exec c .init h) .off).1 d := by
  obtain ⟨h1, h2, h3, -⟩ := C77_off c h f
  have hd : (command c f (exec c .init h) .off).2 = .done := by
    rcases h3 with x | x | x
    · exact x
    · obtain ⟨_, _, _, _, n, hn⟩ := h2 x; rw [hk] at hn; cases hn
    · exact absurd x (loaded_of_kill hk h f .off)
  exact ⟨hd, h1 hd⟩

/-- `enable` says that the device is enabled exactly when its process runs afterwards. -/
theorem C77_enable_message (c : Cfg) (h : List Ev) (f : File) (d : Nat) (hd : d ∈ f.ds) (hr : ¬ Remote c d) :
    let r := command c f (exec c .init h) (.enable d)
    r.2 ≠ .loadFailed → (r.2 = .enabled ↔ Alive r.1 d) := by
  have hi0 := exec_inv h _ (Inv.init c)
  generalize exec c .init h = s at *
  intro r hl
  obtain ⟨m, h1, h2, h3, h4⟩ := command_loaded hi0 (.enable d) hl
  have hr' : r = act c f m (.enable d) := h4
  rw [hr']
  unfold act
  dsimp only
  rw [if_pos hd]
  obtain ⟨e1, -⟩ := enable_run h1.run d hd
  have hraise := @enable_raises c m.s d h1.inv
  cases he : Device.enable c m.s d with
  | mk s' b =>
    rw [he] at e1 hraise
    cases b with
    | true =>
      dsimp only at e1 hraise ⊢
      exact ⟨fun x => (by cases x), fun x => absurd ((e1.sync d hd).mpr x) (hraise rfl)⟩
    | false =>
      dsimp only at e1 ⊢
      have hst := enableMsg_st (c := c) s' d
      have hal : Alive (enableMsg c s' d).1 d ↔ (s'.dev d).status = .enabled := by
        rw [hst, e1.softAlive (enabled_spec c s' d).1 (enabled_inv e1.inv d) hd, e1.sync d hd]
      rw [hal]
      unfold enableMsg
      rw [if_neg (show ¬ c.kind d = .ap true from hr)]
      cases (s'.dev d).status <;> simp

/-- `disable` of a device stops it if it does not complain, and if it does the process still runs; the other devices are as they are after a command that only
looks at them. -/
theorem C77_disable (c : Cfg) (h : List Ev) (f : File) (d : Nat) (hd : d ∈ f.ds) (hr : ¬ Remote c d) :
    let s := exec c .init h
    let r := command c f s (.disable d)
    r.2 ≠ .loadFailed → (r.2 = .done ∨ r.2 = .error) ∧ (r.2 = .done ↔ ¬ Alive r.1 d) ∧
      ∀ k ∈ f.ds, k ≠ d → (Alive r.1 k ↔ Alive s k ∧ ¬ Stranded c f s k) := by
  have hi0 := exec_inv h _ (Inv.init c)
  generalize exec c .init h = s at *
  intro s r hl
  obtain ⟨m, h1, h2, h3, h4⟩ := command_loaded hi0 (.disable d) hl
  have hr' : r = outcome (Device.disable c m.s d) := by
    show command c f _ _ = _
    rw [h4]; unfold act; dsimp only; rw [if_pos hd]
  have hst : r.1 = (Device.disable c m.s d).1 := by rw [hr']; exact outcome_st _
  have hms : r.2 = if (Device.disable c m.s d).2 then .error else .done := by rw [hr']; exact outcome_msg _
  rw [hst, hms]
  have others : ∀ k ∈ f.ds, k ≠ d → (Alive (Device.disable c m.s d).1 k ↔ Alive s k ∧ ¬ Stranded c f s k) := by
    intro k hk hkd
    have := (disable_spec h1.inv.wf d).2.1 k hkd
    rw [← (h1.done k hk).alive]
    unfold Alive
    rw [this]
  by_cases ha : Alive m.s d
  · obtain ⟨d1, d2, d3, d4⟩ := disable_run h1.run hd hr ha
    refine ⟨by cases (Device.disable c m.s d).2 <;> simp, ?_, others⟩
    cases hb : (Device.disable c m.s d).2 with
    | false => simpa using d3 hb
    | true => simpa using (d4 hb).1
  · have hns : (m.s.dev d).status ≠ .enabled := fun x => ha ((h1.run.sync d hd).mp x)
    obtain ⟨i1, i2⟩ := (disable_spec h1.inv.wf d).2.2.1 (fun x => hns x.1)
    rw [i1]
    refine ⟨by simp, ?_, others⟩
    have hk := disable_keeps h1.inv.wf d d (.inr ha)
    have : ¬ Alive (Device.disable c m.s d).1 d := by
      rcases hk with x | x
      · rw [i2] at x; exact absurd x hns
      · exact x
    simpa using this

end Verif.Power
