import Verif.Lemmas.Cli
import Verif.Props.Choose
/-! # C85: the command line tool -/
namespace Verif.Cli
open Verif.Pnms (Place Settings Net Mgr Cfg Rep Ready Happen Step FileShows)
open Verif.Dict

theorem perform_files {E : Env} {p : Str} {f : Option Cfg} {m : Mgr} {n : Net} (h : Ready f m n) (c : Cmd) :
    (perform E p m c).files = (Pnms.perform m c.change).1.files := by
  have hd : ∀ k (o : Option (List Str)), (withDevice m k fun m' _ => ofWork m'.files o).files = m.files := by
    intro k o
    unfold withDevice
    rcases Pnms.get_loaded h.loaded k with ⟨t, _, g⟩ | ⟨_, ⟨e, g⟩ | g, _⟩
    · rw [g]; cases o <;> rfl
    · rw [g]
    · rw [g]
  have hs : ∀ c', c'.change = Pnms.Cmd.other → (perform E p m c').files = m.files → (perform E p m c').files = (Pnms.perform m c'.change).1.files := by
    intro c' h1 h2; rw [h1, h2]; rfl
  cases c with
  | add k t args => rfl
  | remove k => rfl
  | config k v args =>
    show (withDevice m k fun m' t => ofPnms (Pnms.configDevice m' k t v args)).files = _
    unfold withDevice
    show _ = (Pnms.perform m (.config k v args)).1.files
    unfold Pnms.perform
    dsimp only
    cases hg : Pnms.get m k with
    | mk m' r => cases r with
      | error e => rfl
      | ok o => cases o <;> rfl
  | help s => refine hs _ rfl ?_; show (ofWork m.files _).files = _; cases E.work (.help s) <;> rfl
  | init l o => refine hs _ rfl ?_; show (ofWork m.files _).files = _; cases E.work (.init l o) <;> rfl
  | on => refine hs _ rfl ?_; show (ofWork m.files _).files = _; cases E.work .on <;> rfl
  | off => refine hs _ rfl ?_; show (ofWork m.files _).files = _; cases E.work .off <;> rfl
  | enable k => exact hs _ rfl (hd k _)
  | disable k => exact hs _ rfl (hd k _)
  | query k v args => exact hs _ rfl (hd k _)
  | routes => rfl
  | status o =>
    refine hs _ rfl ?_
    cases o with
    | none => show (match statusText E m with | some x => Ran.mk m.files _ _ | none => _).files = _; cases statusText E m <;> rfl
    | some k => cases k with
      | nil => show (match statusText E m with | some x => Ran.mk m.files _ _ | none => _).files = _; cases statusText E m <;> rfl
      | cons _ _ => rfl

theorem finish_files (E : Env) (r : Ran) : (finish E r).files = r.files := by unfold finish; cases r.stop <;> rfl

theorem execute_eq {E : Env} {p : Str} {n : Net} {argv : List Str} {c : Cmd} (hp : E.path = some p) (h : Rep (E.file.getD .empty) n) (ha : Asks argv c) :
    ∃ m, Pnms.load E.file = (m, none) ∧ Ready E.file m n ∧ execute E argv = finish E (perform E p m c) := by
  obtain ⟨m, h1, h2⟩ := Pnms.ready h
  refine ⟨m, h1, h2, ?_⟩
  rw [execute, asks_iff.mpr ha]
  dsimp only
  rw [hp]
  dsimp only
  rw [h1]

theorem execute_usage {E : Env} {argv : List Str} (h : ∀ c, ¬ Asks argv c) : execute E argv = ⟨[], [], 2⟩ := by
  cases hp : parse argv with
  | none => rw [execute, hp]
  | some c => exact absurd (asks_iff.mp hp) (h c)

theorem after_eq {E : Env} {p : Str} {n : Net} {argv : List Str} {c : Cmd} (hp : E.path = some p) (h : Rep (E.file.getD .empty) n) (ha : Asks argv c) :
    after E argv = Pnms.after E.file c.change := by
  obtain ⟨m, h1, h2, h3⟩ := execute_eq hp h ha
  rw [after, h3, finish_files, perform_files h2, Pnms.after, Pnms.run, h1]

theorem session_eq : ∀ (hist : List (Env × List Str)) (f : Option Cfg) (n : Net) (cs : List Pnms.Cmd), Rep (f.getD .empty) n → (∀ x ∈ hist, x.1.path ≠ none) →
    Calls (hist.map (·.2)) cs → (∀ c ∈ cs, c.Plain) → session f hist = Pnms.exec f cs
  | [], f, n, cs, _, _, hc, _ => by cases hc; rfl
  | (E, argv) :: hist, f, n, cs, h, hp, hc, hpl => by
    rw [session]
    cases hc with
    | usage hu hc' =>
      rw [after, execute_usage hu]
      exact session_eq hist f n cs h (fun x hx => hp x (by simp [hx])) hc' hpl
    | @asks _ c _ cs' ha hc' =>
      obtain ⟨p, hpp⟩ := Option.ne_none_iff_exists'.mp (hp (E, argv) (by simp))
      have e : after { E with file := f } argv = Pnms.after f c.change := after_eq (E := { E with file := f }) (p := p) hpp h ha
      obtain ⟨n', _, h'⟩ := Pnms.happen_spec [c.change] f n h (by intro x hx; rw [List.mem_singleton.mp hx]; exact hpl _ (by simp))
      rw [e, Pnms.exec]
      exact session_eq hist _ n' cs' h' (fun x hx => hp x (by simp [hx])) hc' (fun x hx => hpl x (by simp [hx]))

/-- C85, usage: a call is understood exactly when it is typed in one of the ways the tool has; otherwise it changes nothing, and its exit status is 2. -/
theorem C85_usage {E : Env} {argv : List Str} : ((∃ c, Asks argv c) ∧ (execute E argv).code ≠ 2) ∨ ((∀ c, ¬ Asks argv c) ∧ (execute E argv).code = 2 ∧ after E argv = E.file) := by
  cases hp : parse argv with
  | none =>
    refine .inr ⟨fun c hc => ?_, ?_⟩
    · rw [asks_iff.mpr hc] at hp; cases hp
    · rw [after, execute, hp]; exact ⟨rfl, rfl⟩
  | some c =>
    refine .inl ⟨⟨c, asks_iff.mp hp⟩, ?_⟩
    have key : ∀ r, (finish E r).code ≠ 2 := by
      intro r
      unfold finish
      cases r.stop with
      | done => show (0 : Nat) ≠ 2; decide
      | exits => show (1 : Nat) ≠ 2; decide
      | raised => show (if E.typed then 0 else 1 : Nat) ≠ 2; cases E.typed <;> decide
    rw [execute, hp]
    dsimp only
    cases E.path with
    | none => exact key _
    | some p =>
      dsimp only
      cases hl : Pnms.load E.file with
      | mk m e => cases e with
        | none => exact key _
        | some e => show (1 : Nat) ≠ 2; decide

/-- A call is typed in at most one way. -/
theorem C85_usage_unique {argv : List Str} {c d : Cmd} (h1 : Asks argv c) (h2 : Asks argv d) : c = d :=
  Option.some.inj ((asks_iff.mpr h1).symm.trans (asks_iff.mpr h2))

/-- C85, the configuration: after any calls of the tool, a new process reads a network that is what the calls are meant to do (as in C59); calls that do not
configure, and calls that are not understood, leave it as it is. -/
theorem C85_history_partial (hist : List (Env × List Str)) (hp : ∀ x ∈ hist, x.1.path ≠ none) {cs : List Pnms.Cmd} (hc : Calls (hist.map (·.2)) cs) (hpl : ∀ c ∈ cs, c.Plain) :
    ∃ n bs, Happen .init cs bs n ∧ FileShows (session none hist) n := by
  obtain ⟨n, h1, h2⟩ := Pnms.happen_spec cs none .init Pnms.rep_init hpl
  refine ⟨n, _, h1, ?_⟩
  rw [session_eq hist none .init cs Pnms.rep_init hp hc hpl]
  exact Pnms.shows_of_rep h2

/-- C85, success: after any calls, a command that adds, removes or configures a device writes nothing and has exit status 0 exactly when there is something that it is
meant to do. -/
theorem C85_success_partial (hist : List (Env × List Str)) (hp : ∀ x ∈ hist, x.1.path ≠ none) {cs : List Pnms.Cmd} (hc : Calls (hist.map (·.2)) cs) (hpl : ∀ c ∈ cs, c.Plain)
    (E : Env) (hE : E.path ≠ none) (hf : E.file = session none hist) {argv : List Str} {c : Cmd} (ha : Asks argv c) (hch : c.change ≠ .other) (hpc : c.change.Plain) :
    ∃ n bs, Happen .init cs bs n ∧ (((execute E argv).out = [] ∧ (execute E argv).code = 0) ↔ ∃ n', Step n c.change n') := by
  obtain ⟨n, h1, h2⟩ := Pnms.happen_spec cs none .init Pnms.rep_init hpl
  refine ⟨n, _, h1, ?_⟩
  rw [← session_eq hist none .init cs Pnms.rep_init hp hc hpl, ← hf] at h2
  obtain ⟨p, hpp⟩ := Option.ne_none_iff_exists'.mp hE
  obtain ⟨m, hl, hr, he⟩ := execute_eq hpp h2 ha
  rw [he]
  have e1 : (Pnms.run E.file c.change).2 = (Pnms.perform m c.change).2 := by rw [Pnms.run, hl]
  have key : ((Pnms.perform m c.change).2 = none ↔ ∃ n', Step n c.change n') := by
    rw [← e1]
    by_cases hrm : c.change.RemovesRoute
    · obtain ⟨_, _, ⟨s, e⟩ | ⟨s, e⟩⟩ := Pnms.run_lost h2 hpc hrm
      · exact ⟨fun _ => s, fun _ => e⟩
      · exact ⟨fun x => absurd x e, fun ⟨n', x⟩ => absurd x (s n')⟩
    · rcases Pnms.run_spec h2 c.change hpc hrm with ⟨n', s, e, _⟩ | ⟨s, e, _⟩
      · exact ⟨fun _ => ⟨n', s⟩, fun _ => e⟩
      · exact ⟨fun x => absurd x e, fun ⟨n', x⟩ => absurd x (s n')⟩
  rw [← key]
  have hof : ∀ r : Mgr × Option Pnms.Err, ((finish E (ofPnms r)).out = [] ∧ (finish E (ofPnms r)).code = 0) ↔ r.2 = none := by
    intro r
    obtain ⟨m', e⟩ := r
    cases e with
    | none => exact ⟨fun _ => rfl, fun _ => ⟨rfl, rfl⟩⟩
    | some e => exact ⟨fun x => by have := x.1; simp [finish, ofPnms] at this, fun x => by cases x⟩
  cases c with
  | add k t args => exact hof _
  | remove k => exact hof _
  | config k v args =>
    show ((finish E (withDevice m k fun m' t => ofPnms (Pnms.configDevice m' k t v args))).out = [] ∧ (finish E (withDevice m k fun m' t => ofPnms (Pnms.configDevice m' k t v args))).code = 0) ↔
      (Pnms.perform m (.config k v args)).2 = none
    unfold withDevice Pnms.perform
    dsimp only
    cases hg : Pnms.get m k with
    | mk m' r => cases r with
      | error e => exact ⟨fun x => by have := x.1; simp [finish] at this, fun x => by cases x⟩
      | ok o => cases o with
        | none => exact ⟨fun x => by have := x.2; simp [finish] at this, fun x => by cases x⟩
        | some t => exact hof _
  | _ => exact absurd rfl hch

/-- What `status` reads is there when ports and the contents of the files of the devices are numbers. -/
theorem sane_reports {E : Env} {n : Net} (hl : ∀ k c, n.link k = some c → n.Ap c) (hr : ∃ d, Routes.Rep d n.routes) (h : Sane E n) {k : Str} (hk : n.dev k ≠ none) :
    ∃ r, Reports E n k r := by
  have hpid : ∃ x, Pid E k x := by
    cases hf : E.pidFile k with
    | none => exact ⟨_, .nofile hf⟩
    | some c =>
      obtain ⟨i, hi⟩ := h.pids k c hf
      by_cases h0 : i = 0
      · subst h0; exact ⟨_, .zero hf hi⟩
      · exact ⟨_, .pid hf hi h0⟩
  have hlis : ∀ j u b p, n.dev j = some (.ap u b p) → ∃ l, Listens E j p l := by
    intro j u b p hj
    cases p with
    | managed =>
      by_cases hs : E.state j = .enabled
      · obtain ⟨c, line, i, h1, h2, h3⟩ := h.status j _ hj hs
        exact ⟨_, .managed hs h1 h2 h3⟩
      · exact ⟨_, .managedOff hs⟩
    | loc q => obtain ⟨i, hi⟩ := h.ports j u b _ hj q rfl; exact ⟨_, .loc hi⟩
    | pub q => obtain ⟨i, hi⟩ := h.ports j u b _ hj q rfl; exact ⟨_, .pub hi⟩
    | remote x q => obtain ⟨i, hi⟩ := h.ports j u b _ hj q rfl; exact ⟨_, .remote hi⟩
  obtain ⟨x, hx⟩ := hpid
  obtain ⟨s, hs⟩ := Option.ne_none_iff_exists'.mp hk
  cases s with
  | ap u b p =>
    cases u with
    | false => obtain ⟨l, hl'⟩ := hlis k _ _ _ hs; exact ⟨_, .switch hs hx hl'⟩
    | true => exact ⟨_, .unreliable hs hx⟩
  | iface a b =>
    have hlink : ∃ l, Link E n k l := by
      cases hc : n.link k with
      | none => exact ⟨_, .nothing hc⟩
      | some c =>
        obtain ⟨u, b', p, hd⟩ := hl k c hc
        obtain ⟨l, hl'⟩ := hlis c _ _ _ hd
        exact ⟨_, .to hc hd hl'⟩
    have hlife : ∃ y, Life E k y := by
      by_cases hst : E.state k = .enabled
      · obtain ⟨c, line, i, h1, h2, h3⟩ := h.status k _ hs hst
        by_cases hd : "disconnected".toList <:+: Routes.norm c
        · exact ⟨_, .failed hst h1 hd⟩
        · by_cases hc : "connected".toList <:+: Routes.norm c
          · exact ⟨_, .live hst h1 hd hc⟩
          · exact ⟨_, .unknown hst h1 hc⟩
      · exact ⟨_, .off hst⟩
    obtain ⟨l, hl'⟩ := hlink
    obtain ⟨y, hy⟩ := hlife
    obtain ⟨d, hd⟩ := hr
    exact ⟨_, .iface hs hx hl' hy (routed hd k)⟩

/-- C85, status: after any calls, `status` says about every device of the network what it is meant to say, a paragraph for each, if what it reads is there (it is, when ports and the contents of the files of the devices are numbers); otherwise it
ends with an error and says nothing about any of them. -/
theorem C85_status_partial (hist : List (Env × List Str)) (hp : ∀ x ∈ hist, x.1.path ≠ none) {cs : List Pnms.Cmd} (hc : Calls (hist.map (·.2)) cs) (hpl : ∀ c ∈ cs, c.Plain)
    (hty : ∀ c ∈ cs, Typable c) (E : Env) {p : Str} (hE : E.path = some p) (hf : E.file = session none hist) :
    ∃ n bs, Happen .init cs bs n ∧ (Sane E n → ∀ k, n.dev k ≠ none → ∃ r, Reports E n k r) ∧ (
      ((∀ k, n.dev k ≠ none → ∃ r, Reports E n k r) ∧ (execute E ["status".toList]).code = 0 ∧
        ∃ text ks rs, (execute E ["status".toList]).out = ["\nConfiguration: ".toList ++ p, text] ∧ paragraphs text = title :: rs ∧
          All2 (Reports E n) ks rs ∧ ks.Nodup ∧ ∀ k, k ∈ ks ↔ n.dev k ≠ none) ∨
      ((∃ k, n.dev k ≠ none ∧ ∀ r, ¬ Reports E n k r) ∧ (execute E ["status".toList]).out = ["\nConfiguration: ".toList ++ p, "Error executing pnetworking".toList])) := by
  obtain ⟨n, h1, h2⟩ := Pnms.happen_spec cs none .init Pnms.rep_init hpl
  have hone := OneLine.init.happen hty h1
  rw [← session_eq hist none .init cs Pnms.rep_init hp hc hpl, ← hf] at h2
  refine ⟨n, _, h1, fun hsane k hk => sane_reports ?_ ⟨_, h2.routes⟩ hsane hk, ?_⟩
  · intro k c hl
    rw [h2.core.link] at hl
    obtain ⟨h3, h4⟩ := Option.filter_eq_some_iff.mp hl
    obtain ⟨t, ht⟩ := Option.isSome_iff_exists.mp h4
    exact Pnms.Net.ap_iff.mpr ⟨t, ht, fun e => (h2.core.conn k c h3).2.2.2 (by rw [ht, e])⟩
  obtain ⟨m, hl, hr, he⟩ := execute_eq hE h2 .status
  rw [he]
  have hk : ∀ k, k ∈ m.mem.devices.keys ↔ n.dev k ≠ none := by
    intro k
    rw [mem_keys_iff, hr.rep.core.devs]
    unfold Pnms.Net.ty
    cases n.dev k <;> simp
  obtain ⟨s1, s2⟩ := statusText_spec (E := E) hr
  have e : perform E p m (.status none) = (match statusText E m with
    | some x => ⟨m.files, ["\nConfiguration: ".toList ++ p, x], .done⟩
    | none => ⟨m.files, ["\nConfiguration: ".toList ++ p], .raised⟩) := rfl
  rw [e]
  cases hx : statusText E m with
  | some x =>
    refine .inl ?_
    obtain ⟨rs, r1, rfl⟩ := s1 x hx
    refine ⟨fun k hk' => ?_, rfl, _, m.mem.devices.keys, rs, rfl, report_paragraphs hone r1, r1, hr.rep.core.wfd, hk⟩
    obtain ⟨r, _, hr'⟩ := all2_mem' r1 k ((hk k).mpr hk')
    exact ⟨r, hr'⟩
  | none =>
    refine .inr ⟨?_, rfl⟩
    apply Classical.byContradiction
    intro hn
    obtain ⟨x, h⟩ := s2 (fun k hk' => by
      apply Classical.byContradiction
      intro h
      exact hn ⟨k, (hk k).mp hk', fun r hr' => h ⟨r, hr'⟩⟩)
    rw [hx] at h; cases h

/-- C85, without a configuration directory: `status` says so; the commands that need it end with exit status 1, and nothing is written. -/
theorem C85_preinit {E : Env} (hp : E.path = none) {argv : List Str} {c : Cmd} (ha : Asks argv c) :
    after E argv = E.file ∧
    ((∃ o, c = .status o) → execute E argv = ⟨[], ["\nPNetworking not yet configured. Must initialize first.".toList], 0⟩) ∧
    ((∀ o, c ≠ .status o) → (∀ s, c ≠ .help s) → (∀ l o, c ≠ .init l o) → (execute E argv).out = [] ∧ (execute E argv).code = 1) := by
  have e : execute E argv = finish E (performNoPath E c) := by rw [execute, asks_iff.mpr ha]; dsimp only; rw [hp]
  have hf : (performNoPath E c).files = [] := by
    cases c with
    | help s => show (ofWork [] _).files = _; cases E.work (.help s) <;> rfl
    | init l o => show (ofWork [] _).files = _; cases E.work (.init l o) <;> rfl
    | _ => rfl
  refine ⟨?_, ?_, ?_⟩
  · rw [after, e, finish_files, hf]; rfl
  · rintro ⟨o, rfl⟩; rw [e]; rfl
  · intro h1 h2 h3
    rw [e]
    cases c with
    | status o => exact absurd rfl (h1 o)
    | help s => exact absurd rfl (h2 s)
    | init l o => exact absurd rfl (h3 l o)
    | _ => exact ⟨rfl, rfl⟩

/-- C85, unknown devices: after any calls, a command that starts, stops, queries or configures a device that does not exist has exit status 1. -/
theorem C85_unknown_partial (hist : List (Env × List Str)) (hp : ∀ x ∈ hist, x.1.path ≠ none) {cs : List Pnms.Cmd} (hc : Calls (hist.map (·.2)) cs) (hpl : ∀ c ∈ cs, c.Plain)
    (E : Env) (hE : E.path ≠ none) (hf : E.file = session none hist) {argv : List Str} {c : Cmd} (ha : Asks argv c) {k : Str} (hk : Routes.norm k = k) (hne : k ≠ [])
    (hcmd : c = .enable k ∨ c = .disable k ∨ (∃ v args, c = .query k v args) ∨ ∃ v args, c = .config k v args) :
    ∃ n bs, Happen .init cs bs n ∧ (n.dev k = none → (execute E argv).out = [] ∧ (execute E argv).code = 1 ∧ FileShows (after E argv) n) := by
  obtain ⟨n, h1, h2⟩ := Pnms.happen_spec cs none .init Pnms.rep_init hpl
  refine ⟨n, _, h1, fun hn => ?_⟩
  rw [← session_eq hist none .init cs Pnms.rep_init hp hc hpl, ← hf] at h2
  obtain ⟨p, hpp⟩ := Option.ne_none_iff_exists'.mp hE
  obtain ⟨m, hl, hr, he⟩ := execute_eq hpp h2 ha
  have hg : Pnms.get m k = (m, .ok none) := by
    rcases Pnms.get_loaded hr.loaded k with ⟨t, g, _⟩ | ⟨_, _, g⟩
    · rw [Pnms.Net.ty_none.mpr hn] at g; cases g
    · exact g hk hne
  have hw : ∀ f, withDevice m k f = ⟨m.files, [], .exits⟩ := by intro f; rw [withDevice, hg]
  have e : perform E p m c = ⟨m.files, [], .exits⟩ := by
    rcases hcmd with rfl | rfl | ⟨v, args, rfl⟩ | ⟨v, args, rfl⟩ <;> exact hw _
  rw [he, e]
  refine ⟨rfl, rfl, ?_⟩
  rw [after, he, e]
  have hs := hr.loaded.sync
  rw [Pnms.Mgr.file] at hs
  refine Pnms.shows_of_rep ?_
  show Rep ((m.files.getLast?.getD E.file).getD .empty) n
  rw [hs]
  exact hr.rep

/-! ## False -/

/-- False: `status` with a device never says anything about it; it ends with an error, whatever the network. -/
theorem C85_false_status_device (E : Env) {p k : Str} (hE : E.path = some p) (hk : k ≠ []) :
    (execute E ["status".toList, k]).out = ["\nConfiguration: ".toList ++ p, "Error executing pnetworking".toList] ∨
    (execute E ["status".toList, k]).code = 1 ∧ (execute E ["status".toList, k]).out = [] := by
  rw [execute, asks_iff.mpr (.statusOf k)]
  dsimp only
  rw [hE]
  dsimp only
  cases Pnms.load E.file with
  | mk m e => cases e with
    | some e => exact .inr ⟨rfl, rfl⟩
    | none =>
      cases k with
      | nil => exact absurd rfl hk
      | cons _ _ => exact .inl rfl

/-- False: `routes` writes the same two lines whatever the routes are, and ends with an error. -/
theorem C85_false_routes (E : Env) {p : Str} (hE : E.path = some p) :
    (execute E ["routes".toList]).out = ["<bound method RoutesStatusOutputProcessor.process>".toList, "Error executing pnetworking".toList] ∨
    (execute E ["routes".toList]).code = 1 ∧ (execute E ["routes".toList]).out = [] := by
  rw [execute, asks_iff.mpr .routes]
  dsimp only
  rw [hE]
  dsimp only
  cases Pnms.load E.file with
  | mk m e => cases e with
    | some e => exact .inr ⟨rfl, rfl⟩
    | none => exact .inl rfl

/-- With a file that cannot be loaded, a call that is understood writes nothing and has exit status 1, and the file stays as bad. -/
theorem execute_broken {E : Env} {p : Str} (hp : E.path = some p) (h : Pnms.Broken (E.file.getD .empty)) (argv : List Str) :
    (∀ c, Asks argv c → (execute E argv).out = [] ∧ (execute E argv).code = 1) ∧ Pnms.Broken ((after E argv).getD .empty) := by
  obtain ⟨h1, h2⟩ := Pnms.broken_load h
  cases hl : Pnms.load E.file with
  | mk m e =>
    rw [hl] at h1
    cases e with
    | none => exact absurd rfl h1
    | some e =>
      have key : ∀ c, parse argv = some c → execute E argv = ⟨m.files, [], 1⟩ := by
        intro c hc
        rw [execute, hc]
        dsimp only
        rw [hp]
        dsimp only
        rw [hl]
      refine ⟨fun c hc => ?_, ?_⟩
      · rw [key c (asks_iff.mpr hc)]; exact ⟨rfl, rfl⟩
      · cases hpa : parse argv with
        | none => rw [after, execute, hpa]; exact h
        | some c =>
          rw [after, key c hpa]
          have := (h2 .other).2
          rw [Pnms.after, Pnms.run, hl] at this
          exact this

theorem session_broken : ∀ (hist : List (Env × List Str)) (f : Option Cfg), (∀ x ∈ hist, x.1.path ≠ none) → Pnms.Broken (f.getD .empty) →
    Pnms.Broken ((session f hist).getD .empty)
  | [], _, _, h => h
  | (E, argv) :: hist, f, hp, h => by
    obtain ⟨p, hpp⟩ := Option.ne_none_iff_exists'.mp (hp (E, argv) (by simp))
    rw [session]
    exact session_broken hist _ (fun x hx => hp x (by simp [hx])) (execute_broken (E := { E with file := f }) (p := p) hpp h argv).2

/-- False: names that are not in lower case are accepted, without a word and with exit status 0; then every call that is understood, in every later process, ends with
exit status 1 and does nothing. -/
theorem C85_false_upper (hist : List (Env × List Str)) (hp : ∀ x ∈ hist, x.1.path ≠ none) {cs : List Pnms.Cmd} (hc : Calls (hist.map (·.2)) cs) (hpl : ∀ c ∈ cs, c.Plain) :
    ∃ n bs, Happen .init cs bs n ∧ ∀ (E : Env), E.path ≠ none → E.file = session none hist → ∀ k t args s, Routes.norm k ≠ k → n.dev (Routes.norm k) = none → Pnms.Describes t args s →
      (execute E ("add".toList :: k :: t :: args)).out = [] ∧ (execute E ("add".toList :: k :: t :: args)).code = 0 ∧
      ∀ (more : List (Env × List Str)), (∀ x ∈ more, x.1.path ≠ none) → ∀ (E' : Env), E'.path ≠ none → E'.file = session (after E ("add".toList :: k :: t :: args)) more →
        ∀ argv c, Asks argv c → (execute E' argv).out = [] ∧ (execute E' argv).code = 1 := by
  obtain ⟨n, h1, h2⟩ := Pnms.happen_spec cs none .init Pnms.rep_init hpl
  refine ⟨n, _, h1, ?_⟩
  intro E hE hf k t args s hk hd hs
  rw [← session_eq hist none .init cs Pnms.rep_init hp hc hpl, ← hf] at h2
  obtain ⟨p, hpp⟩ := Option.ne_none_iff_exists'.mp hE
  have ha : Asks ("add".toList :: k :: t :: args) (.add k t args) := .add k t args
  obtain ⟨m, hl, hr, he⟩ := execute_eq hpp h2 ha
  obtain ⟨k1, k2⟩ := Pnms.add_upper h2 hk hd hs
  have ea := after_eq hpp h2 ha
  have e2 : (Pnms.addDevice m k t args).2 = none := by rw [Pnms.run, hl] at k1; exact k1
  have e3 : execute E ("add".toList :: k :: t :: args) = ⟨(Pnms.addDevice m k t args).1.files, [], 0⟩ := by
    rw [he]
    show finish E (ofPnms (Pnms.addDevice m k t args)) = _
    rw [ofPnms, e2]
    rfl
  refine ⟨by rw [e3], by rw [e3], ?_⟩
  intro more hm E' hE' hf' argv c hac
  obtain ⟨p', hpp'⟩ := Option.ne_none_iff_exists'.mp hE'
  have hb : Pnms.Broken ((session (after E ("add".toList :: k :: t :: args)) more).getD .empty) := session_broken more _ hm (by rw [ea]; exact k2)
  exact (execute_broken hpp' (by rw [hf']; exact hb) argv).1 c hac

def w (s : String) : Str := s.toList

/-- A machine with a directory, on which nothing runs, and a user who answers. -/
def quiet : Env := ⟨some (w "/p"), none, fun _ => .disabled, fun _ => none, fun _ => none, fun _ => some [], true⟩

def exCalls : List (List Str) :=
  [[w "add", w "sw", w "switch", w "local", w "9090"], [w "add", w "v", w "vnic", w "1.2.3.4"], [w "config", w "v", w "connect", w "sw"], [w "add"],
   [w "config", w "v", w "route", w "add", w "1.*.*.*"], [w "config", w "v", w "route", w "add", w "default"], [w "status"], [w "enable", w "v"], [w "add", w "m", w "switch", w "manual"],
   [w "config", w "v", w "connect", w "nobody"]]

def exHist : List (Env × List Str) := exCalls.map fun a => (quiet, a)

def exCmds : List Pnms.Cmd :=
  [.add (w "sw") (w "switch") [w "local", w "9090"], .add (w "v") (w "vnic") [w "1.2.3.4"], .config (w "v") (w "connect") [w "sw"],
   .config (w "v") (w "route") [w "add", w "1.*.*.*"], .config (w "v") (w "route") [w "add", w "default"], .other, .other, .add (w "m") (w "switch") [w "manual"],
   .config (w "v") (w "connect") [w "nobody"]]

/-- The calls are what they look like, and meet the hypotheses. -/
example : Calls (exHist.map (·.2)) exCmds ∧ (∀ c ∈ exCmds, c.Plain) ∧ (∀ c ∈ exCmds, Typable c) ∧ ∀ x ∈ exHist, x.1.path ≠ none := by
  refine ⟨?_, ?_, ?_, ?_⟩
  · refine .asks (.add _ _ _) (.asks (.add _ _ _) (.asks (.config _ _ _) (.usage ?_ (.asks (.config _ _ _) (.asks (.config _ _ _) (.asks .status (.asks (.enable _) (.asks (.add _ _ _)
      (.asks (.config _ _ _) .nil)))))))))
    intro c hc
    have := asks_iff.mpr hc
    cases this
  · intro c hc
    simp only [exCmds, List.mem_cons, List.not_mem_nil, or_false] at hc
    rcases hc with rfl | rfl | rfl | rfl | rfl | rfl | rfl | rfl | rfl <;> first | trivial | (show Routes.norm _ = _; decide +kernel) | (show ∀ a ∈ _, Routes.norm a = a ∧ a ≠ Routes.defaultKey; decide +kernel)
  · intro c hc
    simp only [exCmds, List.mem_cons, List.not_mem_nil, or_false] at hc
    rcases hc with rfl | rfl | rfl | rfl | rfl | rfl | rfl | rfl | rfl <;> first | exact trivial | (show '\n' ∉ _ ∧ ∀ a ∈ _, '\n' ∉ a; decide +kernel) | (show ∀ a ∈ _, '\n' ∉ a; decide +kernel)
  · decide +kernel

/-- Then, with the switch `m` and the interface running: -/
def busy : Env :=
  { quiet with
    file := session none exHist
    state := fun k => if k = w "m" ∨ k = w "v" then .enabled else .disabled
    pidFile := fun k => if k = w "m" then some (w " 77\n") else none
    statusFile := fun k => if k = w "m" then some (w "9091\n") else if k = w "v" then some (w "9092\nConnected\n") else none }

example : (execute busy [w "status"]).code = 0 ∧ (execute busy [w "status"]).out = [w "\nConfiguration: /p",
    w ("\nPlayground Networking Configuration:\n-------------------------------------\n\n" ++
     "switch sw:\n\tStatus: Disabled \n\tAuto-Enable: True\n\tPNMS Managed: False\n\tTCP Location: 127.0.0.1:9090\n\n" ++
     "vnic v:\n\tStatus: Enabled \n\tAuto-Enable: True\n\tPlayground Address: 1.2.3.4\n\tConnected To: sw (127.0.0.1:9090) (Live)\n\tRoutes:\n\t\t1.*.*.*\n\t\t__default__\n\n" ++
     "switch m:\n\tStatus: Enabled (PID: 77)\n\tAuto-Enable: False\n\tPNMS Managed: True\n\tTCP Location: 127.0.0.1:9091\n\n")] := by decide +kernel

example : (exHist.map (·.2)).map (fun a => (execute { quiet with file := session none exHist } a).code) = [0, 0, 0, 2, 0, 0, 0, 0, 0, 0] := by decide +kernel

/-- False: exit status 0 does not mean that the command was carried out. When the user answers the question whether to show the stack trace, it is 0; here, a device is added twice. -/
theorem C85_false_zero : (execute { quiet with file := session none exHist } [w "add", w "v", w "vnic", w "9.9.9.9"]).code = 0 ∧
    (execute { quiet with file := session none exHist } [w "add", w "v", w "vnic", w "9.9.9.9"]).out = ["Error executing pnetworking".toList] ∧
    after { quiet with file := session none exHist } [w "add", w "v", w "vnic", w "9.9.9.9"] = session none exHist := by decide +kernel

/-- False: a port that is no number is accepted, and then `status` fails for all devices. -/
theorem C85_false_port : (execute { quiet with file := session none exHist } [w "add", w "x", w "switch", w "local", w "abc"]).out = [] ∧
    (execute { quiet with file := session none exHist } [w "add", w "x", w "switch", w "local", w "abc"]).code = 0 ∧
    (execute { busy with file := session none (exHist ++ [(quiet, [w "add", w "x", w "switch", w "local", w "abc"])]) } [w "status"]).out =
      [w "\nConfiguration: /p", "Error executing pnetworking".toList] := by decide +kernel

/-- `C85_false_upper` at work. -/
example : (execute { quiet with file := session none exHist } [w "add", w "X", w "vnic", w "1.1.1.1"]).out = [] ∧
    (execute { quiet with file := session none (exHist ++ [(quiet, [w "add", w "X", w "vnic", w "1.1.1.1"])]) } [w "status"]) = ⟨[], [], 1⟩ := by decide +kernel

/-- False: a device that does not run can be shown with the number of a process that is gone: the file is read before it is cleaned up. -/
theorem C85_false_stale_pid : (execute { quiet with file := some ⟨[(w "u", w "unreliable_switch")], [], [], [(w "u", [(w "auto_enable", w "true"), (w "physical_connection_type", w "managed")])]⟩, pidFile := fun _ => some (w "77") } [w "status"]).out =
    [w "\nConfiguration: /p", w ("\nPlayground Networking Configuration:\n-------------------------------------\n\n" ++
      "unreliable_switch u:\n\tStatus: Disabled (PID: 77)\n\tAuto-Enable: True\n\n")] := by decide +kernel

end Verif.Cli
