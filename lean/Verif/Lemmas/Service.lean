import Verif.Spec.Service
import Verif.Lemmas.Dict
/-! # Lemmas about the connector service -/
namespace Verif.Service

theorem lastOf_snoc (name m : Str) (c : Nat) (l : List (Str × Nat)) : lastOf name (l ++ [(m, c)]) = if m = name then some c else lastOf name l := by
  unfold lastOf
  rw [List.filter_append]
  by_cases h : m = name <;> simp [h]

theorem exec_append : ∀ (h : List Ev) (s : St) (h' : List Ev), exec s (h ++ h') = exec (exec s h) h'
  | [], _, _ => rfl
  | _ :: h, _, h' => exec_append h _ h'

/-- The two tables hold the last of two lists of connectors. -/
def Rep (s : St) (L D : List (Str × Nat)) : Prop := (∀ n, s.conns.get n = lastOf n L) ∧ ∀ n, s.defaults.get n = lastOf n D

theorem Rep.set {s : St} {L D : List (Str × Nat)} (h : Rep s L D) (n : Str) (c : Nat) :
    Rep (setConnector s n c) (L ++ [(n, c)]) (if s.auto then D else D ++ [(n, c)]) := by
  constructor
  · intro m
    show (s.conns.set n c).get m = _
    rw [Dict.get_set, lastOf_snoc, h.1 m]
  · intro m
    show Dict.get (if s.auto then s.defaults else s.defaults.set n c) m = _
    split
    · exact h.2 m
    · rw [Dict.get_set, lastOf_snoc, h.2 m]

theorem setAll_auto : ∀ (l : List (Str × Nat)) (s : St), (setAll s l).auto = s.auto ∧ (setAll s l).loaded = s.loaded ∧
    (setAll s l).sysPath = s.sysPath
  | [], _ => ⟨rfl, rfl, rfl⟩
  | (n, c) :: l, s => setAll_auto l (setConnector s n c)

theorem Rep.setAll : ∀ (l : List (Str × Nat)) {s : St} {L D : List (Str × Nat)}, Rep s L D → s.auto = true → Rep (setAll s l) (L ++ l) D
  | [], _, L, _, h, _ => by rw [List.append_nil]; exact h
  | (n, c) :: l, s, L, D, h, ha => by
    have := h.set n c
    rw [ha, if_pos rfl] at this
    have := Rep.setAll l this ha
    rw [List.append_assoc] at this
    exact this

theorem runMods_rep : ∀ (ms : List Mod) {s : St} {L D : List (Str × Nat)}, Rep s L D → s.auto = true → (∀ m ∈ ms, m.pkg = true → m.ends ≠ .fatal) →
    Rep (runMods s ms).1 (L ++ ms.flatMap fun m => if m.pkg then m.sets else []) D ∧ (runMods s ms).2 = false
  | [], _, L, _, h, _, _ => by
    rw [List.flatMap_nil, List.append_nil]; exact ⟨h, rfl⟩
  | m :: ms, s, L, D, h, ha, hf => by
    unfold runMods
    rw [List.flatMap_cons, ← List.append_assoc]
    by_cases hp : m.pkg = true
    · rw [if_pos hp, if_pos hp]
      have hr := Rep.setAll m.sets h ha
      have ha' := (setAll_auto m.sets s).1.trans ha
      have := runMods_rep ms hr ha' (fun x hx => hf x (List.mem_cons_of_mem _ hx))
      cases he : m.ends with
      | fatal => exact absurd he (hf m (List.mem_cons_self ..) hp)
      | ok => exact this
      | exception => exact this
    · rw [if_neg hp, if_neg hp, List.append_nil]
      exact runMods_rep ms h ha (fun x hx => hf x (List.mem_cons_of_mem _ hx))

/-- The modules never change the program's own connectors. -/
theorem runMods_defaults : ∀ (ms : List Mod) {s : St}, s.auto = true → (runMods s ms).1.defaults = s.defaults
  | [], _, _ => rfl
  | m :: ms, s, ha => by
    have key : ∀ (l : List (Str × Nat)) (s : St), s.auto = true → (setAll s l).defaults = s.defaults := by
      intro l
      induction l with
      | nil => intro s _; rfl
      | cons x l ih =>
        intro s ha
        obtain ⟨n, c⟩ := x
        refine (ih (setConnector s n c) ha).trans ?_
        show (if s.auto then s.defaults else s.defaults.set n c) = s.defaults
        rw [if_pos ha]
    unfold runMods
    split
    · have := runMods_defaults ms (s := setAll s m.sets) ((setAll_auto m.sets s).1.trans ha)
      cases m.ends
      · exact this.trans (key _ _ ha)
      · exact this.trans (key _ _ ha)
      · exact key _ _ ha
    · exact runMods_defaults ms ha

/-- What one load does. -/
theorem reload_cases (s : St) (force : Bool) (env : Env) (L D : List (Str × Nat)) (h : Rep s L D) :
    (s.loaded = true ∧ force = false → reload s force env = (s, none)) ∧
    (¬ (s.loaded = true ∧ force = false) → Completes env →
      Rep (reload s force env).1 (D ++ modSets env) D ∧ (reload s force env).1.loaded = true ∧ (reload s force env).1.auto = false ∧
        (reload s force env).2 = none) ∧
    (¬ (s.loaded = true ∧ force = false) → ¬ Completes env → ¬ Dies env →
      Rep (reload s force env).1 D D ∧ (reload s force env).1.loaded = s.loaded ∧ (reload s force env).1.auto = s.auto ∧
        (reload s force env).2 ≠ none) := by
  refine ⟨?_, ?_, ?_⟩
  · rintro ⟨h1, h2⟩
    unfold reload
    rw [h1, h2]
    rfl
  · intro hl ⟨p, ms, hp, hi, hm, hf⟩
    unfold reload
    rw [if_neg (by simpa using hl)]
    dsimp only
    rw [hp]
    dsimp only
    rw [if_pos hi, hm]
    dsimp only
    have hD : Rep { { s with conns := s.defaults } with
        sysPath := if p ∈ s.sysPath then s.sysPath else p :: s.sysPath, auto := true } D D := ⟨h.2, h.2⟩
    have := runMods_rep ms hD rfl hf
    cases hr : runMods { { s with conns := s.defaults } with
        sysPath := if p ∈ s.sysPath then s.sysPath else p :: s.sysPath, auto := true } ms with
    | mk s4 b =>
      rw [hr] at this
      obtain ⟨h1, h2⟩ := this
      have h2 : b = false := h2
      subst h2
      refine ⟨?_, rfl, rfl, rfl⟩
      unfold modSets
      rw [hm, Option.getD_some]
      exact h1
  · intro hl hc hd
    unfold reload
    rw [if_neg (by simpa using hl)]
    dsimp only
    cases hp : env.path with
    | none => exact ⟨⟨h.2, h.2⟩, rfl, rfl, (fun h => nomatch h)⟩
    | some p =>
      dsimp only
      by_cases hi : env.initOk = true
      · exfalso
        cases hm : env.listing with
        | none => exact hd ⟨p, hp, hi, .inl hm⟩
        | some ms =>
          by_cases hf : ∃ m ∈ ms, m.pkg = true ∧ m.ends = .fatal
          · exact hd ⟨p, hp, hi, .inr ⟨ms, hm, hf⟩⟩
          · exact hc ⟨p, ms, hp, hi, hm, fun m h1 h2 h3 => hf ⟨m, h1, h2, h3⟩⟩
      · rw [if_neg hi]
        exact ⟨⟨h.2, h.2⟩, rfl, rfl, (fun h => nomatch h)⟩

/-- A call other than `setConnector` changes the state as a load does, or not at all. -/
theorem step_env (s : St) (e : Ev) : (∃ n c, e = .set n c) ∨ (e.env = none ∧ step s e = s ∧ ∀ n c, e ≠ .set n c) ∨
    ∃ env, e.env = some env ∧ ((∃ env', e = .reload true env') → step s e = (reload s true env).1) ∧
      ((¬ ∃ env', e = .reload true env') → step s e = (reload s false env).1) := by
  have hget : ∀ n env, (getConnector s n env).1 = (reload s false env).1 := by
    intro n env
    unfold getConnector
    cases reload s false env with
    | mk s1 o =>
      cases o with
      | some e => rfl
      | none => dsimp only; split <;> rfl
  have hcon : ∀ h f env, (∀ x, resolve f h = .ok x → (createConnection s h f env).1 = (reload s false env).1) ∧
      ∀ x, resolve f h = .error x → (createConnection s h f env).1 = s := by
    intro h f env
    unfold createConnection
    constructor
    · intro x hx
      rw [hx]
      obtain ⟨f', h'⟩ := x
      dsimp only
      have := hget f' env
      cases hg : getConnector s f' env with
      | mk s1 r => rw [hg] at this; cases r <;> exact this
    · intro x hx
      rw [hx]
  cases e with
  | set n c => exact .inl ⟨n, c, rfl⟩
  | reload force env =>
    refine .inr (.inr ⟨env, rfl, ?_, ?_⟩)
    · rintro ⟨env', h⟩; cases h; rfl
    · intro h
      cases force with
      | true => exact absurd ⟨env, rfl⟩ h
      | false => rfl
  | get n env =>
    refine .inr (.inr ⟨env, rfl, ?_, fun _ => hget n env⟩)
    rintro ⟨env', h⟩; cases h
  | connect h f env =>
    cases hr : resolve f h with
    | error x => exact .inr (.inl ⟨by simp [Ev.env, hr], (hcon h f env).2 x hr, (fun _ _ h => nomatch h)⟩)
    | ok x =>
      refine .inr (.inr ⟨env, by simp [Ev.env, hr], ?_, fun _ => (hcon h f env).1 x hr⟩)
      rintro ⟨env', h⟩; cases h
  | serve h p f env =>
    cases p with
    | none => exact .inr (.inl ⟨rfl, rfl, (fun _ _ h => nomatch h)⟩)
    | some p =>
      have he : step s (.serve h (some p) f env) = (createConnection s (some (h.getD "default".toList)) f env).1 := by
        cases h <;> rfl
      rw [he]
      cases hr : resolve f (some (h.getD "default".toList)) with
      | error x => exact .inr (.inl ⟨by simp only [Ev.env, hr], (hcon _ f env).2 x hr, (fun _ _ h => nomatch h)⟩)
      | ok x =>
        refine .inr (.inr ⟨env, by simp only [Ev.env, hr], ?_, fun _ => (hcon _ f env).1 x hr⟩)
        rintro ⟨env', h⟩; cases h

theorem appSets_snoc_set (h : List Ev) (n : Str) (c : Nat) : appSets (h ++ [.set n c]) = appSets h ++ [(n, c)] := by
  unfold appSets
  rw [List.filterMap_append]
  rfl

theorem appSets_snoc_ne (h : List Ev) (e : Ev) (he : ∀ n c, e ≠ .set n c) : appSets (h ++ [e]) = appSets h := by
  unfold appSets
  rw [List.filterMap_append]
  cases e with
  | set n c => exact absurd rfl (he n c)
  | _ => simp

theorem snocInd {α : Type} {P : List α → Prop} (nil : P []) (snoc : ∀ h e, P h → P (h ++ [e])) : ∀ h, P h := by
  intro h
  have : ∀ r : List α, P r.reverse := by
    intro r
    induction r with
    | nil => exact nil
    | cons e r ih => rw [List.reverse_cons]; exact snoc _ _ ih
  have := this h.reverse
  rwa [List.reverse_reverse] at this

/-- What holds as long as no load dies; `L` are the connectors in force. -/
structure Good (h : List Ev) (s : St) (L : List (Str × Nat)) : Prop where
  auto : s.auto = false
  loaded : s.loaded = true ↔ ∃ e ∈ h, ∃ env, e.env = some env ∧ Completes env
  rep : Rep s L (("default".toList, 0) :: appSets h)

theorem Good.init (p : List Str) : Good [] (.init p) [("default".toList, 0)] := by
  have key : ∀ n, Dict.get [("default".toList, 0)] n = lastOf n [("default".toList, 0)] := by
    intro n
    have := lastOf_snoc n "default".toList 0 []
    rw [List.nil_append] at this
    rw [this]
    rfl
  refine ⟨rfl, ?_, key, key⟩
  constructor
  · intro h; cases h
  · rintro ⟨e, he, _⟩; cases he

theorem env_ne_set {e : Ev} {env : Env} (he : e.env = some env) : ∀ n c, e ≠ .set n c := by
  intro n c h
  rw [h] at he
  cases he

/-- One call. -/
theorem Good.step {h : List Ev} {s : St} {L : List (Str × Nat)} (hg : Good h s L) (e : Ev) (hd : ∀ env, e.env = some env → ¬ Dies env) :
    ∃ L', Good (h ++ [e]) (step s e) L' ∧
      (∀ n c, e = .set n c → L' = L ++ [(n, c)]) ∧
      ((∀ n c, e ≠ .set n c) → e.env = none → L' = L) ∧
      (∀ env, e.env = some env → (¬ ∃ env', e = .reload true env') → s.loaded = true → L' = L) ∧
      (∀ env, e.env = some env → ((∃ env', e = .reload true env') ∨ s.loaded = false) → Completes env →
        L' = ("default".toList, 0) :: appSets h ++ modSets env) ∧
      (∀ env, e.env = some env → ((∃ env', e = .reload true env') ∨ s.loaded = false) → ¬ Completes env →
        L' = ("default".toList, 0) :: appSets h) := by
  rcases step_env s e with ⟨n, c, rfl⟩ | ⟨h1, h2, hset⟩ | ⟨env, h1, h2, h3⟩
  · refine ⟨L ++ [(n, c)], ⟨hg.auto, ?_, ?_⟩, ?_, ?_, ?_, ?_, ?_⟩
    · show s.loaded = true ↔ _
      rw [hg.loaded]
      constructor
      · rintro ⟨e, he, x⟩; exact ⟨e, List.mem_append_left _ he, x⟩
      · rintro ⟨e, he, env, hx, y⟩
        rcases List.mem_append.1 he with he | he
        · exact ⟨e, he, env, hx, y⟩
        · rw [List.mem_singleton.1 he] at hx; cases hx
    · have := hg.rep.set n c
      rw [hg.auto] at this
      rw [appSets_snoc_set]
      exact this
    · intro n' c' he; cases he; rfl
    · intro he; exact absurd rfl (he n c)
    · intro env he; cases he
    · intro env he; cases he
    · intro env he; cases he
  · refine ⟨L, ⟨?_, ?_, ?_⟩, ?_, ?_, ?_, ?_, ?_⟩
    · rw [h2]; exact hg.auto
    · rw [h2, hg.loaded]
      constructor
      · rintro ⟨e, he, x⟩; exact ⟨e, List.mem_append_left _ he, x⟩
      · rintro ⟨e, he, env, hx, y⟩
        rcases List.mem_append.1 he with he | he
        · exact ⟨e, he, env, hx, y⟩
        · rw [List.mem_singleton.1 he, h1] at hx; cases hx
    · rw [h2, appSets_snoc_ne h e hset]; exact hg.rep
    · intro n c he; exact absurd he (hset n c)
    · intro _ _; rfl
    · intro env he; rw [h1] at he; cases he
    · intro env he; rw [h1] at he; cases he
    · intro env he; rw [h1] at he; cases he
  · have hset := env_ne_set h1
    have key : ∃ b : Bool, Service.step s e = (reload s b env).1 ∧ (b = true ↔ ∃ env', e = .reload true env') := by
      by_cases hF : ∃ env', e = .reload true env'
      · exact ⟨true, h2 hF, (fun _ => hF), (fun _ => rfl)⟩
      · exact ⟨false, h3 hF, (fun h => nomatch h), (fun h => absurd h hF)⟩
    obtain ⟨b, hb, hF⟩ := key
    obtain ⟨c1, c2, c3⟩ := reload_cases s b env _ _ hg.rep
    have hmem : ∀ (P : Prop), ((∃ x ∈ h, ∃ env, x.env = some env ∧ Completes env) ∨ P) → (P → Completes env) →
        ∃ x ∈ h ++ [e], ∃ env, x.env = some env ∧ Completes env := by
      rintro P (⟨x, hx, y⟩ | hP) hc
      · exact ⟨x, List.mem_append_left _ hx, y⟩
      · exact ⟨e, by simp, env, h1, hc hP⟩
    rw [hb, ← hF]
    by_cases hn : s.loaded = true ∧ b = false
    · rw [c1 hn]
      refine ⟨L, ⟨hg.auto, ?_, ?_⟩, ?_, ?_, ?_, ?_, ?_⟩
      · constructor
        · intro hl; exact hmem False (.inl (hg.loaded.1 hl)) False.elim
        · intro _; exact hn.1
      · rw [appSets_snoc_ne h e hset]; exact hg.rep
      · intro n c he; exact absurd he (hset n c)
      · intro _ _; rfl
      · intro _ _ _ _; rfl
      · intro _ _ hh
        rw [hn.1, hn.2] at hh
        rcases hh with hh | hh <;> cases hh
      · intro _ _ hh
        rw [hn.1, hn.2] at hh
        rcases hh with hh | hh <;> cases hh
    · by_cases hc : Completes env
      · obtain ⟨d1, d2, d3, d4⟩ := c2 hn hc
        refine ⟨("default".toList, 0) :: appSets h ++ modSets env, ⟨d3, ?_, ?_⟩, ?_, ?_, ?_, ?_, ?_⟩
        · constructor
          · intro _; exact hmem True (.inr trivial) (fun _ => hc)
          · intro _; exact d2
        · rw [appSets_snoc_ne h e hset]; exact d1
        · intro n c he; exact absurd he (hset n c)
        · intro _ he; rw [h1] at he; cases he
        · intro _ _ hx hy
          exfalso; apply hn
          refine ⟨hy, ?_⟩
          cases b with
          | true => exact absurd rfl hx
          | false => rfl
        · intro env' he _ _
          rw [h1] at he; cases he; rfl
        · intro env' he _ hx
          rw [h1] at he; cases he; exact absurd hc hx
      · obtain ⟨d1, d2, d3, d4⟩ := c3 hn hc (hd env h1)
        refine ⟨("default".toList, 0) :: appSets h, ⟨d3.trans hg.auto, ?_, ?_⟩, ?_, ?_, ?_, ?_, ?_⟩
        · rw [d2, hg.loaded]
          constructor
          · intro hx; exact hmem False (.inl hx) False.elim
          · rintro ⟨x, hx, env', hy, hz⟩
            rcases List.mem_append.1 hx with hx | hx
            · exact ⟨x, hx, env', hy, hz⟩
            · rw [List.mem_singleton.1 hx, h1] at hy
              cases hy
              exact absurd hz hc
        · rw [appSets_snoc_ne h e hset]; exact d1
        · intro n c he; exact absurd he (hset n c)
        · intro _ he; rw [h1] at he; cases he
        · intro _ _ hx hy
          exfalso; apply hn
          refine ⟨hy, ?_⟩
          cases b with
          | true => exact absurd rfl hx
          | false => rfl
        · intro env' he _ hx
          rw [h1] at he; cases he; exact absurd hx hc
        · intro _ _ _ _; rfl

/-- Histories without a load that dies. -/
theorem Good.reachable (p : List Str) : ∀ (h : List Ev), (∀ e ∈ h, ∀ env, e.env = some env → ¬ Dies env) → ∃ L, Good h (exec (.init p) h) L := by
  intro h
  induction h using Verif.Service.snocInd with
  | nil => intro _; exact ⟨_, Good.init p⟩
  | snoc h e ih =>
    intro hd
    obtain ⟨L, hL⟩ := ih (fun x hx => hd x (List.mem_append_left _ hx))
    obtain ⟨L', hL', _⟩ := hL.step e (hd e (by simp))
    rw [exec_append]
    exact ⟨L', hL'⟩

/-- After a load, without another one. -/
theorem Good.after {p : List Str} {h1 : List Ev} {L : List (Str × Nat)} : ∀ (h2 : List Ev), Good h1 (exec (.init p) h1) L →
    (exec (.init p) h1).loaded = true → (∀ e ∈ h2, ∀ env, e.env = some env → ¬ Dies env) → (∀ env, .reload true env ∉ h2) →
    Good (h1 ++ h2) (exec (.init p) (h1 ++ h2)) (L ++ appSets h2) := by
  intro h2 hg hl
  induction h2 using Verif.Service.snocInd with
  | nil =>
    intro _ _
    rw [show appSets [] = [] from rfl, List.append_nil, List.append_nil]
    exact hg
  | snoc h2 e ih =>
    intro hd hf
    have hi := ih (fun x hx => hd x (List.mem_append_left _ hx)) (fun env hx => hf env (List.mem_append_left _ hx))
    have hl' : (exec (.init p) (h1 ++ h2)).loaded = true := by
      rw [hi.loaded]
      obtain ⟨x, hx, y⟩ := hg.loaded.1 hl
      exact ⟨x, List.mem_append_left _ hx, y⟩
    obtain ⟨L', hL', c1, c2, c3, _⟩ := hi.step e (hd e (by simp))
    have he : L' = L ++ appSets (h2 ++ [e]) := by
      by_cases hs : ∃ n c, e = .set n c
      · obtain ⟨n, c, rfl⟩ := hs
        rw [c1 n c rfl, appSets_snoc_set, List.append_assoc]
      · have hs' : ∀ n c, e ≠ .set n c := fun n c hh => hs ⟨n, c, hh⟩
        rw [appSets_snoc_ne h2 e hs']
        cases hen : e.env with
        | none => exact c2 hs' hen
        | some env =>
          refine c3 env hen ?_ hl'
          rintro ⟨env', rfl⟩
          exact hf env' (by simp)
    rw [← List.append_assoc, exec_append]
    rw [← he]
    exact hL'

end Verif.Service
