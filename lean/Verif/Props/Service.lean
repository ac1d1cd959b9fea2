import Verif.Lemmas.Service
/-! # C71: the connector asked for is the one used -/
namespace Verif.Service

/-- The state in which a call of `getConnector` looks the name up. -/
theorem get_result (s : St) (n : Str) (env : Env) : (getConnector s n env).2 = match (reload s false env).2 with
    | some e => .error e
    | none => match (reload s false env).1.conns.get n with
      | none => .error (.noSuch n)
      | some c => .ok c := by
  unfold getConnector
  cases reload s false env with
  | mk s1 o =>
    cases o with
    | some e => rfl
    | none => dsimp only; cases s1.conns.get n <;> rfl

/-- **C71** (partial: as long as no load of connectors was broken off in the middle): `getConnector` returns the connector set last under this
name, by the program at any time or by the modules at the last load, whatever loads were before; and raises exactly when there is none. -/
theorem C71_get_partial (p : List Str) (h1 h2 : List Ev) (e : Ev) (name : Str) (env env' : Env) (he : e.env = some env) (hl : Loads h1 e)
    (hd : ∀ x ∈ h1 ++ h2, ∀ env, x.env = some env → ¬ Dies env) (hf : ∀ env, .reload true env ∉ h2) :
    (getConnector (exec (.init p) (h1 ++ e :: h2)) name env').2 =
      match lastOf name (("default".toList, 0) :: appSets h1 ++ modSets env ++ appSets h2) with
      | some c => .ok c
      | none => .error (.noSuch name) := by
  obtain ⟨env0, h0, hc, hw⟩ := hl
  rw [he] at h0
  cases h0
  obtain ⟨L, hL⟩ := Good.reachable p h1 (fun x hx => hd x (List.mem_append_left _ hx))
  have hnd : ¬ Dies env := by
    obtain ⟨p1, l1, a1, a2, a3, a4⟩ := hc
    rintro ⟨p2, b1, b2, b3 | ⟨l, b3, m, b4, b5, b6⟩⟩
    · rw [a3] at b3; cases b3
    · rw [a3] at b3; cases b3; exact a4 m b4 b5 b6
  obtain ⟨L', hL', _, _, _, c4, _⟩ := hL.step e (fun env' h => by rw [he] at h; cases h; exact hnd)
  have hL1 : L' = ("default".toList, 0) :: appSets h1 ++ modSets env := by
    refine c4 env he ?_ hc
    rcases hw with hw | hw
    · exact .inl hw
    · right
      rw [← Bool.not_eq_true, hL.loaded]
      rintro ⟨x, hx, env', y, z⟩
      exact hw x hx env' y z
  have hlo : (step (exec (.init p) h1) e).loaded = true := by
    rw [hL'.loaded]
    exact ⟨e, by simp, env, he, hc⟩
  have hstep : step (exec (.init p) h1) e = exec (.init p) (h1 ++ [e]) := by rw [exec_append]; rfl
  rw [hstep] at hL' hlo
  have := Good.after h2 hL' hlo (fun x hx => hd x (List.mem_append_right _ hx)) hf
  rw [List.append_assoc] at this
  have hsplit : h1 ++ ([e] ++ h2) = h1 ++ e :: h2 := rfl
  rw [hsplit] at this
  rw [get_result]
  have hlo' : (exec (.init p) (h1 ++ e :: h2)).loaded = true := by
    rw [this.loaded]
    exact ⟨e, by simp, env, he, hc⟩
  have hr : reload (exec (.init p) (h1 ++ e :: h2)) false env' = (exec (.init p) (h1 ++ e :: h2), none) := by
    unfold reload
    rw [hlo']
    rfl
  rw [hr]
  dsimp only
  rw [this.rep.1 name, hL1]
  cases lastOf name _ <;> rfl

/-- A directory with one module, and one without. -/
def exEnv : Env := ⟨some "/p".toList, true, some [⟨false, [("a".toList, 9)], .ok⟩, ⟨true, [("tls".toList, 5), ("a".toList, 6)], .exception⟩]⟩

example : Completes exEnv := ⟨_, _, rfl, rfl, rfl, by decide⟩
example : Loads [.set "a".toList 1] (.get "tls".toList exEnv) := ⟨exEnv, rfl, ⟨_, _, rfl, rfl, rfl, by decide⟩, .inr (by
  intro e he env h
  rw [List.mem_singleton.1 he] at h
  cases h)⟩
example : (getConnector (exec (.init []) [.set "a".toList 1, .get "tls".toList exEnv, .set "b".toList 2]) "a".toList exEnv).2 = .ok 6 := by
  decide +kernel
example : (getConnector (exec (.init []) [.get "tls".toList exEnv, .set "a".toList 1]) "a".toList exEnv).2 = .ok 1 := by decide +kernel
/-- A forced load forgets the modules' connectors, not the program's. -/
example : (getConnector (exec (.init []) [.set "b".toList 2, .reload false exEnv, .reload true ⟨some [], true, some []⟩]) "tls".toList exEnv).2 =
    .error (.noSuch "tls".toList) ∧
    (getConnector (exec (.init []) [.set "b".toList 2, .reload false exEnv, .reload true ⟨some [], true, some []⟩]) "b".toList exEnv).2 = .ok 2 := by
  decide +kernel

/-- **C71**: the first call of `getConnector` loads the connectors, and returns what is last set then. -/
theorem C71_first_partial (p : List Str) (h : List Ev) (name : Str) (env : Env) (hc : Completes env)
    (hd : ∀ x ∈ h, ∀ env, x.env = some env → ¬ Completes env ∧ ¬ Dies env) :
    (getConnector (exec (.init p) h) name env).2 =
      match lastOf name (("default".toList, 0) :: appSets h ++ modSets env) with
      | some c => .ok c
      | none => .error (.noSuch name) := by
  obtain ⟨L, hL⟩ := Good.reachable p h (fun x hx e y => (hd x hx e y).2)
  have hl : (exec (.init p) h).loaded = false := by
    rw [← Bool.not_eq_true, hL.loaded]
    rintro ⟨x, hx, env', y, z⟩
    exact (hd x hx env' y).1 z
  obtain ⟨_, c2, _⟩ := reload_cases (exec (.init p) h) false env _ _ hL.rep
  obtain ⟨d1, _, _, d4⟩ := c2 (by rw [hl]; exact fun h => nomatch h.1) hc
  rw [get_result, d4]
  dsimp only
  rw [d1.1 name]
  cases lastOf name _ <;> rfl

example : (getConnector (exec (.init []) [.get "a".toList ⟨none, true, none⟩, .set "x".toList 3]) "tls".toList exEnv).2 = .ok 5 := by decide +kernel

/-- **C71 is false** without a Playground directory: every call raises, also for connectors the program has set and for the default one. -/
theorem C71_false_nopath (p : List Str) (h : List Ev) (name : Str) (env : Env)
    (hd : ∀ x ∈ h, ∀ env, x.env = some env → env.path = none) (he : env.path = none) :
    (getConnector (exec (.init p) h) name env).2 = .error .noPath := by
  have hnc : ∀ env : Env, env.path = none → ¬ Completes env ∧ ¬ Dies env := by
    intro env h
    constructor
    · rintro ⟨p, _, h', _⟩; rw [h] at h'; cases h'
    · rintro ⟨p, h', _⟩; rw [h] at h'; cases h'
  obtain ⟨L, hL⟩ := Good.reachable p h (fun x hx e y => (hnc e (hd x hx e y)).2)
  have hl : (exec (.init p) h).loaded = false := by
    rw [← Bool.not_eq_true, hL.loaded]
    rintro ⟨x, hx, env', y, z⟩
    exact (hnc env' (hd x hx env' y)).1 z
  rw [get_result]
  unfold reload
  rw [hl, he]
  rfl

example : (getConnector (exec (.init []) [.set "x".toList 3]) "x".toList ⟨none, true, none⟩).2 = .error .noPath :=
  C71_false_nopath [] [.set "x".toList 3] _ _ (by intro x hx env h; rw [List.mem_singleton.1 hx] at h; cases h) rfl

/-- **C71 is false** after a load was broken off (a module called `sys.exit()`, the directory could not be read): what the program sets then is
forgotten at the next load. -/
theorem C71_false_dies : (getConnector (exec (.init []) [.reload true ⟨some [], true, some [⟨true, [], .fatal⟩]⟩, .set "x".toList 3]) "x".toList
    ⟨some [], true, some []⟩).2 = .error (.noSuch "x".toList) ∧
    (getConnector (exec (.init []) [.reload true ⟨some [], true, none⟩, .set "x".toList 3]) "x".toList
    ⟨some [], true, some []⟩).2 = .error (.noSuch "x".toList) := by decide +kernel

/-- **C71 is false** after a forced load that raises: the modules' connectors are gone, and no later call loads them again. -/
theorem C71_false_failed_reload : (getConnector (exec (.init []) [.reload false exEnv, .reload true ⟨none, true, none⟩]) "tls".toList exEnv).2 =
    .error (.noSuch "tls".toList) := by decide +kernel

/-- A load leaves the Playground directory in front of Python's search path, although the code means to restore it. -/
theorem C71_false_syspath (s : St) (force : Bool) (env : Env) (pth : Str) (hp : env.path = some pth) (hl : s.loaded = false ∨ force = true) :
    (reload s force env).1.sysPath = if pth ∈ s.sysPath then s.sysPath else pth :: s.sysPath := by
  have hrun : ∀ (ms : List Mod) (s : St), (runMods s ms).1.sysPath = s.sysPath := by
    intro ms
    induction ms with
    | nil => intro s; rfl
    | cons m ms ih =>
      intro s
      unfold runMods
      split
      · cases m.ends
        · exact (ih _).trans (setAll_auto _ _).2.2
        · exact (ih _).trans (setAll_auto _ _).2.2
        · exact (setAll_auto _ _).2.2
      · exact ih _
  unfold reload
  rw [if_neg (by rcases hl with hl | hl <;> simp [hl])]
  dsimp only
  rw [hp]
  dsimp only
  split
  · split
    · rfl
    · rename_i ms _
      have := hrun ms { { s with conns := s.defaults } with
        sysPath := if pth ∈ s.sysPath then s.sysPath else pth :: s.sysPath, auto := true }
      split
      · rename_i heq; rw [heq] at this; exact this
      · rename_i heq; rw [heq] at this; exact this
  · rfl

example : (reload (.init ["/lib".toList]) false exEnv).1.sysPath = ["/p".toList, "/lib".toList] := by decide +kernel

theorem splitScheme_ne (s : Str) : splitScheme s ≠ [] := by
  cases s with
  | nil => unfold splitScheme; simp
  | cons c s =>
    unfold splitScheme
    split
    · simp
    · split <;> simp

/-- What `split("://")` gives: the parts without `://`, which joined give the string. -/
theorem splitScheme_spec (s : Str) : (¬ HasScheme s ∧ splitScheme s = [s]) ∨
    ∃ x y, s = x ++ "://".toList ++ y ∧ ¬ HasScheme x ∧ splitScheme s = x :: splitScheme y := by
  induction s with
  | nil =>
    left
    refine ⟨?_, by unfold splitScheme; rfl⟩
    rintro ⟨a, b, h⟩
    cases a <;> cases h
  | cons c s ih =>
    by_cases hp : "://".toList.isPrefixOf (c :: s) = true
    · right
      rw [List.isPrefixOf_iff_prefix] at hp
      obtain ⟨y, hy⟩ := hp
      refine ⟨[], y, hy.symm, ?_, ?_⟩
      · rintro ⟨a, b, h⟩
        cases a <;> cases h
      · conv => lhs; unfold splitScheme
        rw [if_pos (by rw [List.isPrefixOf_iff_prefix]; exact ⟨y, hy⟩)]
        have : s.drop 2 = y := by
          have h2 : c :: s = ':' :: '/' :: '/' :: y := hy.symm
          cases h2
          rfl
        rw [this]
    · have hno : ∀ b, c :: s ≠ "://".toList ++ b := by
        intro b hb
        exact hp (by rw [List.isPrefixOf_iff_prefix]; exact ⟨b, hb.symm⟩)
      rcases ih with ⟨h1, h2⟩ | ⟨x, y, h1, h2, h3⟩
      · left
        constructor
        · rintro ⟨a, b, h⟩
          cases a with
          | nil => exact hno b h
          | cons a0 a =>
            have := (List.cons.inj h).2
            exact h1 ⟨a, b, this⟩
        · unfold splitScheme
          rw [if_neg hp, h2]
      · right
        refine ⟨c :: x, y, by rw [h1]; rfl, ?_, ?_⟩
        · rintro ⟨a, b, h⟩
          cases a with
          | nil =>
            apply hno (b ++ "://".toList ++ y)
            rw [h1]
            have hcx : c :: x = "://".toList ++ b := h
            show (c :: x) ++ "://".toList ++ y = _
            rw [hcx]
            simp only [List.append_assoc]
          | cons a0 a =>
            have := (List.cons.inj h).2
            exact h2 ⟨a, b, this⟩
        · have : splitScheme (c :: s) = match splitScheme s with
              | [] => [[c]]
              | p :: ps => (c :: p) :: ps := by
            conv => lhs; unfold splitScheme
            rw [if_neg hp]
            cases splitScheme s <;> rfl
          rw [this, h3]

/-- **C71**: with a family, the call goes to this connector and the host is taken as it is. -/
theorem C71_family (f : Str) (host : Option Str) : resolve (some f) host = .ok (f, host) := rfl

/-- **C71**: a host without `://` goes to the connector `default` as it is. -/
theorem C71_plain (host : Str) (hs : ¬ HasScheme host) : resolve none (some host) = .ok ("default".toList, some host) := by
  unfold resolve
  rcases splitScheme_spec host with ⟨_, h⟩ | ⟨x, y, h, _⟩
  · dsimp only; rw [h]; rfl
  · exact absurd ⟨x, y, h⟩ hs

example : ¬ HasScheme "20174.1.2.3".toList := by
  rcases splitScheme_spec "20174.1.2.3".toList with ⟨h, _⟩ | ⟨x, y, h, _⟩
  · exact h
  · exfalso
    have hm : ':' ∈ "20174.1.2.3".toList := by rw [h]; simp
    revert hm
    decide

/-- **C71**: a host `family://host` goes to the connector of this family, with the rest as host. -/
theorem C71_scheme (x y : Str) (hx : ¬ HasScheme x) (hy : ¬ HasScheme y) :
    resolve none (some (x ++ "://".toList ++ y)) = .ok (x, some y) := by
  have huniq : splitScheme (x ++ "://".toList ++ y) = [x, y] := by
    have hy' : splitScheme y = [y] := by
      rcases splitScheme_spec y with ⟨_, h⟩ | ⟨a, b, h, _⟩
      · exact h
      · exact absurd ⟨a, b, h⟩ hy
    have : ∀ x : Str, ¬ HasScheme x → splitScheme (x ++ "://".toList ++ y) = x :: splitScheme y := by
      intro x
      induction x with
      | nil =>
        intro _
        show splitScheme (':' :: '/' :: '/' :: y) = _
        conv => lhs; unfold splitScheme
        rw [if_pos (by rw [List.isPrefixOf_iff_prefix]; exact ⟨y, rfl⟩)]
        rfl
      | cons c x ih =>
        intro hn
        have hnx : ¬ HasScheme x := by
          rintro ⟨a, b, h⟩
          exact hn ⟨c :: a, b, by rw [h]; rfl⟩
        have hp : ¬ "://".toList.isPrefixOf (c :: (x ++ "://".toList ++ y)) = true := by
          rw [List.isPrefixOf_iff_prefix]
          rintro ⟨b, hb⟩
          have hb : ':' :: '/' :: '/' :: b = c :: (x ++ ':' :: '/' :: '/' :: y) := by
            rw [List.append_assoc] at hb
            exact hb
          have hc := (List.cons.inj hb).1
          have hb := (List.cons.inj hb).2
          cases x with
          | nil => cases (List.cons.inj hb).1
          | cons x0 x =>
            have h0 := (List.cons.inj hb).1
            have hb := (List.cons.inj hb).2
            cases x with
            | nil => cases (List.cons.inj hb).1
            | cons x1 x =>
              have h1 := (List.cons.inj hb).1
              exact hn ⟨[], x, by rw [← hc, ← h0, ← h1]; rfl⟩
        show splitScheme (c :: (x ++ "://".toList ++ y)) = _
        conv => lhs; unfold splitScheme
        rw [if_neg hp, ih hnx]
    rw [this x hx, hy']
  unfold resolve
  dsimp only
  rw [huniq]
  rfl

example : resolve none (some "tls://20174.1.2.3".toList) = .ok ("tls".toList, some "20174.1.2.3".toList) := by decide +kernel

/-- **C71**: a host with several `://` raises. -/
theorem C71_two (x y z : Str) : resolve none (some (x ++ "://".toList ++ y ++ "://".toList ++ z)) = .error .badHost := by
  have hpart : ∀ s : Str, splitScheme s ≠ [] := splitScheme_ne
  have hlen : ∀ (a b : Str), (splitScheme (a ++ "://".toList ++ b)).length ≥ 2 := by
    intro a b
    rcases splitScheme_spec (a ++ "://".toList ++ b) with ⟨h, _⟩ | ⟨x, y, _, _, h⟩
    · exact absurd ⟨a, b, rfl⟩ h
    · rw [h, List.length_cons]
      have := List.length_pos_iff.2 (hpart y)
      omega
  have h3 : (splitScheme (x ++ "://".toList ++ y ++ "://".toList ++ z)).length ≥ 3 := by
    rcases splitScheme_spec (x ++ "://".toList ++ y ++ "://".toList ++ z) with ⟨h, _⟩ | ⟨a, b, hab, ha, h⟩
    · exact absurd ⟨x ++ "://".toList ++ y, z, rfl⟩ h
    · rw [h, List.length_cons]
      have hb : ∃ u v, b = u ++ "://".toList ++ v := by
        rw [List.append_assoc, List.append_assoc a] at hab
        rcases List.append_eq_append_iff.1 hab with ⟨w, h1, h2⟩ | ⟨w, h1, h2⟩
        · exact absurd ⟨x, y ++ w, by rw [h1]; simp only [List.append_assoc]⟩ ha
        · -- a ++ w = x ++ "://" ++ y, w ++ "://" ++ z = "://" ++ b
          have h2 : ':' :: '/' :: '/' :: b = w ++ ':' :: '/' :: '/' :: z := h2
          cases w with
          | nil =>
            exfalso
            rw [List.append_nil] at h1
            exact ha ⟨x, y, h1.symm⟩
          | cons w0 w =>
            have h2 := (List.cons.inj h2).2
            cases w with
            | nil => cases (List.cons.inj h2).1
            | cons w1 w =>
              have h2 := (List.cons.inj h2).2
              cases w with
              | nil => cases (List.cons.inj h2).1
              | cons w2 w =>
                have h2 := (List.cons.inj h2).2
                exact ⟨w, z, by rw [h2, List.append_assoc]; rfl⟩
      obtain ⟨u, v, rfl⟩ := hb
      have := hlen u v
      omega
  unfold resolve
  dsimp only
  rw [if_neg (by omega)]
  split
  · rename_i heq
    rw [heq] at h3
    simp at h3
  · rfl

/-- **C71**: `create_connection` asks the connector that `getConnector` gives for the family, and passes the host on. -/
theorem C71_create (s : St) (host family : Option Str) (env : Env) (f : Str) (h : Option Str) (hr : resolve family host = .ok (f, h)) :
    (createConnection s host family env).2 = match (getConnector s f env).2 with
      | .ok c => .ok (c, h)
      | .error e => .error e := by
  unfold createConnection
  rw [hr]
  dsimp only
  cases getConnector s f env with
  | mk s1 r => cases r <;> rfl

example : (createConnection (exec (.init []) [.reload false exEnv]) (some "tls://1.2.3.4".toList) none exEnv).2 = .ok (5, some "1.2.3.4".toList) := by
  decide +kernel

/-- **C71**: so does `create_server`, with the host `default` if there is none; it raises without a port. -/
theorem C71_serve (s : St) (host family : Option Str) (port : Nat) (env : Env) :
    createServer s host (some port) family env = createConnection s (some (host.getD "default".toList)) family env ∧
    (createServer s host none family env).2 = .error .noPort := by
  cases host <;> exact ⟨rfl, rfl⟩

end Verif.Service
