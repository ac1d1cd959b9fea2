import Verif.Spec.Proc
import Verif.Lemmas.PyStr
/-! # C101: how a device sees and ends its process -/
namespace Verif.Proc

theorem rtrim_keep (x : Str) (d : Char) (rest : Str) (hd : isWs d = false) :
    ∃ r, ((x ++ d :: rest).reverse.dropWhile isWs).reverse = x ++ d :: r := by
  rw [List.reverse_append, List.reverse_cons, List.append_assoc, List.dropWhile_append]
  split
  · refine ⟨[], ?_⟩
    simp [List.dropWhile, hd]
  · refine ⟨(rest.reverse.dropWhile isWs).reverse, ?_⟩
    simp

theorem ltrim_ws (ws x : Str) (h : ∀ c ∈ ws, isWs c = true) : (ws ++ x).dropWhile isWs = x.dropWhile isWs := by
  induction ws with
  | nil => rfl
  | cons a t ih => rw [List.cons_append, List.dropWhile_cons, if_pos (h a (List.mem_cons_self ..))]; exact ih fun c hc => h c (List.mem_cons_of_mem _ hc)

theorem isHeader_pid (ws rest : Str) (h : ∀ c ∈ ws, isWs c = true) : isHeader (ws ++ "PID".toList ++ rest) = true := by
  have h1 : (ws ++ "PID".toList ++ rest).dropWhile isWs = ['P', 'I'] ++ 'D' :: rest := by
    rw [List.append_assoc, ltrim_ws _ _ h]
    rfl
  obtain ⟨r, hr⟩ := rtrim_keep ['P', 'I'] 'D' rest (by decide)
  unfold isHeader strip
  rw [h1, hr]
  rfl

theorem blank_of_text (l : Str) (h : ∃ c ∈ l, isWs c = false) : blank l = false := by
  obtain ⟨c, hc, hw⟩ := h
  have h1 : ∃ x, l.dropWhile isWs = x ∧ c ∈ x := by
    refine ⟨_, rfl, ?_⟩
    induction l with
    | nil => cases hc
    | cons a t ih =>
      rw [List.dropWhile_cons]
      split
      · next ha =>
        rcases List.mem_cons.1 hc with rfl | hc
        · rw [hw] at ha; cases ha
        · exact ih hc
      · exact hc
  obtain ⟨x, hx, hcx⟩ := h1
  obtain ⟨u, v, rfl⟩ := List.append_of_mem hcx
  obtain ⟨r, hr⟩ := rtrim_keep u c v hw
  unfold blank strip
  rw [hx, hr]
  simp

theorem dropWhile_all (ls : List Str) (h : ∀ b ∈ ls, blank b = true) : ls.dropWhile blank = [] := by
  induction ls with
  | nil => rfl
  | cons a t ih => rw [List.dropWhile_cons, if_pos (h a (List.mem_cons_self ..))]; exact ih fun b hb => h b (List.mem_cons_of_mem _ hb)

theorem dropBlank_one (l : Str) (h : blank l = false) : dropBlank [l, []] = [l] := by
  have : blank [] = true := rfl
  simp [dropBlank, List.dropWhile, h, this]

/-- C101. With the usual `ps`, `isPidAlive` says whether the process is alive. -/
theorem C101_alive (ps : Ps) (hps : Usual ps) (o : OS) (p : Int) : alive ps o p = live o p := by
  obtain ⟨ws, rest, hws, hh⟩ := hps.header
  have hd : isHeader ps.header = true := by rw [hh]; exact isHeader_pid ws rest hws
  unfold alive isPidAlive psOutput
  rw [splitOn_append hps.oneLine]
  rw [show ∀ r, dropHeader (ps.header :: r) = r from fun r => by simp [dropHeader, hd]]
  cases hl : live o p with
  | false => rfl
  | true =>
    rw [if_pos rfl, splitOn_append (hps.line p)]
    have := dropBlank_one _ (blank_of_text _ (hps.text p))
    show decide ((dropBlank [ps.line p, []]).length = 1) = true
    rw [this]
    rfl

/-- C101. In general, the process is taken to be alive exactly when, after a header that begins with PID, if there is one, there is one line and then only blank ones. -/
theorem C101_lines (out : Str) : isPidAlive out = true ↔
    ∃ l bs, dropHeader (splitOn '\n' out) = l :: bs ∧ blank l = false ∧ ∀ b ∈ bs, blank b = true := by
  unfold isPidAlive
  rw [decide_eq_true_iff]
  generalize dropHeader (splitOn '\n' out) = ls
  constructor
  · intro h
    have hspan := (List.takeWhile_append_dropWhile (p := blank) (l := ls.reverse)).symm
    have h1 : (ls.reverse.dropWhile blank).length = 1 := by simpa [dropBlank] using h
    obtain ⟨l, hl⟩ := List.length_eq_one_iff.1 h1
    rw [hl] at hspan
    have h2 := congrArg List.reverse hspan
    rw [List.reverse_reverse, List.reverse_append] at h2
    refine ⟨l, (ls.reverse.takeWhile blank).reverse, h2, ?_, ?_⟩
    · have := List.head?_dropWhile_not blank ls.reverse
      rw [hl] at this
      simpa using this
    · intro b hb
      have := List.all_takeWhile (p := blank) (l := ls.reverse)
      exact List.all_eq_true.1 this b (List.mem_reverse.1 hb)
  · rintro ⟨l, bs, rfl, hl, hb⟩
    have : (l :: bs).reverse.dropWhile blank = [l] := by
      rw [List.reverse_cons, List.dropWhile_append]
      have h0 : bs.reverse.dropWhile blank = [] := dropWhile_all _ fun b h => hb b (List.mem_reverse.1 h)
      rw [h0]
      simp [List.dropWhile, hl]
    show ((l :: bs).reverse.dropWhile blank).reverse.length = 1
    rw [this]
    rfl

/-- C101 is false with another header: what is dead is taken to be alive, and what is alive to be dead. -/
theorem C101_false_header (ps : Ps) (h1 : '\n' ∉ ps.header) (h2 : isHeader ps.header = false) (h3 : ∃ c ∈ ps.header, isWs c = false)
    (h4 : ∀ p, '\n' ∉ ps.line p) (h5 : ∀ p, ∃ c ∈ ps.line p, isWs c = false) (o : OS) (p : Int) : alive ps o p = !live o p := by
  unfold alive isPidAlive psOutput
  rw [splitOn_append h1]
  rw [show ∀ r, dropHeader (ps.header :: r) = ps.header :: r from fun r => by simp [dropHeader, h2]]
  cases hl : live o p with
  | false =>
    show decide ((dropBlank [ps.header, []]).length = 1) = true
    rw [dropBlank_one _ (blank_of_text _ h3)]
    rfl
  | true =>
    rw [if_pos rfl, splitOn_append (h4 p)]
    show decide ((dropBlank [ps.header, ps.line p, []]).length = 1) = false
    have h0 : blank [] = true := rfl
    have := blank_of_text _ (h5 p)
    simp [dropBlank, List.dropWhile, this, h0]

/-- `ps` prints that it has no such option. -/
example : isPidAlive "ps: unknown option -p\n".toList = true := by decide +kernel
example : isPidAlive "  PID TTY          TIME CMD\n".toList = false := by decide +kernel
example : isPidAlive "  PID TTY          TIME CMD\n   12 ?        00:00:01 launch_switch\n".toList = true := by decide +kernel

/-! ## Ending -/

theorem pollDead_spec (e : Env) (ps : Ps) (p : Int) : ∀ (n : Nat) (o : OS), ∃ k, k ≤ n ∧ pollDead e ps p n o = after e k o ∧
    (∀ j, j < k → alive ps (after e j o) p = true) ∧ (k < n → alive ps (after e k o) p = false)
  | 0, o => ⟨0, Nat.le_refl _, rfl, fun _ h => absurd h (Nat.not_lt_zero _), fun h => absurd h (Nat.not_lt_zero _)⟩
  | n + 1, o => by
    unfold pollDead
    cases ha : alive ps o p with
    | false => exact ⟨0, Nat.zero_le _, rfl, fun _ h => absurd h (Nat.not_lt_zero _), fun _ => ha⟩
    | true =>
      obtain ⟨k, hk, h1, h2, h3⟩ := pollDead_spec e ps p n (sleep e o)
      refine ⟨k + 1, Nat.succ_le_succ hk, h1, ?_, fun h => h3 (by omega)⟩
      intro j hj
      cases j with
      | zero => exact ha
      | succ j => exact h2 j (by omega)

theorem after_slept (e : Env) : ∀ (n : Nat) (o : OS), (after e n o).slept = o.slept + n ∧ (after e n o).signals = o.signals
  | 0, _ => ⟨rfl, rfl⟩
  | n + 1, o => by
    obtain ⟨h1, h2⟩ := after_slept e n (sleep e o)
    exact ⟨by rw [after, h1]; show o.slept + 1 + n = _; omega, h2⟩

theorem after_files (e : Env) (he : Keeps e) : ∀ (n : Nat) (o : OS), (after e n o).status = o.status ∧ (after e n o).pid = o.pid ∧ (after e n o).lock = o.lock
  | 0, _ => ⟨rfl, rfl, rfl⟩
  | n + 1, o => by
    obtain ⟨h1, h2, h3⟩ := after_files e he n (sleep e o)
    obtain ⟨t1, t2, t3⟩ := he.tick o
    exact ⟨h1.trans t1, h2.trans t2, h3.trans t3⟩

/-- C101. A device whose process is alive gets it a SIGTERM, and no other process; `_shutdown` succeeds exactly when the process is dead at the signal or after at most
`timeout` seconds, it then waits no longer than needed, and no run file is left; otherwise it raises after `timeout` seconds. -/
theorem C101_shutdown (e : Env) (ps : Ps) (hps : Usual ps) (timeout : Nat) (o : OS) (t : Str) (p : Int) (hpid : o.pid = some t) (hp : pyInt t = some p) (h0 : p ≠ 0)
    (hl : live o p = true) :
    let o1 := signal e p o
    let r := shutdown e ps timeout o
    r.1.signals = o.signals ++ [p] ∧
    (∀ k, k ≤ timeout → live (after e k o1) p = false → (∀ j, j < k → live (after e j o1) p = true) →
      r = (unlinkAll (after e k o1), none) ∧ r.1.slept = o.slept + k ∧ Shows r.1 .gone) ∧
    ((∀ k, k ≤ timeout → live (after e k o1) p = true) → r = (after e timeout o1, some .couldNot) ∧ r.1.slept = o.slept + timeout) := by
  dsimp only
  have hg : getPid o = .ok (some p) := by unfold getPid; rw [hpid]; dsimp only; rw [hp]
  have hr : shutdown e ps timeout o = (let o' := pollDead e ps p timeout (signal e p o)
      if alive ps o' p then (o', some .couldNot) else (unlinkAll o', none)) := by
    unfold shutdown
    rw [hg]
    dsimp only
    rw [if_neg h0, if_neg (by rw [hl]; decide)]
  obtain ⟨k, hk, h1, h2, h3⟩ := pollDead_spec e ps p timeout (signal e p o)
  simp only [C101_alive ps hps] at h2 h3 hr
  rw [hr]
  rw [h1]
  obtain ⟨s1, s2⟩ := after_slept e k (signal e p o)
  refine ⟨?_, ?_, ?_⟩
  · split <;> exact s2
  · intro k' hk' hd hj
    have : k = k' := by
      rcases Nat.lt_trichotomy k k' with h | h | h
      · have := hj k h; rw [h3 (Nat.lt_of_lt_of_le h hk')] at this; cases this
      · exact h
      · have := h2 k' h; rw [hd] at this; cases this
    subst this
    rw [if_neg (by rw [hd]; decide)]
    exact ⟨rfl, s1, rfl, rfl, rfl⟩
  · intro ha
    have : k = timeout := by
      rcases Nat.lt_or_ge k timeout with h | h
      · have := ha k hk; rw [h3 h] at this; cases this
      · omega
    subst this
    rw [if_pos (ha k (Nat.le_refl _))]
    exact ⟨rfl, s1⟩

/-- C101. When there is no process to end: without a pid file, the run files are removed; with the number of a dead process, or no number, it raises and removes nothing. -/
theorem C101_shutdown_none (e : Env) (ps : Ps) (timeout : Nat) (o : OS) : (o.pid = none → shutdown e ps timeout o = (unlinkAll o, none)) ∧
    (∀ t, o.pid = some t → pyInt t = none → shutdown e ps timeout o = (o, some .value)) ∧
    (∀ t p, o.pid = some t → pyInt t = some p → p ≠ 0 → live o p = false → shutdown e ps timeout o = (o, some .lookup)) := by
  refine ⟨fun h => ?_, fun t h hp => ?_, fun t p h hp h0 hl => ?_⟩
  · simp [shutdown, getPid, h]
  · simp [shutdown, getPid, h, hp]
  · simp [shutdown, getPid, h, hp, h0, hl]

/-- C101. So this refines C50: when the files of a device show what C50 says about its process, `_shutdown` does what C50 says, with `kill` telling whether the process
ends within the time. -/
theorem C101_refines (e : Env) (he : Keeps e) (ps : Ps) (hps : Usual ps) (timeout : Nat) (o : OS) (c : Device.Cfg) (s : Device.St) (d : Nat)
    (hs : Shows o (s.dev d).proc)
    (hk : c.kill s.kills = true ↔ ∃ t p, o.pid = some t ∧ pyInt t = some p ∧ ∃ k, k ≤ timeout ∧ live (after e k (signal e p o)) p = false) :
    (shutdown e ps timeout o).2.isSome = (Device.shutdown c s d).2 ∧ Shows (shutdown e ps timeout o).1 ((Device.shutdown c s d).1.dev d).proc := by
  cases hp : (s.dev d).proc with
  | gone =>
    rw [hp] at hs
    obtain ⟨h1, h2, h3⟩ := hs
    rw [(C101_shutdown_none e ps timeout o).1 h2]
    simp only [Device.shutdown, hp]
    exact ⟨rfl, rfl, rfl, rfl⟩
  | dead =>
    rw [hp] at hs
    have hs' := hs
    obtain ⟨t, p, h3, h4, h5, h6⟩ := hs
    rw [(C101_shutdown_none e ps timeout o).2.2 t p h3 h4 h5 h6]
    simp only [Device.shutdown, hp]
    exact ⟨rfl, hs'⟩
  | alive =>
    rw [hp] at hs
    obtain ⟨h1, h2, t, p, h3, h4, h5, h6⟩ := hs
    obtain ⟨hsig, hok, hbad⟩ := C101_shutdown e ps hps timeout o t p h3 h4 h5 h6
    have key : (∃ k, k ≤ timeout ∧ live (after e k (signal e p o)) p = false ∧ ∀ j, j < k → live (after e j (signal e p o)) p = true) ∨
        ∀ k, k ≤ timeout → live (after e k (signal e p o)) p = true := by
      clear hk hok hbad hsig
      induction timeout with
      | zero =>
        cases h : live (after e 0 (signal e p o)) p with
        | false => exact .inl ⟨0, Nat.le_refl _, h, fun j hj => absurd hj (Nat.not_lt_zero _)⟩
        | true =>
          refine .inr fun k hk => ?_
          have : k = 0 := by omega
          rw [this]; exact h
      | succ n ih =>
        rcases ih with ⟨k, hk, h⟩ | h
        · exact .inl ⟨k, by omega, h⟩
        · cases h' : live (after e (n + 1) (signal e p o)) p with
          | false => exact .inl ⟨n + 1, Nat.le_refl _, h', fun j hj => h j (by omega)⟩
          | true =>
            refine .inr fun k hk => ?_
            rcases Nat.lt_or_ge n k with hlt | hge
            · have : k = n + 1 := by omega
              rw [this]; exact h'
            · exact h k hge
    rcases key with ⟨k, hk1, hd, hj⟩ | hall
    · have hkill : c.kill s.kills = true := hk.2 ⟨t, p, h3, h4, k, hk1, hd⟩
      obtain ⟨hr, _, hsh⟩ := hok k hk1 hd hj
      simp only [Device.shutdown, hp, hkill, Device.St.upd, if_true]
      exact ⟨by rw [hr]; rfl, hsh⟩
    · have hkill : c.kill s.kills = false := by
        cases hc : c.kill s.kills with
        | false => rfl
        | true =>
          obtain ⟨t', p', h3', h4', k, hk1, hd⟩ := hk.1 hc
          rw [h3] at h3'; cases h3'
          rw [h4] at h4'; cases h4'
          rw [hall k hk1] at hd; cases hd
      obtain ⟨hr, _⟩ := hbad hall
      simp only [Device.shutdown, hp, hkill]
      rw [hr]
      refine ⟨rfl, ?_⟩
      show Shows (after e timeout (signal e p o)) (s.dev d).proc
      rw [hp]
      obtain ⟨f1, f2, f3⟩ := after_files e he timeout (signal e p o)
      obtain ⟨g1, g2, g3⟩ := he.term p o
      exact ⟨f1.trans (g1.trans h1), f3.trans (g3.trans h2), t, p, f2.trans (g2.trans h3), h4, h5, hall timeout (Nat.le_refl _)⟩

/-! ## Waiting for the start -/

/-- C101. `_running` is true exactly when all run files are there and the process in the pid file is alive. -/
theorem C101_running (ps : Ps) (hps : Usual ps) (o : OS) : running ps o = .ok true ↔ Shows o .alive := by
  unfold running getPid Shows
  simp only [C101_alive ps hps]
  cases hs : o.status <;> cases hk : o.lock <;> cases hp : o.pid with
  | none => simp
  | some t => cases hi : pyInt t <;> simp [hi]

/-- C101. `_waitUntilRunning` is true as soon as the process is seen to run, at once or after at most `timeout` seconds; it is false when that does not happen, after
`timeout` seconds. -/
theorem C101_wait (e : Env) (ps : Ps) : ∀ (timeout : Nat) (o : OS),
    (∀ k, k ≤ timeout → running ps (after e k o) = .ok true → (∀ j, j < k → running ps (after e j o) = .ok false) →
      waitUntilRunning e ps timeout o = (after e k o, .ok true)) ∧
    ((∀ k, k ≤ timeout → running ps (after e k o) = .ok false) → waitUntilRunning e ps timeout o = (after e timeout o, .ok false)) ∧
    (∀ k x, k ≤ timeout → running ps (after e k o) = .error x → (∀ j, j < k → running ps (after e j o) = .ok false) →
      waitUntilRunning e ps timeout o = (after e k o, .error x))
  | 0, o => by
    refine ⟨fun k hk h _ => ?_, fun h => ?_, fun k x hk h _ => ?_⟩
    · have : k = 0 := by omega
      subst this
      have h' : running ps o = .ok true := h
      simp [waitUntilRunning, pollRunning, h', after]
    · have h' : running ps o = .ok false := h 0 (Nat.le_refl _)
      simp [waitUntilRunning, pollRunning, h', after]
    · have : k = 0 := by omega
      subst this
      have h' : running ps o = .error x := h
      simp [waitUntilRunning, pollRunning, h', after]
  | n + 1, o => by
    have step : running ps o = .ok false → waitUntilRunning e ps (n + 1) o = waitUntilRunning e ps n (sleep e o) := by
      intro h
      simp only [waitUntilRunning, pollRunning, h]
    obtain ⟨i1, i2, i3⟩ := C101_wait e ps n (sleep e o)
    refine ⟨fun k hk h hj => ?_, fun h => ?_, fun k x hk h hj => ?_⟩
    · cases k with
      | zero =>
        have h' : running ps o = .ok true := h
        simp [waitUntilRunning, pollRunning, h', after]
      | succ k =>
        rw [step (hj 0 (Nat.succ_pos _))]
        exact i1 k (by omega) h fun j hlt => hj (j + 1) (by omega)
    · rw [step (h 0 (Nat.zero_le _))]
      exact i2 fun k hk => h (k + 1) (by omega)
    · cases k with
      | zero =>
        have h' : running ps o = .error x := h
        simp [waitUntilRunning, pollRunning, h', after]
      | succ k =>
        rw [step (hj 0 (Nat.succ_pos _))]
        exact i3 k x (by omega) h fun j hlt => hj (j + 1) (by omega)

/-- C101 is false after a crash: when the number of the process of the device is used again by another process, the device takes it for its own: it runs, and `_shutdown`
sends the SIGTERM to that process. -/
theorem C101_false_reuse (e : Env) (ps : Ps) (hps : Usual ps) (timeout : Nat) (o : OS) (p : Nat) (hp : 0 < p) (hf : o.status = true ∧ o.pid = some (natStr p) ∧ o.lock = true)
    (other : o.procs p = true) : running ps o = .ok true ∧ (shutdown e ps timeout o).1.signals = o.signals ++ [(p : Int)] := by
  have hl : live o p = true := by simp [live, other]
  have h0 : (p : Int) ≠ 0 := by omega
  exact ⟨(C101_running ps hps o).2 ⟨hf.1, hf.2.2, natStr p, p, hf.2.1, pyInt_natStr p, h0, hl⟩,
    (C101_shutdown e ps hps timeout o (natStr p) p hf.2.1 (pyInt_natStr p) h0 hl).1⟩

/-- A pid file that is not written yet, with the two other files, makes the wait fail. -/
theorem C101_false_empty (e : Env) (ps : Ps) (timeout : Nat) (o : OS) (hf : o.status = true ∧ o.pid = some [] ∧ o.lock = true) :
    waitUntilRunning e ps timeout o = (o, .error .value) := by
  refine (C101_wait e ps timeout o).2.2 0 .value (Nat.zero_le _) ?_ fun j h => absurd h (Nat.not_lt_zero _)
  show running ps o = _
  simp [running, getPid, hf.1, hf.2.1, hf.2.2, show pyInt [] = none from rfl]

/-! ## The start -/

theorem shutdown_zero (e : Env) (ps : Ps) (limit : Nat) (o : OS) (t : Str) (h : o.pid = some t) (hp : pyInt t = some 0) : shutdown e ps limit o = (unlinkAll o, none) := by
  simp [shutdown, getPid, h, hp]

/-- Either it is dead at one of the looks, and there is the first of them, or it is alive at all. -/
theorem first_dead (e : Env) (p : Int) (o : OS) (n : Nat) : (∃ k, k ≤ n ∧ live (after e k o) p = false ∧ ∀ j, j < k → live (after e j o) p = true) ∨
    ∀ k, k ≤ n → live (after e k o) p = true := by
  induction n with
  | zero =>
    cases h : live (after e 0 o) p with
    | false => exact .inl ⟨0, Nat.le_refl _, h, fun j hj => absurd hj (Nat.not_lt_zero _)⟩
    | true =>
      refine .inr fun k hk => ?_
      have : k = 0 := by omega
      rw [this]; exact h
  | succ n ih =>
    rcases ih with ⟨k, hk, h⟩ | h
    · exact .inl ⟨k, by omega, h⟩
    · cases h' : live (after e (n + 1) o) p with
      | false => exact .inl ⟨n + 1, Nat.le_refl _, h', fun j hj => h j (by omega)⟩
      | true =>
        refine .inr fun k hk => ?_
        rcases Nat.lt_or_ge n k with hlt | hge
        · have : k = n + 1 := by omega
          rw [this]; exact h'
        · exact h k hge

theorem launch_false {e : Env} {ps : Ps} {cmd : OS → OS} {timeout : Nat} (limit : Nat) {o : OS} (h : ∀ k, k ≤ timeout → running ps (after e k (cmd o)) = .ok false) :
    launch e ps cmd timeout limit o = shutdown e ps limit (after e timeout (cmd o)) := by
  unfold launch
  rw [(C101_wait e ps timeout (cmd o)).2.1 h]

/-- C101. The start refines C50, too: what comes of it, in terms of C50, is what `_launch` does. -/
theorem C101_launch (e : Env) (ps : Ps) (hps : Usual ps) (cmd : OS → OS) (timeout limit : Nat) (o : OS) (l : Device.Launch) (hl : Outcome e ps cmd timeout limit o l)
    (c : Device.Cfg) (s : Device.St) (d : Nat) (hc : c.launch s.launches = l) :
    (launch e ps cmd timeout limit o).2.isSome = (Device.spawn c s d).2 ∧ Shows (launch e ps cmd timeout limit o).1 ((Device.spawn c s d).1.dev d).proc := by
  cases l with
  | up =>
    obtain ⟨k, hk, h1, h2⟩ := hl
    have hw := (C101_wait e ps timeout (cmd o)).1 k hk ((C101_running ps hps _).2 h1) h2
    have : launch e ps cmd timeout limit o = (after e k (cmd o), none) := by unfold launch; rw [hw]
    rw [this]
    simp only [Device.spawn, hc, Device.St.upd, if_true]
    exact ⟨rfl, h1⟩
  | down =>
    obtain ⟨h1, h2⟩ := hl
    rw [launch_false limit h1]
    have hr : (shutdown e ps limit (after e timeout (cmd o))).2 = none ∧ Shows (shutdown e ps limit (after e timeout (cmd o))).1 .gone := by
      rcases h2 with h2 | ⟨t, p, ht, hp, h0 | ⟨hl, k, hk, hd⟩⟩
      · rw [(C101_shutdown_none e ps limit _).1 h2]; exact ⟨rfl, rfl, rfl, rfl⟩
      · subst h0; rw [shutdown_zero e ps limit _ t ht hp]; exact ⟨rfl, rfl, rfl, rfl⟩
      · by_cases h0 : p = 0
        · subst h0; rw [shutdown_zero e ps limit _ t ht hp]; exact ⟨rfl, rfl, rfl, rfl⟩
        · obtain ⟨_, hok, _⟩ := C101_shutdown e ps hps limit _ t p ht hp h0 hl
          rcases first_dead e p (signal e p (after e timeout (cmd o))) limit with ⟨k', hk', hd', hj⟩ | hall
          · obtain ⟨hr, _, hs⟩ := hok k' hk' hd' hj
            exact ⟨by rw [hr], hs⟩
          · rw [hall k hk] at hd; cases hd
    simp only [Device.spawn, hc, Device.St.upd, if_true]
    exact ⟨by rw [hr.1]; rfl, hr.2⟩
  | raises died =>
    cases died with
    | false => cases hl
    | true =>
      obtain ⟨h1, h2⟩ := hl
      have h2' := h2
      obtain ⟨t, p, ht, hp, h0, hl⟩ := h2
      rw [launch_false limit h1, (C101_shutdown_none e ps limit _).2.2 t p ht hp h0 hl]
      simp only [Device.spawn, hc, Device.St.upd, if_true]
      exact ⟨rfl, h2'⟩

/-- C101. There are only these two other outcomes, both exceptions: a pid file without a number, and a process that does not get ready and does not end when it is told to,
and goes on. -/
theorem C101_launch_else (e : Env) (ps : Ps) (hps : Usual ps) (cmd : OS → OS) (timeout limit : Nat) (o : OS) : (∃ l, Outcome e ps cmd timeout limit o l) ∨
    (launch e ps cmd timeout limit o).2 = some .value ∨
    (launch e ps cmd timeout limit o).2 = some .couldNot ∧ ∃ t p, (after e timeout (cmd o)).pid = some t ∧ pyInt t = some p ∧ live (launch e ps cmd timeout limit o).1 p = true := by
  have key : ∀ n, (∃ k, k ≤ n ∧ running ps (after e k (cmd o)) ≠ .ok false ∧ ∀ j, j < k → running ps (after e j (cmd o)) = .ok false) ∨
      ∀ k, k ≤ n → running ps (after e k (cmd o)) = .ok false := by
    intro n
    induction n with
    | zero =>
      by_cases h : running ps (after e 0 (cmd o)) = .ok false
      · refine .inr fun k hk => ?_
        have : k = 0 := by omega
        rw [this]; exact h
      · exact .inl ⟨0, Nat.le_refl _, h, fun j hj => absurd hj (Nat.not_lt_zero _)⟩
    | succ n ih =>
      rcases ih with ⟨k, hk, h⟩ | h
      · exact .inl ⟨k, by omega, h⟩
      · by_cases h' : running ps (after e (n + 1) (cmd o)) = .ok false
        · refine .inr fun k hk => ?_
          rcases Nat.lt_or_ge n k with hlt | hge
          · have : k = n + 1 := by omega
            rw [this]; exact h'
          · exact h k hge
        · exact .inl ⟨n + 1, Nat.le_refl _, h', fun j hj => h j (by omega)⟩
  have hval : ∀ o' x, running ps o' = .error x → x = .value := by
    intro o' x h
    unfold running getPid at h
    split at h
    · cases h
    · cases hp : o'.pid with
      | none => rw [hp] at h; cases h
      | some t =>
        rw [hp] at h
        dsimp only at h
        cases hi : pyInt t with
        | none => rw [hi] at h; cases h; rfl
        | some i => rw [hi] at h; cases h
  rcases key timeout with ⟨k, hk, h1, h2⟩ | h
  · cases hr : running ps (after e k (cmd o)) with
    | error x =>
      refine .inr (.inl ?_)
      have := (C101_wait e ps timeout (cmd o)).2.2 k x hk hr h2
      unfold launch
      rw [this, hval _ _ hr]
    | ok b =>
      cases b with
      | false => exact absurd hr h1
      | true => exact .inl ⟨.up, k, hk, (C101_running ps hps _).1 hr, h2⟩
  · rw [launch_false limit h]
    cases hp : (after e timeout (cmd o)).pid with
    | none => exact .inl ⟨.down, h, .inl hp⟩
    | some t =>
      cases hi : pyInt t with
      | none => exact .inr (.inl (by rw [(C101_shutdown_none e ps limit _).2.1 t hp hi]))
      | some p =>
        by_cases h0 : p = 0
        · exact .inl ⟨.down, h, .inr ⟨t, p, hp, hi, .inl h0⟩⟩
        · cases hl : live (after e timeout (cmd o)) p with
          | false => exact .inl ⟨.raises true, h, t, p, hp, hi, h0, hl⟩
          | true =>
            rcases first_dead e p (signal e p (after e timeout (cmd o))) limit with ⟨k, hk, hd, _⟩ | hall
            · exact .inl ⟨.down, h, .inr ⟨t, p, hp, hi, .inr ⟨hl, k, hk, hd⟩⟩⟩
            · obtain ⟨hr, _⟩ := (C101_shutdown e ps hps limit _ t p hp hi h0 hl).2.2 hall
              rw [hr]
              exact .inr (.inr ⟨rfl, t, p, rfl, hi, hall limit (Nat.le_refl _)⟩)

/-- That a start that fails is reported as such is false: when the process has written its pid file and has died before it was ready, the start ends with a
ProcessLookupError, and the files stay. -/
theorem C101_false_died (e : Env) (ps : Ps) (cmd : OS → OS) (timeout limit : Nat) (o : OS) (h : ∀ k, k ≤ timeout → running ps (after e k (cmd o)) = .ok false)
    (hd : Shows (after e timeout (cmd o)) .dead) : launch e ps cmd timeout limit o = (after e timeout (cmd o), some .lookup) := by
  obtain ⟨t, p, ht, hp, h0, hl⟩ := hd
  rw [launch_false limit h, (C101_shutdown_none e ps limit _).2.2 t p ht hp h0 hl]

/-! ## A case -/

/-- The process 12 ends two seconds after the signal. -/
def exEnv : Env := ⟨fun o => if o.slept = 1 then { o with procs := fun _ => false } else o, fun _ o => o⟩
def exPs : Ps := ⟨"  PID TTY".toList, fun p => intStr p ++ " ?".toList⟩
def exOS : OS := ⟨true, some "12\n".toList, true, fun n => n = 12, [], 0⟩

theorem intStr_nl (p : Int) : '\n' ∉ intStr p := by
  intro h
  have hn : ∀ n, '\n' ∉ natStr n := fun n hm => by
    have := (natStr_digits n).no_ws _ hm
    exact absurd this (by decide)
  unfold intStr at h
  split at h
  · rcases List.mem_cons.1 h with h | h
    · exact absurd h (by decide)
    · exact hn _ h
  · exact hn _ h

theorem exUsual : Usual exPs where
  oneLine := by decide
  header := ⟨"  ".toList, " TTY".toList, by decide, rfl⟩
  line := fun p h => by
    rcases List.mem_append.1 h with h | h
    · exact intStr_nl p h
    · exact absurd h (by decide)
  text := fun p => ⟨'?', List.mem_append_right _ (by decide), by decide⟩

example : Keeps exEnv := ⟨fun o => by simp only [exEnv]; split <;> exact ⟨rfl, rfl, rfl⟩, fun _ _ => ⟨rfl, rfl, rfl⟩⟩
example : Shows exOS .alive := ⟨rfl, rfl, "12\n".toList, 12, rfl, by decide +kernel, by decide, by decide⟩
example : (shutdown exEnv exPs 5 exOS).2 = none ∧ (shutdown exEnv exPs 5 exOS).1.slept = 2 ∧ (shutdown exEnv exPs 5 exOS).1.signals = [12] := by decide +kernel
example : (shutdown exEnv exPs 1 exOS).2 = some .couldNot := by decide +kernel
example : running exPs exOS = .ok true := by decide +kernel
example : (shutdown exEnv exPs 5 { exOS with procs := fun _ => false }).2 = some .lookup := by decide +kernel
/-- The files of a process that starts appear after two seconds. -/
example : (waitUntilRunning ⟨fun o => if o.slept = 1 then exOS else o, fun _ o => o⟩ exPs 5 ⟨false, none, false, fun _ => false, [], 0⟩).2 = .ok true ∧
    (waitUntilRunning ⟨fun o => if o.slept = 1 then exOS else o, fun _ o => o⟩ exPs 1 ⟨false, none, false, fun _ => false, [], 0⟩).2 = .ok false := by decide +kernel
example : alive ⟨"USER".toList, exPs.line⟩ exOS 12 = false ∧ alive ⟨"USER".toList, exPs.line⟩ exOS 13 = true := by decide +kernel

/-- The command starts process 12, which writes its files at once, or its pid file only, and dies after two seconds or never. -/
def exIdle : OS := ⟨false, none, false, fun _ => false, [], 0⟩
example : (launch exEnv exPs (fun _ => exOS) 5 5 exIdle).2 = none ∧ running exPs (launch exEnv exPs (fun _ => exOS) 5 5 exIdle).1 = .ok true := by decide +kernel
example : (launch exEnv exPs (fun _ => { exOS with status := false }) 5 5 exIdle).2 = some .lookup ∧
    (launch exEnv exPs (fun _ => { exOS with status := false }) 5 5 exIdle).1.slept = 5 := by decide +kernel
example : (launch exEnv exPs (fun _ => { exOS with status := false }) 1 5 exIdle).2 = none ∧
    (launch exEnv exPs (fun _ => { exOS with status := false }) 1 5 exIdle).1.signals = [12] := by decide +kernel
example : (launch ⟨fun o => o, fun _ o => o⟩ exPs (fun _ => { exOS with status := false }) 1 5 exIdle).2 = some .couldNot := by decide +kernel
example : (launch exEnv exPs (fun o => o) 3 5 exIdle).2 = none := by decide +kernel
example : Outcome exEnv exPs (fun _ => exOS) 5 5 exIdle .up := ⟨0, by decide, ⟨rfl, rfl, "12\n".toList, 12, rfl, by decide +kernel, by decide, by decide⟩, fun j h => absurd h (Nat.not_lt_zero _)⟩

end Verif.Proc
