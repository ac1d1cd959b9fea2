import Verif.Lemmas.Launch
/-! # C68: the VNIC daemon keeps one link to the switch and reports it -/
namespace Verif.Launch

/-- A daemon at 20174.1.2.3 for a switch at 10.0.0.1:9090, the status listener first. -/
def exCfg (first : Bool) : Cfg := ⟨4123, "10.0.0.1".toList, 9090, first⟩

def exStart (first : Bool) : Option St := start (exCfg first) (addr 20174 1 2 3) [] .ok

def exRun (first : Bool) (h : List Ev) : Option St := (exStart first).map fun s => exec (exCfg first) s h

/-- The link comes up at the second attempt, is lost and comes back. -/
def exHist : List Ev :=
  [.refuse 0, .finish 0, .wait 29, .fire 30, .wait 1, .fire 30, .accept 1, .made 1 .ok, .wait 5, .lost 0 .ok, .finish 1, .wait 30, .fire 65,
   .accept 2, .setLevel (some 2), .made 2 .ok]

/-- C68. What can be seen of the daemon, whatever the switch, the network, the event loop and the status file do: one attempt or link at a
time, and every attempt but the first begins at least 30 seconds after the one before failed or its link was lost. -/
theorem C68_trace {c : Cfg} {z n d i : Nat} {old : Str} {w : Write} {s : St} (h : start c (addr z n d i) old w = some s) (es : List Ev) :
    ∃ m, Trace (exec c s es).out m := by
  obtain ⟨m, p, hi⟩ := Inv.reachable h es
  exact ⟨m, hi.trace⟩

example : (exRun true exHist).map (·.out) = some [(0, .dial), (0, .refused), (30, .dial), (30, .up 0), (35, .down 0), (65, .dial), (65, .up 1)] := by
  decide +kernel

/-- There are never two timers, attempts or links at a time. -/
theorem C68_at_most_one {c : Cfg} {z n d i : Nat} {old : Str} {w : Write} {s : St} (h : start c (addr z n d i) old w = some s) (es : List Ev) :
    (∃ due, OnlyTimer (exec c s es) due) ∨ (∃ k, OnlyTask (exec c s es) k) ∨ (∃ tx, OnlyLink (exec c s es) tx) ∨ Dead (exec c s es) := by
  obtain ⟨m, p, hi⟩ := Inv.reachable h es
  have hs := hi.sched
  cases m with
  | waiting t0 =>
    rcases hs.2.2.2 with ⟨due, _, hdue, hT⟩ | ⟨j, hj, _⟩ | ⟨_, hD⟩
    · exact .inl ⟨due, hT⟩
    · exact .inr (.inl ⟨j, hj⟩)
    · exact .inr (.inr (.inr hD))
  | trying => obtain ⟨_, k, hk, _⟩ := hs; exact .inr (.inl ⟨k, hk⟩)
  | linked tx => exact .inr (.inr (.inl ⟨tx, hs.2.2⟩))

/-- As long as the reconnecting listener is alerted, the daemon always has a link, an attempt or a timer. -/
theorem C68_one_partial {c : Cfg} {z n d i : Nat} {old : Str} {w : Write} {s : St} (h : start c (addr z n d i) old w = some s) (es : List Ev)
    (hs : Safe c es) :
    (∃ due, OnlyTimer (exec c s es) due) ∨ (∃ k, OnlyTask (exec c s es) k) ∨ (∃ tx, OnlyLink (exec c s es) tx) := by
  obtain ⟨m, p, hi⟩ := Inv.reachable h es
  have hc := hi.sched
  cases m with
  | waiting t0 =>
    rcases hc.2.2.2 with ⟨due, _, hdue, hT⟩ | ⟨j, hj, _⟩ | ⟨hn, _⟩
    · exact .inl ⟨due, hT⟩
    · exact .inr (.inl ⟨j, hj⟩)
    · exact absurd hs hn
  | trying => obtain ⟨_, k, hk, _⟩ := hc; exact .inr (.inl ⟨k, hk⟩)
  | linked tx => exact .inr (.inr ⟨tx, hc.2.2⟩)

example : Safe (exCfg true) exHist := .inr (by
  intro tx w hm
  simp [exHist] at hm
  exact hm.2)

/-- After a loss the timer is due exactly 30 seconds later, until it fires. -/
theorem C68_due_partial {c : Cfg} {z n d i : Nat} {old : Str} {w : Write} {s : St} (h : start c (addr z n d i) old w = some s) (es : List Ev)
    (hs : Safe c es) (t tx : Nat) (hl : (exec c s es).out.getLast? = some (t, .down tx)) : OnlyTimer (exec c s es) (t + 30) := by
  obtain ⟨m, p, hi⟩ := Inv.reachable h es
  have hx := (hi.exact t tx hl).resolve_right fun x => x hs
  rcases C68_one_partial h es hs with ⟨due, h1⟩ | ⟨k, h1⟩ | ⟨x, h1⟩
  · have := h1.1
    rw [hx] at this
    cases this
    exact h1
  · rw [h1.1] at hx; cases hx
  · rw [h1.1] at hx; cases hx

example : (exRun true (exHist.take 11)).map (fun s => (s.out.getLast?, s.timers)) = some (some (35, .down 0), [65]) := by decide +kernel

/-- After a failed attempt the done callback sets the timer. -/
theorem C68_refused {c : Cfg} {z n d i : Nat} {old : Str} {w : Write} {s : St} (h : start c (addr z n d i) old w = some s) (es : List Ev)
    (t : Nat) (hl : (exec c s es).out.getLast? = some (t, .refused)) (hs : Safe c es) :
    (∃ due, t + 30 ≤ due ∧ OnlyTimer (exec c s es) due) ∨
    ∃ k, OnlyTask (exec c s es) k ∧ OnlyTimer (exec c s (es ++ [.finish k])) ((exec c s es).now + 30) := by
  obtain ⟨m, p, hi⟩ := Inv.reachable h es
  have := trace_last_dial hi.trace _ _ hl
  dsimp only at this
  subst this
  rcases hi.sched.2.2.2 with ⟨due, h1, _, hT⟩ | ⟨k, hk, hf⟩ | ⟨hn, _⟩
  · exact .inl ⟨due, h1, hT⟩
  · refine .inr ⟨k, hk, ?_⟩
    rw [exec_append]
    show OnlyTimer (step c (exec c s es) (.finish k)) _
    unfold step
    dsimp only
    rw [hf]
    dsimp only
    unfold connectFinished
    rw [if_pos rfl]
    refine ⟨by simp [callLater, setTask, hk.1, reconnectDelay], ?_, hk.2.2⟩
    apply no_task hk.2.1
    · exact not_trying_none (by simp [callLater, setTask])
    · intro j hj; simp [callLater, setTask, hj]
  · exact absurd hs hn

example : (exRun true [.wait 7, .refuse 0, .wait 2]).map (fun s => (s.out.getLast?, s.timers, s.now)) = some (some (7, .refused), [], 9) ∧
    (exRun true [.wait 7, .refuse 0, .wait 2, .finish 0]).map (fun s => s.timers) = some [39] := by decide +kernel

/-- A timer that is due begins a new attempt. -/
theorem C68_dials {c : Cfg} {z n d i : Nat} {old : Str} {w : Write} {s : St} (h : start c (addr z n d i) old w = some s) (es : List Ev)
    (due : Nat) (ht : OnlyTimer (exec c s es) due) (hd : due ≤ (exec c s es).now) :
    (exec c s (es ++ [.fire due])).out = (exec c s es).out ++ [((exec c s es).now, .dial)] ∧
    ∃ k, OnlyTask (exec c s (es ++ [.fire due])) k ∧ (exec c s (es ++ [.fire due])).task k = some .dialing := by
  obtain ⟨m, p, hi⟩ := Inv.reachable h es
  rw [exec_append]
  show (step c (exec c s es) (.fire due)).out = _ ∧ ∃ k, OnlyTask (step c (exec c s es) (.fire due)) k ∧ (step c (exec c s es) (.fire due)).task k = _
  unfold step
  dsimp only
  rw [if_pos ⟨by rw [ht.1]; simp, hd⟩]
  refine ⟨rfl, (exec c s es).nTask, ⟨by simp [connect, ht.1], ?_, ht.2.2⟩, by simp [connect]⟩
  intro j
  unfold Trying connect
  dsimp only
  by_cases hj : j = (exec c s es).nTask
  · simp [hj]
  · rw [if_neg hj]
    constructor
    · intro hh; exact absurd hh (ht.2.1 j)
    · intro hh; exact absurd hh hj

example : (exRun true (exHist.take 12)).map (fun s => (s.timers, s.now)) = some ([65], 65) := by decide +kernel

/-- `connection_made` gives a link. -/
theorem made_link {c : Cfg} {z n d i l : Nat} {safe : Prop} {s : St} {m : Mode} {p : Prom.Phase} (hi : Inv z n d i safe l s m p) {k tx : Nat}
    (hk : s.task k = some (.opening tx)) (w : Write) : OnlyLink (step c s (.made k w)) tx := by
  obtain ⟨m', p', hj⟩ := hi.step (c := c) (.made k w)
  have hmem : tx ∈ (step c s (.made k w)).links := by
    unfold step
    dsimp only
    rw [hk]
    dsimp only
    unfold connectionMade
    dsimp only
    split
    · simp
    · obtain ⟨f, hf⟩ := alert_made c w { setTask s k (some (.made tx)) with
        net := Prom.made (setTask s k (some (.made tx))).net tx,
        links := (setTask s k (some (.made tx))).links ++ [tx],
        out := (setTask s k (some (.made tx))).out ++ [((setTask s k (some (.made tx))).now, .up tx)],
        live := connectedStr }
      rw [hf]
      simp
  have hs := hj.sched
  cases m' with
  | waiting t0 =>
    rcases hs.2.2.2 with ⟨due', hle, hle', hT⟩ | ⟨j, hj, hf⟩ | ⟨_, hD⟩
    · rw [hT.2.2] at hmem; cases hmem
    · rw [hj.2.2] at hmem; cases hmem
    · rw [hD.2.2] at hmem; cases hmem
  | trying => obtain ⟨_, k, hk, _⟩ := hs; rw [hk.2.2] at hmem; cases hmem
  | linked tx' =>
    have := hs.2.2
    rw [this.2.2, List.mem_singleton] at hmem
    rw [hmem]
    exact this

/-- A successful attempt gives a link. -/
theorem C68_accepted {c : Cfg} {z n d i : Nat} {old : Str} {w : Write} {s : St} (h : start c (addr z n d i) old w = some s) (es : List Ev)
    (k : Nat) (hk : (exec c s es).task k = some .dialing) (w' : Write) :
    OnlyLink (exec c s (es ++ [.accept k, .made k w'])) (exec c s es).net.nTx := by
  have h1 : step c (exec c s es) (.accept k) =
      setTask { exec c s es with net := Prom.factory (exec c s es).net } k (some (.opening (exec c s es).net.nTx)) := by
    unfold step
    dsimp only
    rw [if_pos hk]
  have h2 : (step c (exec c s es) (.accept k)).task k = some (.opening (exec c s es).net.nTx) := by rw [h1]; simp [setTask]
  obtain ⟨m, p, hi⟩ := Inv.reachable h (es ++ [.accept k])
  have he : exec c s (es ++ [.accept k]) = step c (exec c s es) (.accept k) := by rw [exec_append]; rfl
  rw [he] at hi
  have hgoal : exec c s (es ++ [.accept k, .made k w']) = step c (step c (exec c s es) (.accept k)) (.made k w') := by rw [exec_append]; rfl
  rw [hgoal]
  exact made_link hi h2 w'

/-- Whatever has happened, if the switch accepts connections from now on, the daemon can have a link again within 30 seconds: some
continuation without any loss or refusal ends with a link. -/
theorem C68_recovers_partial {c : Cfg} {z n d i : Nat} {old : Str} {w : Write} {s : St} (h : start c (addr z n d i) old w = some s)
    (es : List Ev) (hs : Safe c es) :
    ∃ es', Friendly es' ∧ waits es' ≤ 30 ∧ ∃ tx, OnlyLink (exec c s (es ++ es')) tx := by
  have step1 : ∀ es : List Ev, ∀ k, (exec c s es).task k = some .dialing →
      ∃ es', Friendly es' ∧ waits es' ≤ 0 ∧ ∃ tx, OnlyLink (exec c s (es ++ es')) tx :=
    fun es k hk => ⟨[.accept k, .made k .ok], by simp [Friendly], Nat.le_refl _, _, C68_accepted h es k hk .ok⟩
  have step2 : ∀ es : List Ev, ∀ due, OnlyTimer (exec c s es) due → due ≤ (exec c s es).now + 30 →
      ∃ es', Friendly es' ∧ waits es' ≤ 30 ∧ ∃ tx, OnlyLink (exec c s (es ++ es')) tx := by
    intro es due ht hle
    have he : exec c s (es ++ [.wait (due - (exec c s es).now)]) = { exec c s es with now := (exec c s es).now + (due - (exec c s es).now) } := by rw [exec_append]; rfl
    have ht' : OnlyTimer (exec c s (es ++ [.wait (due - (exec c s es).now)])) due := by rw [he]; exact ht
    obtain ⟨_, k, _, hk⟩ := C68_dials h (es ++ [.wait (due - (exec c s es).now)]) due ht' (by rw [he]; show due ≤ (exec c s es).now + (due - (exec c s es).now); omega)
    obtain ⟨es', h1, h0, h2⟩ := step1 _ k hk
    refine ⟨.wait (due - (exec c s es).now) :: .fire due :: es', ?_, by simp only [waits]; omega, by simpa using h2⟩
    intro e he
    rcases List.mem_cons.1 he with rfl | he
    · trivial
    rcases List.mem_cons.1 he with rfl | he
    · trivial
    · exact h1 e he
  obtain ⟨m, p, hi⟩ := Inv.reachable h es
  have hc := hi.sched
  cases m with
  | waiting t0 =>
    rcases hc.2.2.2 with ⟨due, _, hdue, hT⟩ | ⟨k, hk, hf⟩ | ⟨hn, _⟩
    · exact step2 _ _ hT hdue
    · have hT : OnlyTimer (exec c s (es ++ [.finish k])) ((exec c s es).now + 30) := by
        rw [exec_append]
        show OnlyTimer (step c (exec c s es) (.finish k)) _
        unfold step
        dsimp only
        rw [hf]
        dsimp only
        unfold connectFinished
        rw [if_pos rfl]
        refine ⟨by simp [callLater, setTask, hk.1, reconnectDelay], ?_, hk.2.2⟩
        apply no_task hk.2.1
        · exact not_trying_none (by simp [callLater, setTask])
        · intro j hj; simp [callLater, setTask, hj]
      have hn : (exec c s (es ++ [.finish k])).now = (exec c s es).now := by
        rw [exec_append]
        show (step c (exec c s es) (.finish k)).now = _
        unfold step
        dsimp only
        rw [hf]
        rfl
      obtain ⟨es', h1, h0, h2⟩ := step2 _ _ hT (by rw [hn]; exact Nat.le_refl _)
      refine ⟨.finish k :: es', ?_, h0, by simpa using h2⟩
      intro e he
      rcases List.mem_cons.1 he with rfl | he
      · trivial
      · exact h1 e he
    · exact absurd hs hn
  | trying =>
    obtain ⟨_, k, hk, hf⟩ := hc
    rcases hf with ⟨_, hf⟩ | ⟨tx, hp, hf⟩
    · obtain ⟨es', h1, h0, h2⟩ := step1 _ _ hf
      exact ⟨es', h1, by omega, h2⟩
    · refine ⟨[.made k .ok], by simp [Friendly], Nat.zero_le _, tx, ?_⟩
      have he : exec c s (es ++ [.made k .ok]) = step c (exec c s es) (.made k .ok) := by rw [exec_append]; rfl
      rw [he]
      exact made_link hi hf .ok
  | linked tx => exact ⟨[], by simp [Friendly], Nat.zero_le _, tx, by rw [List.append_nil]; exact hc.2.2⟩

/-- The daemon never closes a link: `switchConnectionFactory` (VNIC.py:100-104) never finds one. -/
theorem C68_never_closes {c : Cfg} {z n d i : Nat} {old : Str} {w : Write} {s : St} (h : start c (addr z n d i) old w = some s) (es : List Ev)
    (tx : Nat) : Prom.Eff.close tx ∉ (exec c s es).net.out := by
  obtain ⟨m, p, hi⟩ := Inv.reachable h es
  exact hi.quiet tx

/-- The management query `switch-live` answers "Connected" when there is a link and "Not Connected" when there is none. -/
theorem C68_live {c : Cfg} {z n d i : Nat} {old : Str} {w : Write} {s : St} (h : start c (addr z n d i) old w = some s) (es : List Ev) :
    (exec c s es).live = if (exec c s es).links = [] then "Not Connected".toList else "Connected".toList := by
  obtain ⟨m, p, hi⟩ := Inv.reachable h es
  have hs := hi.sched
  cases m with
  | waiting t0 =>
    have hl : (exec c s es).links = [] := by
      rcases hs.2.2.2 with ⟨due', hle, hle', hT⟩ | ⟨j, hj, hf⟩ | ⟨_, hD⟩
      · exact hT.2.2
      · exact hj.2.2
      · exact hD.2.2
    rw [if_pos hl]; exact hs.2.2.1
  | trying => obtain ⟨h1, k, hk, _⟩ := hs; rw [if_pos hk.2.2]; exact h1
  | linked tx => rw [if_neg (by rw [hs.2.2.2.2]; simp)]; exact hs.2.1

example : (exRun true (exHist.take 9)).map (·.live) = some "Connected".toList ∧
    (exRun true (exHist.take 10)).map (·.live) = some "Not Connected".toList := by decide +kernel

/-- While there is a link, the last address announced on it is that of the VNIC with as many components replaced by `*` as the level
last asked for says (C38 without its condition). -/
theorem C68_announced {c : Cfg} {z n d i : Nat} {old : Str} {w : Write} {s : St} (h : start c (addr z n d i) old w = some s) (es : List Ev)
    (tx : Nat) (hl : tx ∈ (exec c s es).links) :
    (Prom.announced tx (exec c s es).net.out).getLast? = some (Prom.wild z n d i (levelAfter es)) ∧
    Prom.promiscuousLevel (exec c s es).net = levelAfter es := by
  obtain ⟨m, p, hi⟩ := Inv.reachable h es
  have hs := hi.sched
  cases m with
  | waiting t0 =>
    rcases hs.2.2.2 with ⟨due', hle, hle', hT⟩ | ⟨j, hj, hf⟩ | ⟨_, hD⟩
    · rw [hT.2.2] at hl; cases hl
    · rw [hj.2.2] at hl; cases hl
    · rw [hD.2.2] at hl; cases hl
  | trying => obtain ⟨_, k, hk, _⟩ := hs; rw [hk.2.2] at hl; cases hl
  | linked tx' =>
    have hx := hs.2.2.2.2
    rw [hx, List.mem_singleton] at hl
    subst hl
    have := hi.net.phase
    rw [hs.1] at this
    exact ⟨this.2.2.2.2, hi.net.level⟩

example : (exRun true exHist).map (fun s => (s.links, (Prom.announced 1 s.net.out).getLast?)) = some ([1], some "20174.1.*.*".toList) := by
  decide +kernel

/-- Once there is nothing, nothing ever comes again. -/
theorem dead_step {c : Cfg} {s : St} (h : Dead s) (e : Ev) : Dead (step c s e) ∧ (step c s e).out = s.out := by
  obtain ⟨h1, h2, h3⟩ := h
  cases e with
  | wait n => exact ⟨⟨h1, h2, h3⟩, rfl⟩
  | setLevel l => exact ⟨⟨h1, h2, h3⟩, rfl⟩
  | fire due => unfold step; dsimp only; rw [h1, if_neg (by simp)]; exact ⟨⟨h1, h2, h3⟩, rfl⟩
  | refuse k => unfold step; dsimp only; rw [if_neg fun hk => h2 k (.inl hk)]; exact ⟨⟨h1, h2, h3⟩, rfl⟩
  | accept k => unfold step; dsimp only; rw [if_neg fun hk => h2 k (.inl hk)]; exact ⟨⟨h1, h2, h3⟩, rfl⟩
  | lost tx w => unfold step; dsimp only; rw [h3, if_neg (by simp)]; exact ⟨⟨h1, h2, h3⟩, rfl⟩
  | made k w =>
    unfold step
    dsimp only
    split
    · rename_i tx hk; exact absurd (.inr (.inr ⟨tx, hk⟩)) (h2 k)
    · exact ⟨⟨h1, h2, h3⟩, rfl⟩
  | finish k =>
    unfold step
    dsimp only
    split
    · rename_i hk; exact absurd (.inr (.inl hk)) (h2 k)
    · rename_i tx hk
      unfold connectFinished
      rw [if_neg (by simp)]
      exact ⟨⟨h1, fun j hj => h2 j ((drop_done (not_trying_made hk) j).1 hj), h3⟩, rfl⟩
    · exact ⟨⟨h1, h2, h3⟩, rfl⟩

theorem dead_exec {c : Cfg} : ∀ (h : List Ev) {s : St}, Dead s → Dead (exec c s h) ∧ (exec c s h).out = s.out
  | [], _, hd => ⟨hd, rfl⟩
  | e :: h, s, hd => by
    obtain ⟨h1, h2⟩ := dead_step (c := c) hd e
    obtain ⟨h3, h4⟩ := dead_exec (c := c) h h1
    exact ⟨h3, h4.trans h2⟩

/-- The full claim is false: when the status file cannot be written at the moment the link is lost and its listener comes first in the
set, the daemon never tries to connect again, whatever happens. -/
theorem C68_false_dead {c : Cfg} {z n d i : Nat} {old : Str} {w : Write} {s : St} (h : start c (addr z n d i) old w = some s) (es : List Ev)
    (tx : Nat) (hl : tx ∈ (exec c s es).links) (hc : c.statusFirst = true) (w' : Write) (hw : w' ≠ .ok) (es' : List Ev) :
    (exec c s (es ++ .lost tx w' :: es')).out = (exec c s es).out ++ [((exec c s es).now, .down tx)] ∧
    (exec c s (es ++ .lost tx w' :: es')).links = [] := by
  obtain ⟨m, p, hi⟩ := Inv.reachable h es
  have hs := hi.sched
  cases m with
  | waiting t0 =>
    rcases hs.2.2.2 with ⟨due', hle, hle', hT⟩ | ⟨j, hj, hf⟩ | ⟨_, hD⟩
    · rw [hT.2.2] at hl; cases hl
    · rw [hj.2.2] at hl; cases hl
    · rw [hD.2.2] at hl; cases hl
  | trying => obtain ⟨_, k, hk, _⟩ := hs; rw [hk.2.2] at hl; cases hl
  | linked tx' =>
    obtain ⟨hp, hlive, ht, hk, hx⟩ := hs
    have hm := hl
    rw [hx, List.mem_singleton] at hm
    subst hm
    rw [exec_append]
    show (exec c (step c (exec c s es) (.lost tx w')) es').out = _ ∧ (exec c (step c (exec c s es) (.lost tx w')) es').links = _
    have hstep : Dead (step c (exec c s es) (.lost tx w')) ∧
        (step c (exec c s es) (.lost tx w')).out = (exec c s es).out ++ [((exec c s es).now, .down tx)] := by
      unfold step
      dsimp only
      rw [if_pos hl]
      unfold connectionLost alert statusAlert
      dsimp only
      rw [if_pos hc]
      cases w' with
      | ok => exact absurd rfl hw
      | noOpen => exact ⟨⟨ht, hk, by simp [writeStatus, hx]⟩, rfl⟩
      | cut x => exact ⟨⟨ht, hk, by simp [writeStatus, hx]⟩, rfl⟩
    obtain ⟨h1, h2⟩ := dead_exec (c := c) es' hstep.1
    exact ⟨h2.trans hstep.2, h1.2.2⟩

example : (exRun true (exHist.take 9)).map (·.links) = some [0] := by decide +kernel

end Verif.Launch
