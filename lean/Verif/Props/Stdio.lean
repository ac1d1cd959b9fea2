import Verif.Lemmas.Stdio
/-! # C90: the terminal of the shell -/
namespace Verif.Stdio

/-- **C90.** The protocol is told that it is connected, then every line that was typed, once and in order, then that the connection is lost: in every schedule, whatever commands do, also if the
event loop stops and starts. -/
theorem C90_told (running : Bool) (h : List Ev) : told (exec (.init running) h).out <+: .conn :: (typed (exec (.init running) h).out).map .line ++ [.lost] :=
  ((Ser.init running).exec h).told

/-- **C90.** And all of it, once the event loop has done its jobs: when the thread has ended, also that the connection is lost; when it waits or asks for a line, every line. -/
theorem C90_all_told (running : Bool) (h : List Ev) (hq : (exec (.init running) h).queue = []) :
    ((exec (.init running) h).phase = .ended → told (exec (.init running) h).out = .conn :: (typed (exec (.init running) h).out).map .line ++ [.lost]) ∧
    ((exec (.init running) h).phase = .waiting ∨ (exec (.init running) h).phase = .reading → told (exec (.init running) h).out = .conn :: (typed (exec (.init running) h).out).map .line) := by
  have hs := (Ser.init running).exec h
  unfold Ser at hs
  rw [hq] at hs
  constructor
  · intro hp; simp only [hp, jobs, List.append_nil] at hs; exact hs
  · rintro (hp | hp) <;> simp only [hp, jobs, List.append_nil] at hs <;> exact hs

/-- **C90 (partial: the event loop does not stop; see `C90_false_stop`).** Whenever the user is asked for a line, every line typed before has been given to the protocol, and its command is
complete: it gave no future, or its future is done. -/
theorem C90_one_at_a_time_partial (running : Bool) (h : List Ev) (hh : .stop ∉ h) (a b : List Eff) (he : (exec (.init running) h).out = a ++ .prompt :: b) : Settled a :=
  ((Run.init running).exec (fun _ h => by cases h) (fun a b h => by cases a <;> cases h) h hh).2.2 a b he

/-! ## Closing -/

theorem quit_step {s : St} (hq : s.quit = true) (e : Ev) : (step s e).quit = true ∧ ∃ b, (step s e).out = s.out ++ b ∧ .prompt ∉ b ∧
    (typed b).length + typing (step s e).phase ≤ typing s.phase := by
  cases e with
  | thread =>
    simp only [Stdio.step, thread]
    cases hp : s.phase with
    | boot => exact ⟨hq, [], by simp [post], by simp, by simp [typing, typed]⟩
    | top =>
      have : shouldQuit s = true := by simp [shouldQuit, hq]
      simp only [this, if_true]
      exact ⟨hq, [], by simp [finish, post], by simp, by simp [typing, typed, finish, post]⟩
    | reading => exact ⟨hq, [], by simp, by simp, by simp [typing, typed, hp]⟩
    | got l => exact ⟨hq, [], by simp, by simp, by simp [typing, typed]⟩
    | cleared l => exact ⟨hq, [], by simp [post], by simp, by simp [typing, typed]⟩
    | waiting =>
      dsimp only
      split
      · exact ⟨hq, [], by simp, by simp, by simp [typing, typed]⟩
      · exact ⟨hq, [], by simp, by simp, by simp [typing, typed, hp]⟩
    | ended => exact ⟨hq, [], by simp, by simp, by simp [typing, typed, hp]⟩
  | type l =>
    simp only [Stdio.step, typeLine]
    cases hp : s.phase with
    | reading => exact ⟨hq, [.typed l], rfl, by simp, by simp [typing, typed, emit]⟩
    | _ => exact ⟨hq, [], by simp, by simp, by simp [typing, typed, hp]⟩
  | eof =>
    simp only [Stdio.step, eof]
    cases hp : s.phase with
    | reading => exact ⟨hq, [], by simp [finish, post], by simp, by simp [typing, typed, finish, post]⟩
    | _ => exact ⟨hq, [], by simp, by simp, by simp [typing, typed, hp]⟩
  | loop o =>
    simp only [Stdio.step, loopStep]
    by_cases hr : s.running = true
    · rw [if_pos hr]
      cases s.queue with
      | nil => exact ⟨hq, [], by simp, by simp, by simp [typing, typed]⟩
      | cons j q =>
        cases j with
        | conn => exact ⟨hq, [.conn], rfl, by simp, by simp [typing, typed, runJob, emit]⟩
        | lost => exact ⟨hq, [.lost], rfl, by simp, by simp [typing, typed, runJob, emit]⟩
        | next => exact ⟨hq, [], by simp [runJob, getNextInput], by simp, by simp [typing, typed, runJob, getNextInput]⟩
        | line l =>
          obtain ⟨h1, h2, _, h4, _⟩ := processed_frame (emit { s with queue := q } (.fed l o)) o
          refine ⟨h2.trans hq, [.fed l o], h4, by simp, ?_⟩
          simp only [runJob]; rw [h1]; simp [typing, typed, emit]
    · rw [if_neg hr]; exact ⟨hq, [], by simp, by simp, by simp [typing, typed]⟩
  | done n =>
    simp only [Stdio.step, futDone]
    split
    · exact ⟨hq, [], by simp, by simp, by simp [typing, typed]⟩
    · exact ⟨hq, [.futDone n], rfl, by simp, by simp [typing, typed, emit]⟩
  | close => exact ⟨rfl, [.closed], rfl, by simp, by simp [Stdio.step, typing, typed, emit]⟩
  | start => exact ⟨hq, [], by simp [Stdio.step], by simp, by simp [Stdio.step, typing, typed]⟩
  | stop => exact ⟨hq, [], by simp [Stdio.step], by simp, by simp [Stdio.step, typing, typed]⟩

theorem quit_exec {s : St} (hq : s.quit = true) (h : List Ev) : ∃ b, (exec s h).out = s.out ++ b ∧ .prompt ∉ b ∧ (typed b).length ≤ typing s.phase := by
  induction h generalizing s with
  | nil => exact ⟨[], by simp [exec], by simp, by simp [typed]⟩
  | cons e h ih =>
    obtain ⟨h1, b, h2, h3, h4⟩ := quit_step hq e
    obtain ⟨c, h5, h6, h7⟩ := ih h1
    refine ⟨b ++ c, by simp only [exec]; rw [h5, h2, List.append_assoc], by simp [h3, h6], ?_⟩
    rw [typed_append, List.length_append]; omega

/-- **C90.** Once the terminal is closed, the user is never asked for a line again; at most the line that is being typed is still taken. -/
theorem C90_closed (running : Bool) (h h' : List Ev) : ∃ b, (exec (.init running) (h ++ .close :: h')).out = (exec (.init running) (h ++ [.close])).out ++ b ∧ .prompt ∉ b ∧
    (typed b).length ≤ typing (exec (.init running) h).phase := by
  have := quit_exec (s := exec (.init running) (h ++ [.close])) (by rw [exec_append]; rfl) h'
  rw [← exec_append] at this
  obtain ⟨b, h1, h2, h3⟩ := this
  refine ⟨b, by simpa using h1, h2, ?_⟩
  rw [exec_append] at h3
  exact h3

/-- **C90.** And its thread ends, unless it waits for the user: four steps of it are enough, after which the connection is lost. -/
theorem C90_ends (s : St) (hq : s.quit = true) (hp : s.phase ≠ .reading) : (exec s (List.replicate 4 .thread)).phase = .ended := by
  have hsq : ∀ r g p q pe d o, shouldQuit ⟨r, g, true, p, q, pe, d, o⟩ = true := by intros; simp [shouldQuit]
  obtain ⟨r, g, qt, ph, q, pe, d, o⟩ := s
  simp only at hq hp; subst hq
  cases ph <;> simp only [List.replicate, exec, step, thread, post, finish, hsq, Bool.or_true, if_true] <;> simp at hp

/-! ## The next prompt -/

theorem drain {s : St} (h1 : s.phase = .waiting) (h2 : s.running = true) (h3 : s.quit = false) (h4 : Idle s ∨ ∃ a b, s.queue = a ++ .next :: b ∧ Quiet a ∧ Quiet b ∧ s.pend = [] ∧ Settled s.out)
    (os : List Outcome) (hn : os.length = s.queue.length) : ∃ b, (exec s (os.map .loop ++ [.thread, .thread])).out = s.out ++ b ++ [.prompt] ∧ typed b = [] := by
  induction os generalizing s with
  | nil =>
    have hq : s.queue = [] := List.length_eq_zero_iff.mp hn.symm
    have hg : s.getLine = true := by
      rcases h4 with h | ⟨a, b, h, _⟩
      · exact h.2.2.1
      · rw [hq] at h; cases a <;> simp at h
    obtain ⟨r, g, qt, ph, q, pe, d, o⟩ := s
    simp only at h1 h2 h3 hq hg; subst h1; subst h2; subst h3; subst hq; subst hg
    exact ⟨[], by simp [exec, step, thread, shouldQuit, emit], rfl⟩
  | cons o os ih =>
    cases hq : s.queue with
    | nil => rw [hq] at hn; simp at hn
    | cons j q =>
      have hs : step s (.loop o) = runJob { s with queue := q } o j := by simp only [step, loopStep, h2, if_true, hq]
      have hlen : os.length = q.length := by rw [hq] at hn; simpa using hn
      simp only [List.map_cons, List.cons_append, exec]
      rw [hs]
      have key : ∀ e, (e = Eff.conn ∨ e = Eff.lost) → (j = .conn ∨ j = .lost) → runJob { s with queue := q } o j = emit { s with queue := q } e →
          ∃ b, (exec (runJob { s with queue := q } o j) (os.map .loop ++ [.thread, .thread])).out = s.out ++ b ++ [.prompt] ∧ typed b = [] := by
        intro e he hj hr
        have hd : Dull e := by rcases he with rfl | rfl <;> trivial
        rw [hr]
        obtain ⟨b, h5, h6⟩ := ih (s := emit { s with queue := q } e) h1 h2 h3 (by
          rcases h4 with h | ⟨a, b, h, ha, hb, hp, hset⟩
          · exact .inl ((h.drop hq).dull hd (h.drop hq).1 rfl rfl rfl)
          · refine .inr ?_
            rw [hq] at h
            cases a with
            | nil => simp at h; rw [h.1] at hj; rcases hj with h | h <;> cases h
            | cons x a => simp at h; exact ⟨a, b, h.2, ha.tail, hb, hp, hset.dull hd⟩) hlen
        refine ⟨e :: b, by rw [h5]; simp [emit], ?_⟩
        rcases he with rfl | rfl <;> simpa [typed] using h6
      cases j with
      | conn => exact key .conn (.inl rfl) (.inl rfl) rfl
      | lost => exact key .lost (.inr rfl) (.inr rfl) rfl
      | line l =>
        rcases h4 with h | ⟨a, b, h, ha, _⟩
        · have := h.1; rw [hq] at this; rcases this.head with h | h <;> cases h
        · rw [hq] at h
          cases a with
          | nil => simp at h
          | cons x a => simp at h; rw [← h.1] at ha; rcases ha.head with h | h <;> cases h
      | next =>
        have h4' : Idle (getNextInput { s with queue := q }) := by
          rcases h4 with h | ⟨a, b, h, ha, hb, hp, hset⟩
          · have := h.1; rw [hq] at this; rcases this.head with h | h <;> cases h
          · rw [hq] at h
            cases a with
            | nil => simp at h; subst h; exact ⟨hb, hp, rfl, hset⟩
            | cons x a => simp at h; rw [← h.1] at ha; rcases ha.head with h | h <;> cases h
        exact ih (s := getNextInput { s with queue := q }) h1 h2 h3 (.inl h4') hlen

theorem logged_only {s : St} (hl : ∀ n, .futDone n ∈ s.out → n ∈ s.done) (e : Ev) : ∀ n, .futDone n ∈ (step s e).out → n ∈ (step s e).done := by
  have same : ∀ (s' : St) (x : List Eff), s'.out = s.out ++ x → s'.done = s.done → (∀ n, .futDone n ∉ x) → ∀ n, .futDone n ∈ s'.out → n ∈ s'.done := by
    intro s' x h1 h2 h3 n hn
    rw [h1] at hn; rw [h2]
    rcases List.mem_append.mp hn with hn | hn
    · exact hl n hn
    · exact absurd hn (h3 n)
  cases e with
  | thread =>
    simp only [Stdio.step, thread]
    cases s.phase with
    | top =>
      dsimp only; split
      · exact same _ [] (by simp [finish, post]) rfl (by simp)
      · exact same _ [.prompt] rfl rfl (by simp)
    | waiting => dsimp only; split <;> exact hl
    | _ => exact hl
  | type l =>
    simp only [Stdio.step, typeLine]
    cases s.phase with
    | reading => exact same _ [.typed l] rfl rfl (by simp)
    | _ => exact hl
  | eof =>
    simp only [Stdio.step, eof]
    cases s.phase <;> exact hl
  | loop o =>
    simp only [Stdio.step, loopStep]
    by_cases hr : s.running = true
    · rw [if_pos hr]
      cases s.queue with
      | nil => exact hl
      | cons j q =>
        cases j with
        | conn => exact same _ [.conn] rfl rfl (by simp)
        | lost => exact same _ [.lost] rfl rfl (by simp)
        | next => exact hl
        | line l =>
          obtain ⟨_, _, _, h4, h5⟩ := processed_frame (emit { s with queue := q } (.fed l o)) o
          exact same _ [.fed l o] h4 h5 (by simp)
    · rw [if_neg hr]; exact hl
  | done n =>
    simp only [Stdio.step, futDone]
    split
    · exact hl
    · intro m hm
      simp only [emit, List.mem_append, List.mem_singleton, Eff.futDone.injEq] at hm ⊢
      exact hm.imp (hl m) (fun h => h)
  | close => exact same _ [.closed] rfl rfl (by simp)
  | start => exact hl
  | stop => exact hl

theorem logged_exec {s : St} (hl : ∀ n, .futDone n ∈ s.out → n ∈ s.done) (h : List Ev) : ∀ n, .futDone n ∈ (exec s h).out → n ∈ (exec s h).done := by
  induction h generalizing s with
  | nil => exact hl
  | cons e h ih => exact ih (logged_only hl e)

/-- **C90 (partial: the event loop does not stop).** When the commands of all lines typed so far are complete and the thread waits, the user is asked for the next line, as soon as the event loop
has done its jobs; unless the terminal is closed. -/
theorem C90_next_partial (running : Bool) (h : List Ev) (hh : .stop ∉ h) (hp : (exec (.init running) h).phase = .waiting) (hq : (exec (.init running) h).quit = false)
    (hs : Settled (exec (.init running) h).out) (os : List Outcome) (hn : os.length = (exec (.init running) h).queue.length) :
    ∃ b, (exec (exec (.init running) h) (os.map .loop ++ [.thread, .thread])).out = (exec (.init running) h).out ++ b ++ [.prompt] ∧ typed b = [] := by
  have hr := ((Run.init running).exec (fun _ h => by cases h) (fun a b h => by cases a <;> cases h) h hh).1
  have hl := logged_exec (s := .init running) (fun _ h => by cases h) h
  unfold Run at hr
  rw [hp] at hr
  obtain ⟨hr1, hr2⟩ := hr
  refine drain hp hr2 hq ?_ os hn
  rcases hr1 with h1 | ⟨_, h1⟩
  · exact .inl h1
  · cases h1 with
    | queued l a b q1 q2 q3 q4 q5 q6 => have := hs.1; rw [q6] at this; have := congrArg List.length this; simp at this
    | pending n l x y q1 q2 q3 q4 q5 q6 q7 =>
      have := hs.2 l (.fut n) (by rw [q3]; simp)
      exact absurd (hl n this) q7
    | woken a b q1 q2 q3 q4 q5 => exact .inr ⟨a, b, q1, q2, q3, q4, q5⟩
    | stuck l q1 q2 q3 q4 => exact (hs.2 l .other q4).elim

/-! ## A result that is no future -/

/-- No more prompts. -/
def Dead (s : St) : Prop := s.phase = .ended ∨ (s.phase = .top ∧ s.quit = true) ∨ (s.phase = .waiting ∧ s.getLine = false ∧ Quiet s.queue ∧ s.pend = [] ∧ s.running = true)

theorem Dead.step {s : St} (hd : Dead s) (e : Ev) (he : e ≠ .stop) : Dead (step s e) ∧ ∃ b, (step s e).out = s.out ++ b ∧ .prompt ∉ b ∧ typed b = [] := by
  have hread : s.phase ≠ .reading := by rcases hd with h | ⟨h, _⟩ | ⟨h, _⟩ <;> rw [h] <;> intro h <;> cases h
  cases e with
  | thread =>
    simp only [Stdio.step, thread]
    rcases hd with h | ⟨h, hq⟩ | ⟨h, h2, h3, h4, h5⟩
    · rw [h]; exact ⟨.inl h, [], by simp, by simp, rfl⟩
    · rw [h]
      have : shouldQuit s = true := by simp [shouldQuit, hq]
      simp only [this, if_true]
      exact ⟨.inl rfl, [], by simp [finish, post], by simp, rfl⟩
    · rw [h]
      dsimp only
      by_cases hc : (s.getLine || shouldQuit s) = true
      · rw [if_pos hc]
        have : s.quit = true := by simpa [shouldQuit, h2, h5] using hc
        exact ⟨.inr (.inl ⟨rfl, this⟩), [], by simp, by simp, rfl⟩
      · rw [if_neg hc]; exact ⟨.inr (.inr ⟨h, h2, h3, h4, h5⟩), [], by simp, by simp, rfl⟩
  | type l =>
    have : Stdio.step s (.type l) = s := by simp only [Stdio.step, typeLine]
    rw [this]; exact ⟨hd, [], by simp, by simp, rfl⟩
  | eof =>
    have : Stdio.step s .eof = s := by simp only [Stdio.step, eof]
    rw [this]; exact ⟨hd, [], by simp, by simp, rfl⟩
  | loop o =>
    simp only [Stdio.step, loopStep]
    by_cases hr : s.running = true
    · rw [if_pos hr]
      cases hq : s.queue with
      | nil => exact ⟨hd, [], by simp, by simp, rfl⟩
      | cons j q =>
        have hf : (runJob { s with queue := q } o j).phase = s.phase ∧ (runJob { s with queue := q } o j).quit = s.quit ∧
            ∃ b, (runJob { s with queue := q } o j).out = s.out ++ b ∧ .prompt ∉ b ∧ typed b = [] := by
          cases j with
          | conn => exact ⟨rfl, rfl, [.conn], rfl, by simp, rfl⟩
          | lost => exact ⟨rfl, rfl, [.lost], rfl, by simp, rfl⟩
          | next => exact ⟨rfl, rfl, [], by simp [runJob, getNextInput], by simp, rfl⟩
          | line l =>
            obtain ⟨h1, h2, _, h4, _⟩ := processed_frame (emit { s with queue := q } (.fed l o)) o
            exact ⟨h1, h2, [.fed l o], h4, by simp, rfl⟩
        refine ⟨?_, hf.2.2⟩
        rcases hd with h | ⟨h, h'⟩ | ⟨h, h2, h3, h4, h5⟩
        · exact .inl (hf.1.trans h)
        · exact .inr (.inl ⟨hf.1.trans h, hf.2.1.trans h'⟩)
        · refine .inr (.inr ?_)
          rw [hq] at h3
          rcases h3.head with e | e <;> subst e <;> exact ⟨h, h2, h3.tail, h4, h5⟩
    · rw [if_neg hr]; exact ⟨hd, [], by simp, by simp, rfl⟩
  | done n =>
    simp only [Stdio.step, futDone]
    split
    · exact ⟨hd, [], by simp, by simp, rfl⟩
    · refine ⟨?_, [.futDone n], rfl, by simp, rfl⟩
      rcases hd with h | ⟨h, h'⟩ | ⟨h, h2, h3, h4, h5⟩
      · exact .inl h
      · exact .inr (.inl ⟨h, h'⟩)
      · exact .inr (.inr ⟨h, h2, by simp [emit, h4]; exact h3, by simp [emit, h4], h5⟩)
  | close =>
    refine ⟨?_, [.closed], rfl, by simp, rfl⟩
    rcases hd with h | ⟨h, h'⟩ | ⟨h, h2, h3, h4, h5⟩
    · exact .inl h
    · exact .inr (.inl ⟨h, rfl⟩)
    · exact .inr (.inr ⟨h, h2, h3, h4, h5⟩)
  | start =>
    refine ⟨?_, [], by simp [Stdio.step], by simp, rfl⟩
    rcases hd with h | ⟨h, h'⟩ | ⟨h, h2, h3, h4, h5⟩
    · exact .inl h
    · exact .inr (.inl ⟨h, h'⟩)
    · exact .inr (.inr ⟨h, h2, h3, h4, rfl⟩)
  | stop => exact absurd rfl he

theorem Dead.exec {s : St} (hd : Dead s) (h : List Ev) (hh : .stop ∉ h) : ∃ b, (exec s h).out = s.out ++ b ∧ .prompt ∉ b ∧ typed b = [] := by
  induction h generalizing s with
  | nil => exact ⟨[], by simp [Stdio.exec], by simp, rfl⟩
  | cons e h ih =>
    obtain ⟨h1, b, h2, h3, h4⟩ := hd.step e (fun x => hh (by simp [x]))
    obtain ⟨c, h5, h6, h7⟩ := ih h1 (fun x => hh (by simp [x]))
    exact ⟨b ++ c, by simp only [Stdio.exec]; rw [h5, h2, List.append_assoc], by simp [h3, h6], by rw [typed_append, h4, h7]; rfl⟩

/-- "The user is asked for a line after each command" is false: after a command whose callback returns a true value that is not a future (a number, a `Deferred` of AsyncIODeferred.py) the user is
never asked again and no line is ever taken, whatever happens. -/
theorem C90_false_other (running : Bool) (h h' : List Ev) (hh : .stop ∉ h) (hh' : .stop ∉ h') (l : Str) (q : List Job) (hq : (exec (.init running) h).queue = .line l :: q) :
    ∃ b, (exec (.init running) (h ++ .loop .other :: h')).out = (exec (.init running) (h ++ [.loop .other])).out ++ b ∧ .prompt ∉ b ∧ typed b = [] := by
  have hr := ((Run.init running).exec (fun _ h => by cases h) (fun a b h => by cases a <;> cases h) h hh).1
  have hd : Dead (exec (.init running) (h ++ [.loop .other])) ∨ (exec (.init running) h).running = false := by
    rw [exec_append]
    generalize exec (.init running) h = s at hr hq
    cases hrun : s.running with
    | false => exact .inr rfl
    | true =>
      left
      have hs : exec s [.loop .other] = emit { s with queue := q } (.fed l .other) := by
        simp only [exec, step, loopStep, hrun, if_true, hq, runJob, processed]
      rw [hs]
      rcases hr.job hq (by rintro (h | h) <;> cases h) with ⟨h1, h2⟩ | ⟨h1, h2, h3, h4⟩ | h1
      · exact .inr (.inl ⟨h1, h2⟩)
      · refine .inr (.inr ⟨h1, h2, ?_, ?_, h4⟩)
        · cases h3 with
          | queued l' a b q1 q2 q3 =>
            rw [hq] at q1
            cases a with
            | nil => simp at q1; rw [← q1.2] at q3; exact q3
            | cons x a => simp at q1; rw [← q1.1] at q2; rcases q2.head with h | h <;> cases h
          | pending n l x y q1 => rw [hq] at q1; exact q1.tail
          | woken a b q1 q2 =>
            rw [hq] at q1
            cases a with
            | nil => simp at q1
            | cons x a => simp at q1; rw [← q1.1] at q2; rcases q2.head with h | h <;> cases h
          | stuck l q1 => rw [hq] at q1; exact q1.tail
        · cases h3 with
          | queued l' a b q1 q2 q3 q4 => exact q4
          | pending n l x y q1 => rw [hq] at q1; rcases q1.head with h | h <;> cases h
          | woken a b q1 q2 q3 q4 => exact q4
          | stuck l q1 q2 => exact q2
      · exact .inl h1
  rcases hd with hd | hd
  · have := hd.exec h' hh'
    rw [← exec_append] at this
    simpa using this
  · rcases hr.job hq (by rintro (h | h) <;> cases h) with ⟨h1, h2⟩ | ⟨_, _, _, h4⟩ | h1
    · have hs : exec (.init running) (h ++ [.loop .other]) = exec (.init running) h := by
        rw [exec_append]; simp only [exec, step, loopStep, hd]; rfl
      have := Dead.exec (s := exec (.init running) (h ++ [.loop .other])) (by rw [hs]; exact .inr (.inl ⟨h1, h2⟩)) h' hh'
      rw [← exec_append] at this
      simpa using this
    · rw [hd] at h4; cases h4
    · have hs : exec (.init running) (h ++ [.loop .other]) = exec (.init running) h := by
        rw [exec_append]; simp only [exec, step, loopStep, hd]; rfl
      have := Dead.exec (s := exec (.init running) (h ++ [.loop .other])) (by rw [hs]; exact .inl h1) h' hh'
      rw [← exec_append] at this
      simpa using this

/-! ## Cases of the theorems -/

/-- Two commands: the first gives a future that is done later, the second none. -/
def session : List Ev := [.thread, .loop .plain, .thread, .type "a".toList, .thread, .thread, .loop (.fut 7), .thread, .done 7, .loop .plain, .thread, .thread, .type "b".toList, .thread, .thread,
  .loop .plain]

example : Ev.stop ∉ session ∧ (exec (.init true) (session ++ [.thread, .thread])).out = [.conn, .prompt, .typed "a".toList, .fed "a".toList (.fut 7), .futDone 7, .prompt, .typed "b".toList,
    .fed "b".toList .plain, .prompt] := by decide

/-- `C90_next_partial`. -/
example : (exec (.init true) session).phase = .waiting ∧ (exec (.init true) session).quit = false ∧ (exec (.init true) session).queue = [] ∧
    fed (exec (.init true) session).out = typed (exec (.init true) session).out := by decide

example : Settled (exec (.init true) session).out :=
  C90_one_at_a_time_partial true (session ++ [.thread, .thread]) (by decide) _ [] (by decide)

/-- `C90_closed` and `C90_ends`: the command `quit` closes the terminal while its line is processed. -/
def quitting : List Ev := [.thread, .loop .plain, .thread, .type "quit".toList, .thread, .thread, .close, .loop .plain]

example : (exec (.init true) quitting).quit = true ∧ (exec (.init true) quitting).phase = .waiting ∧ told (exec (.init true) (quitting ++ [.thread, .thread, .loop .plain])).out =
    [.conn, .line "quit".toList, .lost] := by decide

/-- `C90_all_told`: at the end, and while a line is asked for. -/
example : (exec (.init true) (quitting ++ [.thread, .thread, .loop .plain])).queue = [] ∧ (exec (.init true) (quitting ++ [.thread, .thread, .loop .plain])).phase = .ended ∧
    (exec (.init true) [.thread, .loop .plain, .thread]).queue = [] ∧ (exec (.init true) [.thread, .loop .plain, .thread]).phase = .reading ∧
    (exec (.init true) [.thread, .loop .plain, .thread, .eof]).phase = .ended := by decide

/-- `C90_false_other`. -/
example : (exec (.init true) [.thread, .loop .plain, .thread, .type "a".toList, .thread, .thread]).queue = [.line "a".toList] := by decide

/-! ## What does not hold -/

/-- "A line is asked for only when the commands before are complete" is false if the event loop stops and is started again (for instance `run_until_complete` twice): the thread takes the first for
the end of waiting, and the second for no end at all. -/
theorem C90_false_stop : (exec (.init true) [.thread, .loop .plain, .thread, .type "a".toList, .thread, .thread, .loop (.fut 7), .stop, .thread, .start, .thread]).out =
    [.conn, .prompt, .typed "a".toList, .fed "a".toList (.fut 7), .prompt] := by decide

/-- "The user is asked for a line" is false of a terminal that is made before the event loop runs, if its thread is faster: it ends at once. -/
theorem C90_false_early : (exec (.init false) [.thread, .thread, .start, .loop .plain, .loop .plain]).out = [.conn, .lost] ∧
    (exec (.init false) [.thread, .thread, .start, .loop .plain, .loop .plain]).phase = .ended := by decide

/-- "No command runs after the terminal is closed" is false: the line that is being typed is still given to the protocol. -/
theorem C90_false_close : (exec (.init true) [.thread, .loop .plain, .thread, .close, .type "a".toList, .thread, .thread, .loop .plain]).out =
    [.conn, .prompt, .closed, .typed "a".toList, .fed "a".toList .plain] := by decide

end Verif.Stdio
