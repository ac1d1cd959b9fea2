import Verif.Spec.Stdio
/-! # Lemmas: the terminal -/
namespace Verif.Stdio

theorem typed_append (a b : List Eff) : typed (a ++ b) = typed a ++ typed b := by
  induction a with
  | nil => rfl
  | cons e a ih => cases e <;> simp [typed, ih]

theorem fed_append (a b : List Eff) : fed (a ++ b) = fed a ++ fed b := by
  induction a with
  | nil => rfl
  | cons e a ih => cases e <;> simp [fed, ih]

theorem told_append (a b : List Eff) : told (a ++ b) = told a ++ told b := by
  induction a with
  | nil => rfl
  | cons e a ih => cases e <;> simp [told, ih]

theorem exec_append (a b : List Ev) (s : St) : exec s (a ++ b) = exec (exec s a) b := by
  induction a generalizing s with
  | nil => rfl
  | cons e a ih => exact ih _

/-! ## What the protocol is told -/

/-- What it will be told by the jobs in the queue. -/
def jobs : List Job → List Told
  | [] => []
  | .conn :: r => .conn :: jobs r
  | .line l :: r => .line l :: jobs r
  | .next :: r => jobs r
  | .lost :: r => .lost :: jobs r

theorem jobs_append (a b : List Job) : jobs (a ++ b) = jobs a ++ jobs b := by
  induction a with
  | nil => rfl
  | cons e a ih => cases e <;> simp [jobs, ih]

theorem jobs_next {α} (l : List α) : jobs (l.map (fun _ => Job.next)) = [] := by
  induction l with
  | nil => rfl
  | cons a l ih => simpa [jobs] using ih

def inHand : Phase → List Told
  | .got l => [.line l]
  | .cleared l => [.line l]
  | .ended => [.lost]
  | _ => []

def Ser (s : St) : Prop := match s.phase with
  | .boot => told s.out ++ jobs s.queue = [] ∧ typed s.out = []
  | .got l => told s.out ++ jobs s.queue ++ [.line l] = .conn :: (typed s.out).map .line
  | .cleared l => told s.out ++ jobs s.queue ++ [.line l] = .conn :: (typed s.out).map .line
  | .ended => told s.out ++ jobs s.queue = .conn :: (typed s.out).map .line ++ [.lost]
  | _ => told s.out ++ jobs s.queue = .conn :: (typed s.out).map .line

theorem Ser.init (b : Bool) : Ser (.init b) := ⟨rfl, rfl⟩

/-- The same phase, and the same to be told. -/
theorem Ser.same {s s' : St} (h : Ser s) (h1 : s'.phase = s.phase) (h2 : told s'.out ++ jobs s'.queue = told s.out ++ jobs s.queue) (h3 : typed s'.out = typed s.out) : Ser s' := by
  unfold Ser at h ⊢
  rw [h1, h2, h3]
  exact h

theorem Ser.step {s : St} (h : Ser s) (e : Ev) : Ser (step s e) := by
  cases e with
  | thread =>
    simp only [Stdio.step, thread]
    cases hp : s.phase with
    | boot =>
      unfold Ser at h; simp only [hp] at h
      simp only [Ser, post, jobs_append, h.2]
      rw [← List.append_assoc, h.1]; rfl
    | top =>
      unfold Ser at h; simp only [hp] at h
      dsimp only
      by_cases hq : shouldQuit s = true
      · rw [if_pos hq]; simp only [Ser, finish, post, jobs_append]; rw [← List.append_assoc, h]; rfl
      · rw [if_neg hq]; simp [Ser, emit, told_append, typed_append, told, typed, h]
    | reading => exact h
    | got l =>
      unfold Ser at h; simp only [hp] at h
      exact h
    | cleared l =>
      unfold Ser at h; simp only [hp] at h
      simp only [Ser, post, jobs_append]
      rw [← List.append_assoc]; exact h
    | waiting =>
      dsimp only
      by_cases hq : (s.getLine || shouldQuit s) = true
      · rw [if_pos hq]; unfold Ser at h; simp only [hp] at h; exact h
      · rw [if_neg hq]; exact h
    | ended => exact h
  | type l =>
    simp only [Stdio.step, typeLine]
    cases hp : s.phase with
    | reading =>
      unfold Ser at h; simp only [hp] at h
      simp [Ser, emit, told_append, typed_append, told, typed, h]
    | _ => exact h
  | eof =>
    simp only [Stdio.step, eof]
    cases hp : s.phase with
    | reading =>
      unfold Ser at h; simp only [hp] at h
      simp only [Ser, finish, post, jobs_append]; rw [← List.append_assoc, h]; rfl
    | _ => exact h
  | loop o =>
    simp only [Stdio.step, loopStep]
    by_cases hr : s.running = true
    · rw [if_pos hr]
      cases hq : s.queue with
      | nil => exact h
      | cons j q =>
        dsimp only
        cases j with
        | conn => exact h.same rfl (by simp [runJob, emit, told_append, told, hq, jobs]) (by simp [runJob, emit, typed_append, typed])
        | line l =>
          cases o with
          | plain => exact h.same rfl (by simp [runJob, processed, getNextInput, emit, told_append, told, hq, jobs]) (by simp [runJob, processed, getNextInput, emit, typed_append, typed])
          | other => exact h.same rfl (by simp [runJob, processed, emit, told_append, told, hq, jobs]) (by simp [runJob, processed, emit, typed_append, typed])
          | fut n =>
            simp only [runJob, processed]
            split
            · exact h.same rfl (by simp [post, emit, told_append, jobs_append, told, hq, jobs]) (by simp [post, emit, typed_append, typed])
            · exact h.same rfl (by simp [emit, told_append, told, hq, jobs]) (by simp [emit, typed_append, typed])
        | next => exact h.same rfl (by simp [runJob, getNextInput, hq, jobs]) rfl
        | lost => exact h.same rfl (by simp [runJob, emit, told_append, told, hq, jobs]) (by simp [runJob, emit, typed_append, typed])
    · rw [if_neg hr]; exact h
  | done n =>
    simp only [Stdio.step, futDone]
    split
    · exact h
    · exact h.same rfl (by simp [emit, told_append, told, jobs_append, jobs_next]) (by simp [emit, typed_append, typed])
  | close => exact h.same rfl (by simp [Stdio.step, emit, told_append, told]) (by simp [Stdio.step, emit, typed_append, typed])
  | start => exact h
  | stop => exact h

theorem Ser.exec {s : St} (h : Ser s) (es : List Ev) : Ser (exec s es) := by
  induction es generalizing s with
  | nil => exact h
  | cons e es ih => exact ih (h.step e)

theorem Ser.told {s : St} (h : Ser s) : Stdio.told s.out <+: .conn :: (typed s.out).map .line ++ [.lost] := by
  unfold Ser at h
  cases hp : s.phase <;> simp only [hp] at h
  · obtain ⟨h1, _⟩ := h
    rw [(List.append_eq_nil_iff.mp h1).1]; exact List.nil_prefix
  · exact ⟨jobs s.queue ++ [.lost], by rw [← h]; simp⟩
  · exact ⟨jobs s.queue ++ [.lost], by rw [← h]; simp⟩
  · exact ⟨_, by rw [← h]; simp only [List.append_assoc]; rfl⟩
  · exact ⟨_, by rw [← h]; simp only [List.append_assoc]; rfl⟩
  · exact ⟨jobs s.queue ++ [.lost], by rw [← h]; simp⟩
  · exact ⟨_, h⟩

/-! ## One command at a time -/

theorem complete_more {a b : List Eff} {o : Outcome} (h : Complete a o) : Complete (a ++ b) o := by
  cases o with
  | plain => trivial
  | fut n => exact List.mem_append_left _ h
  | other => exact h.elim

/-- Nothing of a command in the queue. -/
def Quiet (q : List Job) : Prop := ∀ j ∈ q, j = .conn ∨ j = .lost

def AllDone (log : List Eff) : Prop := ∀ l o, .fed l o ∈ log → Complete log o

def Idle (s : St) : Prop := Quiet s.queue ∧ s.pend = [] ∧ s.getLine = true ∧ Settled s.out

/-- What a line that was read can be in. -/
inductive Busy (s : St) : Prop
  | queued (l : Str) (a b : List Job) : s.queue = a ++ .line l :: b → Quiet a → Quiet b → s.pend = [] → AllDone s.out → typed s.out = fed s.out ++ [l] → Busy s
  | pending (n : Nat) (l : Str) (x y : List Eff) : Quiet s.queue → s.pend = [n] → s.out = x ++ .fed l (.fut n) :: y → (∀ l o, .fed l o ∈ x → Complete s.out o) → fed y = [] →
      fed s.out = typed s.out → n ∉ s.done → Busy s
  | woken (a b : List Job) : s.queue = a ++ .next :: b → Quiet a → Quiet b → s.pend = [] → Settled s.out → Busy s
  | stuck (l : Str) : Quiet s.queue → s.pend = [] → fed s.out = typed s.out → .fed l .other ∈ s.out → Busy s

def Run (s : St) : Prop := match s.phase with
  | .boot => s.queue = [] ∧ s.pend = [] ∧ typed s.out = [] ∧ ∀ l o, .fed l o ∉ s.out
  | .top => Idle s ∨ s.quit = true
  | .reading => Idle s ∧ s.running = true
  | .got l => Quiet s.queue ∧ s.pend = [] ∧ AllDone s.out ∧ typed s.out = fed s.out ++ [l] ∧ s.running = true
  | .cleared l => Quiet s.queue ∧ s.pend = [] ∧ s.getLine = false ∧ AllDone s.out ∧ typed s.out = fed s.out ++ [l] ∧ s.running = true
  | .waiting => (Idle s ∨ (s.getLine = false ∧ Busy s)) ∧ s.running = true
  | .ended => True

/-- Futures that are done are in the log. -/
def Logged (s : St) : Prop := ∀ n ∈ s.done, .futDone n ∈ s.out

/-- Every prompt so far came when all was settled. -/
def Prompts (out : List Eff) : Prop := ∀ a b, out = a ++ .prompt :: b → Settled a

theorem Prompts.snoc {out : List Eff} (h : Prompts out) {e : Eff} (he : e = .prompt → Settled out) : Prompts (out ++ [e]) := by
  intro a b hab
  rcases List.append_eq_append_iff.mp hab with ⟨c, h1, h2⟩ | ⟨c, h1, h2⟩
  · cases c with
    | nil =>
      simp at h1 h2
      rw [h1]; exact he h2.1
    | cons x c => simp at h2
  · cases c with
    | nil =>
      simp at h1 h2
      rw [← h1]; exact he h2.1.symm
    | cons x c =>
      simp at h2
      obtain ⟨rfl, h3⟩ := h2
      exact h a c h1

theorem Quiet.tail {j : Job} {q : List Job} (h : Quiet (j :: q)) : Quiet q := fun x hx => h x (by simp [hx])

theorem Quiet.snoc {q : List Job} (h : Quiet q) {j : Job} (hj : j = .conn ∨ j = .lost) : Quiet (q ++ [j]) := by
  intro x hx
  rcases List.mem_append.mp hx with hx | hx
  · exact h x hx
  · simp at hx; rw [hx]; exact hj

/-- An effect that is no line. -/
def Dull : Eff → Prop
  | .typed _ => False
  | .fed _ _ => False
  | _ => True

theorem dull_typed {e : Eff} (h : Dull e) (out : List Eff) : typed (out ++ [e]) = typed out := by
  rw [typed_append]; cases e <;> first | exact h.elim | simp [typed]

theorem dull_fed {e : Eff} (h : Dull e) (out : List Eff) : fed (out ++ [e]) = fed out := by
  rw [fed_append]; cases e <;> first | exact h.elim | simp [fed]

theorem dull_mem {e : Eff} (h : Dull e) {out : List Eff} {l : Str} {o : Outcome} (hm : .fed l o ∈ out ++ [e]) : .fed l o ∈ out := by
  rcases List.mem_append.mp hm with hm | hm
  · exact hm
  · simp at hm; rw [← hm] at h; exact h.elim

theorem AllDone.dull {e : Eff} (h : Dull e) {out : List Eff} (ha : AllDone out) : AllDone (out ++ [e]) :=
  fun l o hm => complete_more (ha l o (dull_mem h hm))

theorem Settled.dull {e : Eff} (h : Dull e) {out : List Eff} (ha : Settled out) : Settled (out ++ [e]) :=
  ⟨by rw [dull_fed h, dull_typed h]; exact ha.1, AllDone.dull h ha.2⟩

theorem Idle.dull {s s' : St} {e : Eff} (h : Dull e) (hi : Idle s) (h1 : Quiet s'.queue) (h2 : s'.pend = s.pend) (h3 : s'.getLine = s.getLine) (h4 : s'.out = s.out ++ [e]) : Idle s' :=
  ⟨h1, by rw [h2]; exact hi.2.1, by rw [h3]; exact hi.2.2.1, by rw [h4]; exact hi.2.2.2.dull h⟩

theorem mem_fed {l : Str} {o : Outcome} {log : List Eff} (h : .fed l o ∈ log) : l ∈ fed log := by
  induction log with
  | nil => cases h
  | cons e log ih =>
    rcases List.mem_cons.mp h with rfl | h
    · simp [fed]
    · have := ih h
      cases e <;> simp [fed, this]

theorem Busy.dull {s s' : St} {e : Eff} (h : Dull e) (hi : Busy s) (h1 : s'.queue = s.queue) (h2 : s'.pend = s.pend)
    (h3 : ∀ n, s.pend = [n] → n ∉ s.done → n ∉ s'.done) (h4 : s'.out = s.out ++ [e]) : Busy s' := by
  cases hi with
  | queued l a b q1 q2 q3 q4 q5 q6 =>
    exact .queued l a b (h1.trans q1) q2 q3 (h2.trans q4) (by rw [h4]; exact q5.dull h) (by rw [h4, dull_typed h, dull_fed h]; exact q6)
  | pending n l x y q1 q2 q3 q4 q5 q6 q7 =>
    refine .pending n l x (y ++ [e]) (by rw [h1]; exact q1) (h2.trans q2) (by rw [h4, q3]; simp) ?_ (by rw [dull_fed h]; exact q5) (by rw [h4, dull_typed h, dull_fed h]; exact q6) (h3 n q2 q7)
    intro l o hm; rw [h4]; exact complete_more (q4 l o hm)
  | woken a b q1 q2 q3 q4 q5 => exact .woken a b (h1.trans q1) q2 q3 (h2.trans q4) (by rw [h4]; exact q5.dull h)
  | stuck l q1 q2 q3 q4 => exact .stuck l (by rw [h1]; exact q1) (h2.trans q2) (by rw [h4, dull_typed h, dull_fed h]; exact q3) (by rw [h4]; exact List.mem_append_left _ q4)

/-- A dull effect changes nothing in this. -/
theorem Run.dull {s s' : St} {e : Eff} (h : Dull e) (hi : Run s) (h0 : s'.phase = s.phase) (h1 : s'.queue = s.queue) (h2 : s'.pend = s.pend) (h3 : ∀ n, s.pend = [n] → n ∉ s.done → n ∉ s'.done)
    (h4 : s'.out = s.out ++ [e]) (h5 : s'.getLine = s.getLine) (h6 : s.quit = true → s'.quit = true) (h7 : s'.running = s.running) : Run s' := by
  unfold Run at hi ⊢
  rw [h0]
  cases hp : s.phase <;> simp only [hp] at hi ⊢
  · exact ⟨h1.trans hi.1, h2.trans hi.2.1, by rw [h4, dull_typed h]; exact hi.2.2.1, fun l o hm => hi.2.2.2 l o (dull_mem h (h4 ▸ hm))⟩
  · rcases hi with hi | hi
    · exact .inl (hi.dull h (by rw [h1]; exact hi.1) h2 h5 h4)
    · exact .inr (h6 hi)
  · exact ⟨hi.1.dull h (by rw [h1]; exact hi.1.1) h2 h5 h4, h7.trans hi.2⟩
  · obtain ⟨a, b, c, d, f⟩ := hi
    exact ⟨by rw [h1]; exact a, h2.trans b, by rw [h4]; exact c.dull h, by rw [h4, dull_typed h, dull_fed h]; exact d, h7.trans f⟩
  · obtain ⟨a, b, b', c, d, f⟩ := hi
    exact ⟨by rw [h1]; exact a, h2.trans b, h5.trans b', by rw [h4]; exact c.dull h, by rw [h4, dull_typed h, dull_fed h]; exact d, h7.trans f⟩
  · refine ⟨?_, h7.trans hi.2⟩
    rcases hi.1 with hi | ⟨hg, hi⟩
    · exact .inl (hi.dull h (by rw [h1]; exact hi.1) h2 h5 h4)
    · exact .inr ⟨h5.trans hg, hi.dull h h1 h2 h3 h4⟩

theorem Busy.drop {s : St} {j : Job} {q : List Job} (hi : Busy s) (hq : s.queue = j :: q) (hj : j = .conn ∨ j = .lost) : Busy { s with queue := q } := by
  cases hi with
  | queued l a b q1 q2 q3 q4 q5 q6 =>
    rw [q1] at hq
    cases a with
    | nil => simp at hq; rw [← hq.1] at hj; rcases hj with h | h <;> cases h
    | cons x a => simp at hq; exact .queued l a b hq.2.symm q2.tail q3 q4 q5 q6
  | pending n l x y q1 q2 q3 q4 q5 q6 q7 => exact .pending n l x y (by rw [hq] at q1; exact q1.tail) q2 q3 q4 q5 q6 q7
  | woken a b q1 q2 q3 q4 q5 =>
    rw [q1] at hq
    cases a with
    | nil => simp at hq; rw [← hq.1] at hj; rcases hj with h | h <;> cases h
    | cons x a => simp at hq; exact .woken a b hq.2.symm q2.tail q3 q4 q5
  | stuck l q1 q2 q3 q4 => exact .stuck l (by rw [hq] at q1; exact q1.tail) q2 q3 q4

theorem Busy.congr {s s' : St} (h : Busy s) (h1 : s'.queue = s.queue) (h2 : s'.pend = s.pend) (h3 : s'.done = s.done) (h4 : s'.out = s.out) : Busy s' := by
  cases h with
  | queued l a b q1 q2 q3 q4 q5 q6 => exact .queued l a b (h1.trans q1) q2 q3 (h2.trans q4) (h4 ▸ q5) (h4 ▸ q6)
  | pending n l x y q1 q2 q3 q4 q5 q6 q7 => exact .pending n l x y (h1 ▸ q1) (h2.trans q2) (h4.trans q3) (fun l o hm => h4 ▸ q4 l o hm) q5 (h4 ▸ q6) (h3 ▸ q7)
  | woken a b q1 q2 q3 q4 q5 => exact .woken a b (h1.trans q1) q2 q3 (h2.trans q4) (h4 ▸ q5)
  | stuck l q1 q2 q3 q4 => exact .stuck l (h1 ▸ q1) (h2.trans q2) (h4 ▸ q3) (h4 ▸ q4)

theorem processed_frame (s : St) (o : Outcome) : (processed s o).phase = s.phase ∧ (processed s o).quit = s.quit ∧ (processed s o).running = s.running ∧ (processed s o).out = s.out ∧
    (processed s o).done = s.done := by
  cases o with
  | plain => exact ⟨rfl, rfl, rfl, rfl, rfl⟩
  | other => exact ⟨rfl, rfl, rfl, rfl, rfl⟩
  | fut n => simp only [processed]; split <;> exact ⟨rfl, rfl, rfl, rfl, rfl⟩

theorem Idle.drop {s : St} {j : Job} {q : List Job} (hi : Idle s) (hq : s.queue = j :: q) : Idle { s with queue := q } :=
  ⟨by have := hi.1; rw [hq] at this; exact this.tail, hi.2⟩

theorem Run.drop {s : St} {j : Job} {q : List Job} (hi : Run s) (hq : s.queue = j :: q) (hj : j = .conn ∨ j = .lost) : Run { s with queue := q } := by
  unfold Run at hi ⊢
  cases hp : s.phase <;> simp only [hp] at hi ⊢
  · rw [hi.1] at hq; cases hq
  · exact hi.imp (·.drop hq) (fun h => h)
  · exact ⟨hi.1.drop hq, hi.2⟩
  · exact ⟨by have := hi.1; rw [hq] at this; exact this.tail, hi.2⟩
  · exact ⟨by have := hi.1; rw [hq] at this; exact this.tail, hi.2⟩
  · exact ⟨hi.1.imp (·.drop hq) (fun h => ⟨h.1, (h.2.drop hq hj).congr rfl rfl rfl rfl⟩), hi.2⟩

theorem Quiet.head {j : Job} {q : List Job} (h : Quiet (j :: q)) : j = .conn ∨ j = .lost := h j (by simp)

/-- A job of a command is there only while a line is in hand, unless the shell quits. -/
theorem Run.job {s : St} {j : Job} {q : List Job} (hi : Run s) (hq : s.queue = j :: q) (hj : ¬ (j = .conn ∨ j = .lost)) :
    (s.phase = .top ∧ s.quit = true) ∨ (s.phase = .waiting ∧ s.getLine = false ∧ Busy s ∧ s.running = true) ∨ s.phase = .ended := by
  unfold Run at hi
  cases hp : s.phase <;> simp only [hp] at hi
  · rw [hi.1] at hq; cases hq
  · rcases hi with hi | hi
    · have := hi.1; rw [hq] at this; exact absurd this.head hj
    · exact .inl ⟨rfl, hi⟩
  · have := hi.1.1; rw [hq] at this; exact absurd this.head hj
  · have := hi.1; rw [hq] at this; exact absurd this.head hj
  · have := hi.1; rw [hq] at this; exact absurd this.head hj
  · rcases hi.1 with hi' | hi'
    · have := hi'.1; rw [hq] at this; exact absurd this.head hj
    · exact .inr (.inl ⟨rfl, hi'.1, hi'.2, hi.2⟩)
  · exact .inr (.inr rfl)

theorem Run.top {s : St} (h : s.phase = .top) (hq : s.quit = true) : Run s := by unfold Run; rw [h]; exact .inr hq
theorem Run.ended {s : St} (h : s.phase = .ended) : Run s := by unfold Run; rw [h]; trivial
theorem Run.wait {s : St} (h : s.phase = .waiting) (hr : s.running = true) (hq : Idle s ∨ (s.getLine = false ∧ Busy s)) : Run s := by unfold Run; rw [h]; exact ⟨hq, hr⟩

theorem settled_fed {out : List Eff} {l : Str} {o : Outcome} (h1 : AllDone out) (h2 : typed out = fed out ++ [l]) (ho : Complete (out ++ [.fed l o]) o) : Settled (out ++ [.fed l o]) := by
  refine ⟨by rw [fed_append, typed_append, h2]; simp [fed, typed], ?_⟩
  intro l' o' hm
  rcases List.mem_append.mp hm with hm | hm
  · exact complete_more (h1 l' o' hm)
  · simp at hm; rw [hm.2]; exact ho

/-- The event loop runs a line. -/
theorem Run.line {s : St} {l : Str} {q : List Job} (hi : Run s) (hl : Logged s) (hq : s.queue = .line l :: q) (o : Outcome) : Run (processed (emit { s with queue := q } (.fed l o)) o) := by
  rcases hi.job hq (by rintro (h | h) <;> cases h) with ⟨h1, h2⟩ | ⟨h1, h2, h3, h4⟩ | h1
  · exact Run.top ((processed_frame _ _).1.trans h1) ((processed_frame _ _).2.1.trans h2)
  · have hb : typed s.out = fed s.out ++ [l] ∧ AllDone s.out ∧ Quiet q ∧ s.pend = [] := by
      cases h3 with
      | queued l' a b q1 q2 q3 q4 q5 q6 =>
        rw [hq] at q1
        cases a with
        | nil => simp at q1; obtain ⟨rfl, rfl⟩ := q1; exact ⟨q6, q5, q3, q4⟩
        | cons x a => simp at q1; rw [← q1.1] at q2; rcases q2.head with h | h <;> cases h
      | pending n l x y q1 => rw [hq] at q1; rcases q1.head with h | h <;> cases h
      | woken a b q1 q2 =>
        rw [hq] at q1
        cases a with
        | nil => simp at q1
        | cons x a => simp at q1; rw [← q1.1] at q2; rcases q2.head with h | h <;> cases h
      | stuck l q1 => rw [hq] at q1; rcases q1.head with h | h <;> cases h
    obtain ⟨b1, b2, b3, b4⟩ := hb
    cases o with
    | plain => exact Run.wait h1 h4 (.inl ⟨b3, b4, rfl, settled_fed b2 b1 trivial⟩)
    | other => exact Run.wait h1 h4 (.inr ⟨h2, .stuck l b3 b4 (by simp [processed, emit, fed_append, typed_append, fed, typed, b1]) (by simp [processed, emit])⟩)
    | fut n =>
      simp only [processed]
      by_cases hn : n ∈ s.done
      · rw [if_pos (show n ∈ (emit { s with queue := q } (.fed l (.fut n))).done from hn)]
        refine Run.wait h1 h4 (.inr ⟨h2, .woken q [] rfl b3 (fun _ h => by cases h) b4 (settled_fed b2 b1 ?_)⟩)
        exact List.mem_append_left _ (hl n hn)
      · rw [if_neg (show ¬ n ∈ (emit { s with queue := q } (.fed l (.fut n))).done from hn)]
        refine Run.wait h1 h4 (.inr ⟨h2, .pending n l s.out [] b3 (by simp [emit, b4]) rfl ?_ rfl (by simp [emit, fed_append, typed_append, fed, typed, b1]) hn⟩)
        intro l' o' hm; exact complete_more (b2 l' o' hm)
  · exact Run.ended ((processed_frame _ _).1.trans h1)

/-- And a done callback. -/
theorem Run.next {s : St} {q : List Job} (hi : Run s) (hq : s.queue = .next :: q) : Run (getNextInput { s with queue := q }) := by
  rcases hi.job hq (by rintro (h | h) <;> cases h) with ⟨h1, h2⟩ | ⟨h1, h2, h3, h4⟩ | h1
  · exact Run.top h1 h2
  · refine Run.wait h1 h4 (.inl ?_)
    cases h3 with
    | queued l' a b q1 q2 =>
      rw [hq] at q1
      cases a with
      | nil => simp at q1
      | cons x a => simp at q1; rw [← q1.1] at q2; rcases q2.head with h | h <;> cases h
    | pending n l x y q1 => rw [hq] at q1; rcases q1.head with h | h <;> cases h
    | woken a b q1 q2 q3 q4 q5 =>
      rw [hq] at q1
      cases a with
      | nil => simp at q1; subst q1; exact ⟨q3, q4, rfl, q5⟩
      | cons x a => simp at q1; rw [← q1.1] at q2; rcases q2.head with h | h <;> cases h
    | stuck l q1 => rw [hq] at q1; rcases q1.head with h | h <;> cases h
  · exact Run.ended h1

theorem futDone_nil {s : St} {n : Nat} (hn : n ∉ s.done) (hp : n ∉ s.pend) : futDone s n = emit { s with done := s.done ++ [n] } (.futDone n) := by
  unfold futDone
  rw [if_neg hn]
  have h1 : s.pend.filter (· = n) = [] := by
    rw [List.filter_eq_nil_iff]; intro x hx e; simp at e; exact hp (e ▸ hx)
  have h2 : s.pend.filter (· ≠ n) = s.pend := by
    rw [List.filter_eq_self]; intro x hx; simp; rintro rfl; exact hp hx
  rw [h1, h2]; simp

theorem Run.done {s : St} (hi : Run s) (n : Nat) : Run (futDone s n) := by
  by_cases hn : n ∈ s.done
  · unfold futDone; rw [if_pos hn]; exact hi
  · by_cases hp : n ∈ s.pend
    · have h0 : (futDone s n).phase = s.phase ∧ (futDone s n).quit = s.quit ∧ (futDone s n).running = s.running ∧ (futDone s n).getLine = s.getLine := by
        unfold futDone; rw [if_neg hn]; exact ⟨rfl, rfl, rfl, rfl⟩
      have hi' := hi
      unfold Run at hi'
      cases hph : s.phase <;> simp only [hph] at hi'
      · rw [hi'.2.1] at hp; cases hp
      · rcases hi' with hi' | hi'
        · rw [hi'.2.1] at hp; cases hp
        · exact Run.top (h0.1.trans hph) (h0.2.1.trans hi')
      · rw [hi'.1.2.1] at hp; cases hp
      · rw [hi'.2.1] at hp; cases hp
      · rw [hi'.2.1] at hp; cases hp
      · rcases hi'.1 with h1 | ⟨h1, h2⟩
        · rw [h1.2.1] at hp; cases hp
        · refine Run.wait (h0.1.trans hph) (h0.2.2.1.trans hi'.2) (.inr ⟨h0.2.2.2.trans h1, ?_⟩)
          cases h2 with
          | queued l a b q1 q2 q3 q4 => rw [q4] at hp; cases hp
          | woken a b q1 q2 q3 q4 => rw [q4] at hp; cases hp
          | stuck l q1 q2 => rw [q2] at hp; cases hp
          | pending m l x y q1 q2 q3 q4 q5 q6 q7 =>
            rw [q2] at hp; simp at hp; subst hp
            unfold futDone
            rw [if_neg hn, q2]
            refine .woken s.queue [] (by simp [emit]) q1 (fun _ h => by cases h) (by simp [emit]) ⟨?_, ?_⟩
            · simp only [emit]; rw [dull_fed (e := .futDone n) trivial, dull_typed (e := .futDone n) trivial]; exact q6
            · intro l' o' hm
              have hm := dull_mem (e := .futDone n) trivial hm
              rw [q3] at hm
              rcases List.mem_append.mp hm with hm | hm
              · exact complete_more (q4 l' o' hm)
              · rcases List.mem_cons.mp hm with hm | hm
                · simp at hm; rw [hm.2]; simp [Complete, emit]
                · have := mem_fed hm; rw [q5] at this; cases this
      · exact Run.ended (h0.1.trans hph)
    · rw [futDone_nil hn hp]
      refine hi.dull (e := .futDone n) trivial rfl rfl rfl ?_ rfl rfl (fun h => h) rfl
      intro m hm hm' hx
      rcases List.mem_append.mp hx with hx | hx
      · exact hm' hx
      · simp at hx; subst hx; rw [hm] at hp; simp at hp

/-- One step, with the event loop not stopping. -/
theorem Run.step {s : St} (hi : Run s) (hl : Logged s) (hp : Prompts s.out) (e : Ev) (he : e ≠ .stop) : Run (step s e) ∧ Logged (step s e) ∧ Prompts (step s e).out := by
  cases e with
  | thread =>
    simp only [Stdio.step, thread]
    have hi' := hi
    unfold Run at hi'
    cases hph : s.phase <;> simp only [hph] at hi' ⊢
    · refine ⟨?_, hl, hp⟩
      unfold Run
      refine .inl ⟨?_, hi'.2.1, rfl, ?_, ?_⟩
      · simp only [post, hi'.1]; exact Quiet.snoc (fun _ h => by cases h) (.inl rfl)
      · have : fed s.out = [] := by
          have h := hi'.2.2.2
          generalize s.out = out at h
          induction out with
          | nil => rfl
          | cons e out ih =>
            have := ih (fun l o hm => h l o (by simp [hm]))
            cases e with
            | fed l o => exact absurd (by simp) (h l o)
            | _ => simpa [fed] using this
        simp only [post]; rw [this, hi'.2.2.1]
      · intro l o hm; exact absurd hm (hi'.2.2.2 l o)
    · by_cases hq : shouldQuit s = true
      · rw [if_pos hq]; exact ⟨Run.ended rfl, hl, hp⟩
      · rw [if_neg hq]
        simp only [shouldQuit, Bool.or_eq_true, Bool.not_eq_true', not_or, Bool.not_eq_true, Bool.not_eq_false] at hq
        rcases hi' with hi' | hi'
        · refine ⟨?_, fun n hn => List.mem_append_left _ (hl n hn), hp.snoc (fun _ => hi'.2.2.2)⟩
          unfold Run
          exact ⟨hi'.dull (e := .prompt) trivial hi'.1 rfl rfl rfl, hq.1⟩
        · rw [hi'] at hq; cases hq.2
    · exact ⟨hi, hl, hp⟩
    · refine ⟨?_, hl, hp⟩
      unfold Run
      exact ⟨hi'.1, hi'.2.1, rfl, hi'.2.2⟩
    · refine ⟨Run.wait rfl hi'.2.2.2.2.2 (.inr ⟨hi'.2.2.1, ?_⟩), hl, hp⟩
      exact .queued _ s.queue [] rfl hi'.1 (fun _ h => by cases h) hi'.2.1 hi'.2.2.2.1 hi'.2.2.2.2.1
    · by_cases hq : (s.getLine || shouldQuit s) = true
      · rw [if_pos hq]
        refine ⟨?_, hl, hp⟩
        unfold Run
        simp only [shouldQuit, hi'.2, Bool.not_true, Bool.false_or, Bool.or_eq_true] at hq
        rcases hq with hq | hq
        · rcases hi'.1 with h | h
          · exact .inl h
          · rw [hq] at h; cases h.1
        · exact .inr hq
      · rw [if_neg hq]; exact ⟨hi, hl, hp⟩
    · exact ⟨hi, hl, hp⟩
  | type l =>
    simp only [Stdio.step, typeLine]
    have hi' := hi
    unfold Run at hi'
    cases hph : s.phase <;> simp only [hph] at hi' ⊢ <;> try exact ⟨hi, hl, hp⟩
    refine ⟨?_, fun n hn => List.mem_append_left _ (hl n hn), hp.snoc (fun h => by cases h)⟩
    unfold Run
    obtain ⟨⟨a, b, c, d⟩, f⟩ := hi'
    refine ⟨a, b, ?_, ?_, f⟩
    · intro l' o' hm
      rcases List.mem_append.mp hm with hm | hm
      · exact complete_more (d.2 l' o' hm)
      · simp at hm
    · simp [emit, typed_append, fed_append, typed, fed, d.1]
  | eof =>
    simp only [Stdio.step, eof]
    cases hph : s.phase <;> simp only <;> first | exact ⟨hi, hl, hp⟩ | exact ⟨Run.ended rfl, hl, hp⟩
  | loop o =>
    simp only [Stdio.step, loopStep]
    by_cases hr : s.running = true
    · rw [if_pos hr]
      cases hq : s.queue with
      | nil => exact ⟨hi, hl, hp⟩
      | cons j q =>
        cases j with
        | conn => exact ⟨(hi.drop hq (.inl rfl)).dull (e := .conn) trivial rfl rfl rfl (fun _ _ h => h) rfl rfl (fun h => h) rfl, fun n hn => List.mem_append_left _ (hl n hn), hp.snoc (fun h => by cases h)⟩
        | lost => exact ⟨(hi.drop hq (.inr rfl)).dull (e := .lost) trivial rfl rfl rfl (fun _ _ h => h) rfl rfl (fun h => h) rfl, fun n hn => List.mem_append_left _ (hl n hn), hp.snoc (fun h => by cases h)⟩
        | next => exact ⟨hi.next hq, hl, hp⟩
        | line l =>
          refine ⟨hi.line hl hq o, ?_, ?_⟩
          · intro n hn
            have h1 := (processed_frame (emit { s with queue := q } (.fed l o)) o).2.2.2
            simp only [runJob] at hn ⊢
            rw [h1.2] at hn; rw [h1.1]; exact List.mem_append_left _ (hl n hn)
          · have : (runJob { s with queue := q } o (.line l)).out = s.out ++ [.fed l o] := (processed_frame _ o).2.2.2.1
            simp only; rw [this]; exact hp.snoc (fun h => by cases h)
    · rw [if_neg hr]; exact ⟨hi, hl, hp⟩
  | done n =>
    refine ⟨hi.done n, ?_, ?_⟩
    · simp only [Stdio.step, futDone]
      split
      · exact hl
      · intro m hm
        rcases List.mem_append.mp hm with hm | hm
        · exact List.mem_append_left _ (hl m hm)
        · simp at hm; subst hm; exact List.mem_append_right _ (by simp)
    · simp only [Stdio.step, futDone]
      split
      · exact hp
      · exact hp.snoc (fun h => by cases h)
  | close => exact ⟨hi.dull (e := .closed) trivial rfl rfl rfl (fun _ _ h => h) rfl rfl (fun _ => rfl) rfl, fun n hn => List.mem_append_left _ (hl n hn), hp.snoc (fun h => by cases h)⟩
  | start =>
    refine ⟨?_, hl, hp⟩
    have hi' := hi
    unfold Run at hi' ⊢
    simp only [Stdio.step]
    cases hph : s.phase <;> simp only [hph] at hi' ⊢
    · exact hi'
    · exact hi'
    · exact ⟨hi'.1, trivial⟩
    · exact ⟨hi'.1, hi'.2.1, hi'.2.2.1, hi'.2.2.2.1, trivial⟩
    · exact ⟨hi'.1, hi'.2.1, hi'.2.2.1, hi'.2.2.2.1, hi'.2.2.2.2.1, trivial⟩
    · exact ⟨hi'.1.imp (fun h => h) (fun h => ⟨h.1, h.2.congr rfl rfl rfl rfl⟩), trivial⟩
  | stop => exact absurd rfl he

theorem Run.init (b : Bool) : Run (.init b) := ⟨rfl, rfl, rfl, fun _ _ h => by cases h⟩

theorem Run.exec {s : St} (hi : Run s) (hl : Logged s) (hp : Prompts s.out) (h : List Ev) (hh : .stop ∉ h) : Run (exec s h) ∧ Logged (exec s h) ∧ Prompts (exec s h).out := by
  induction h generalizing s with
  | nil => exact ⟨hi, hl, hp⟩
  | cons e h ih =>
    obtain ⟨a, b, c⟩ := hi.step hl hp e (fun x => hh (by simp [x]))
    exact ih a b c (fun x => hh (by simp [x]))

end Verif.Stdio
