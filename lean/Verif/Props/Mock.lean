import Verif.Lemmas.MockStream
/-! # C78: transports and a loop for tests -/
namespace Verif.Mock

/-- A loop to which nothing was given yet, and any transports. -/
def Fresh {σ} (s : St σ) : Prop := s.sched = [] ∧ s.log = []

/-- C78. The loop runs functions in the order of their times, and in the order in which they were given for the same time; none before its time, none
twice and none that was not given to it. This holds for all tests, whatever the functions, the protocols and the transports do meanwhile. -/
theorem C78_loop {σ} (c : Cfg σ) (s : St σ) (hs : Fresh s) (h : List Act) :
    Ordered (exec c s h).1.log ∧ ((ranOf (exec c s h).1.log).map (·.1)).Nodup ∧ ∀ n now, (n, now) ∈ ranOf (exec c s h).1.log → ∃ due, (n, due) ∈ calledOf (exec c s h).1.log :=
  have hL := L_exec c h s (L_init hs.1 hs.2)
  ⟨hL.ordered, hL.ranOnce, hL.ranCalled⟩

/-- C78. When time was advanced and that ended without an exception, everything that was given to the loop for a time up to now has been run. -/
theorem C78_loop_complete {σ} (c : Cfg σ) (s : St σ) (hs : Fresh s) (h : List Act) (a : Act) (ha : (∃ dt n, a = .advance dt n) ∨ ∃ n, a = .runOnce n)
    (hd : (exec c s (h ++ [a])).2.getLast? = some .done) (n : Nat) (due : Int) (hw : Waiting (exec c s (h ++ [a])).1.log n due) : (exec c s (h ++ [a])).1.clock < due := by
  have hL := L_exec c h s (L_init hs.1 hs.2)
  have hL' := L_exec c (h ++ [a]) s (L_init hs.1 hs.2)
  obtain ⟨k, hk⟩ := (hL'.wait n due).mp hw
  rw [exec_snoc] at hd hk ⊢
  dsimp only at hd hk ⊢
  rw [List.getLast?_append, List.getLast?_singleton, Option.some_or, Option.some.injEq] at hd
  rcases ha with ⟨dt, m, rfl⟩ | ⟨m, rfl⟩
  · exact runOnce_done c m _ hd (hL.congr rfl rfl rfl) _ hk
  · exact runOnce_done c m _ hd hL _ hk

theorem delivered_data : ∀ {ws rs : List (Bytes × Int)}, Delivered ws rs → rs.map (·.1) = ws.map (·.1)
  | [], [], _ => rfl
  | (_, _) :: _, (_, _) :: _, h => by rw [List.map_cons, List.map_cons, delivered_data h.2.2, h.1]
  | [], _ :: _, h => h.elim
  | (_, _) :: _, [], h => h.elim

/-- C78. A pair without delays, with the test loop as it is: after every test, each protocol has received exactly what was written on the other transport
while that was open, in the same order; the protocols may do what they like while they receive. (The test was not too deep for Python.) -/
theorem C78_data {σ} (c : Cfg σ) (app : σ) (h : List Act) (hp : ∀ a ∈ h, a.steady = true)
    (ho : ∀ o ∈ (exec c (St.pair app fun _ => true) h).2, o ≠ .raised .recursion) (i : Bool) :
    (received (exec c (St.pair app fun _ => true) h).1.log (!i)).map (·.1) = (writes (exec c (St.pair app fun _ => true) h).1.log i).map (·.1) := by
  have hK := K_exec c h (St.pair app fun _ => true) ⟨⟨fun i => ⟨rfl, rfl⟩, fun e he => nomatch he⟩, fun j hj => nomatch hj⟩ fun a ha => by
    have := hp a ha
    cases a <;> first | rfl | cases this
  obtain ⟨hB, hb⟩ := good_exec c (fun _ _ => rfl) h _ (B_pair app fun _ => true).1 (B_pair app fun _ => true).2 (fun a ha => .inr ⟨fun _ => rfl, hp a ha⟩) fun o hm => by
    have h1 := hK.2 o hm
    have h2 := ho o hm
    cases o with
    | raised e =>
      rcases h1 e rfl with rfl | ⟨k, rfl⟩
      · exact absurd rfl h2
      · rfl
    | _ => rfl
  obtain ⟨ws, e1, e2⟩ := hb i
  have hpend : pend (exec c (St.pair app fun _ => true) h).1.sched i = [] := pend_none fun e hm => Decidable.byContradiction fun hn => hB.slow i e hm hn rfl
  rw [hpend] at e1
  have e1 : dues (exec c (St.pair app fun _ => true) h).1.log i 0 = ws := by rw [e1]; simp [nothing]
  rw [delivered_data e2, ← e1]
  unfold dues
  rw [List.map_map]
  rfl

/-- C78. Such a pair raises no exceptions of its own: what an action ends with is an exception raised by the test's code, or the recursion is too deep. -/
theorem C78_no_exceptions {σ} (c : Cfg σ) (app : σ) (h : List Act) (hp : ∀ a ∈ h, a.direct = true) (e : Err)
    (he : .raised e ∈ (exec c (St.pair app fun _ => true) h).2) : e = .recursion ∨ ∃ k, e = .own k :=
  (K_exec c h (St.pair app fun _ => true) ⟨⟨fun i => ⟨rfl, rfl⟩, fun e he => nomatch he⟩, fun j hj => nomatch hj⟩ hp).2 _ he e rfl

/-- C78. Closing such a pair, at either end and from wherever, in a test without exceptions: both transports are closed, the protocol at the other end is told that the connection is
lost, then the own one; each once. Nothing is written or received from then on. -/
theorem C78_closed_partial {σ} (c : Cfg σ) (app : σ) (h : List Act) (hp : ∀ a ∈ h, a.steady = true) (ho : ∀ o ∈ (exec c (St.pair app fun _ => true) h).2, o.ok = true) :
    (∀ e ∈ (exec c (St.pair app fun _ => true) h).1.log, ∀ i, e ≠ .closing i ∧ e ≠ .lost i) ∨
    ∃ l1 i l2, (exec c (St.pair app fun _ => true) h).1.log = l1 ++ .closing i :: l2 ∧ (∀ e ∈ l1, ∀ j, e ≠ .closing j ∧ e ≠ .lost j) ∧
      l2.filter (fun e => !e.isLoop) = [.closing (!i), .lost (!i), .lost i] := by
  have hO : Open (St.pair app fun _ => true) := ⟨⟨fun i => ⟨rfl, rfl⟩, fun e he => nomatch he⟩, fun i => rfl, fun i => rfl, fun e he => nomatch he⟩
  rcases (fine_exec c h (St.pair app fun _ => true) (.inl hO) hp fun o hm hx => by have := ho o hm; rw [hx] at this; cases this).2 (.inl hO) ho with h1 | h1
  · exact .inl h1.log
  · obtain ⟨l1, i, l2, l3, l4, e1, e2, e3, e4, e5⟩ := h1.log
    refine .inr ⟨l1, i, .closing (!i) :: .lost (!i) :: (l2 ++ .lost i :: l3) ++ l4, by rw [e1]; simp, e2, ?_⟩
    have hf : ∀ l : List Ev, (∀ e ∈ l, e.isLoop = true) → l.filter (fun e => !e.isLoop) = [] := fun l hl => List.filter_eq_nil_iff.mpr fun e he => by rw [hl e he]; decide
    rw [List.filter_append, hf l4 e5, List.append_nil, List.filter_cons_of_pos rfl, List.filter_cons_of_pos rfl, List.filter_append, hf l2 e3, List.nil_append,
      List.filter_cons_of_pos rfl, hf l3 e4]

/-- C78. Even if the protocols raise exceptions, none is told twice, and nothing is written or received after the first close. -/
theorem C78_closed_once {σ} (c : Cfg σ) (app : σ) (h : List Act) (hp : ∀ a ∈ h, a.steady = true) (ho : ∀ o ∈ (exec c (St.pair app fun _ => true) h).2, o ≠ .raised .recursion)
    (l1 l2 : List Ev) (i : Bool) (hl : (exec c (St.pair app fun _ => true) h).1.log = l1 ++ .closing i :: l2) :
    (∀ e ∈ l2, e.isData = false) ∧ ∀ j, losses (exec c (St.pair app fun _ => true) h).1.log j ≤ 1 := by
  have hO : Open (St.pair app fun _ => true) := ⟨⟨fun i => ⟨rfl, rfl⟩, fun e he => nomatch he⟩, fun i => rfl, fun i => rfl, fun e he => nomatch he⟩
  rcases (fine_exec c h (St.pair app fun _ => true) (.inl hO) hp ho).1 with h1 | h1
  · exact absurd rfl (h1.log (.closing i) (by rw [hl]; simp) i).1
  · obtain ⟨m1, j, m2, e1, e2, e3, e4⟩ := h1.log
    constructor
    · intro e he
      have hm : e ∈ m2 := by
        -- the first close is the one in `m1`
        have h2 : m1 ++ .closing j :: m2 = l1 ++ .closing i :: l2 := by rw [← e1, hl]
        clear hl e1 e3 e4 hO h1 hp ho
        induction m1 generalizing l1 with
        | nil =>
          cases l1 with
          | nil => cases h2; exact he
          | cons x l1 =>
            cases h2
            exact List.mem_append_right _ (List.mem_cons_of_mem _ he)
        | cons x m1 ih =>
          cases l1 with
          | nil => cases h2; exact absurd rfl (e2 _ (List.mem_cons_self ..) i).1
          | cons y l1 =>
            exact ih l1 (fun e he => e2 e (List.mem_cons_of_mem _ he)) (List.cons.inj h2).2
      exact e3 e hm
    · intro k
      rw [e1, losses_append, losses_cons, if_neg (fun hh => nomatch hh), Nat.add_zero]
      have : losses m1 k = 0 := List.count_eq_zero.mpr fun hm => (e2 _ hm k).2 rfl
      have := e4 k
      omega

/-- C78. `writeCount` is the number of writes while the transport was open, whatever the transports are connected to. -/
theorem C78_count {σ} (c : Cfg σ) (s : St σ) (hs : Fresh s) (h0 : ∀ i, (s.t i).count = 0) (h : List Act) (i : Bool) :
    ((exec c s h).1.t i).count = (writes (exec c s h).1.log i).length :=
  counted_exec c h s (fun j => by rw [h0 j, hs.2]; rfl) i

/-- C78. A transport to a stream without delay: the stream has what was written while the transport was open, in order. There are no exceptions but the test's own. -/
theorem C78_stream {σ} (c : Cfg σ) (app : σ) (proto : Bool → Bool) (h : List Act) (hp : ∀ a ∈ h, a.direct = true)
    (ho : ∀ o ∈ (exec c (St.streams app proto) h).2, o ≠ .raised .recursion) (i : Bool) :
    storedData (exec c (St.streams app proto) h).1.log i = (writes (exec c (St.streams app proto) h).1.log i).map (·.1) ∧
    ∀ e, .raised e ∈ (exec c (St.streams app proto) h).2 → ∃ k, e = .own k := by
  obtain ⟨h1, h2⟩ := stream_exec c h (St.streams app proto) ⟨fun i => ⟨rfl, rfl⟩, fun e he => nomatch he⟩ (fun i => rfl) hp ho
  refine ⟨by have := h1 i; rw [List.append_nil] at this; exact this.symm, fun e he => ?_⟩
  rcases h2 _ he e rfl with rfl | hk
  · exact absurd rfl (ho _ he)
  · exact hk

/-- C78. Delays, with a loop whose `call_later` takes arguments as asyncio's does (or no delay at all): the other protocol receives what was written in order, none of it earlier than the delay
after it was written; the rest is still waiting in the loop, and when the loop has nothing more to do, it is not yet due. This holds as long as no write
failed because the remote protocol was gone, and the clock goes forward. -/
theorem C78_delayed_partial {σ} (c : Cfg σ) (app : σ) (delay : Bool → Int) (hsp : c.splat = true → ∀ i, delay i = 0) (h : List Act) (hp : ∀ a ∈ h, a.plain = true)
    (ho : ∀ o ∈ (exec c (delayed app delay) h).2, o ≠ .raised .recursion ∧ o ≠ .raised .remoteClosed) (i : Bool) :
    ∃ come rest, dues (exec c (delayed app delay) h).1.log i (delay i) = come ++ rest ∧ Delivered come (received (exec c (delayed app delay) h).1.log (!i)) ∧
      (∀ p ∈ rest, ∃ n, Waiting (exec c (delayed app delay) h).1.log n p.2) ∧ (delay i = 0 → rest = []) := by
  obtain ⟨hB, hb⟩ := good_exec c hsp h _ (B_delayed app delay).1 (B_delayed app delay).2 (fun a ha => .inl (hp a ha)) fun o hm => by
    obtain ⟨h1, h2⟩ := ho o hm
    cases o with
    | raised e => cases e <;> first | rfl | exact absurd rfl h1 | exact absurd rfl h2
    | _ => rfl
  obtain ⟨ws, e1, e2⟩ := hb i
  refine ⟨ws, pend (exec c (delayed app delay) h).1.sched i, by rw [e1]; simp [nothing], e2, fun p hm => ?_, fun hz => ?_⟩
  · obtain ⟨e, he, hw⟩ := List.mem_filterMap.mp hm
    refine ⟨e.num, (hB.loop.wait _ _).mpr ⟨e.task, ?_⟩⟩
    have : p.2 = e.due := by
      unfold taskWrite at hw
      split at hw
      · split at hw
        · cases hw; rfl
        · cases hw
      · cases hw
    rw [this]
    exact he
  · exact pend_none fun e hm => Decidable.byContradiction fun hn => hB.slow i e hm hn hz

/-! ## Examples -/

/-- The protocol at the end `true` sends what it receives back, in a later turn, and closes when it receives a zero; the other one closes when it receives a one. -/
def exCfg (splat : Bool) : Cfg Bytes := ⟨splat, 40, fun i inp _ => match i, inp with
  | true, .data [0] => [fun a => (a, some (.close true)), fun a => (a, some (.write true [9]))]
  | true, .data d => [fun _ => (d, some (.later 2 0)), fun a => (a, some (.write true (d ++ d)))]
  | false, .data [1] => [fun a => (a, some (.close false))]
  | _, _ => [],
  fun k _ => match k with
  | 0 => [fun a => (a, some (.write true a))]
  | 1 => [fun a => (a, some (.later 0 2))]
  | 7 => [fun a => (a, some (.raise 7))]
  | _ => []⟩

def exTest : List Act := [.cmd (.write false [5]), .advance 1 10, .cmd (.later 0 1), .advance 1 10, .cmd (.write false [0]), .cmd (.write false [6]), .advance 9 10]

def exEnd : St Bytes × List Out := exec (exCfg true) (St.pair [] fun _ => true) exTest

example : exEnd.2 = [.done, .done, .done, .done, .done, .done, .done] := by decide +kernel
example : received exEnd.1.log true = [([5], 0), ([0], 2)] ∧ received exEnd.1.log false = [([5, 5], 0), ([5], 2)] := by decide +kernel
example : exEnd.1.log = [.wrote false [5] 0, .got true [5] 0, .called 0 2, .wrote true [5, 5] 0, .got false [5, 5] 0, .called 1 1, .ran 1 2, .called 2 2, .ran 0 2, .wrote true [5] 2, .got false [5] 2, .ran 2 2,
    .wrote false [0] 2, .got true [0] 2, .closing true, .closing false, .lost false, .lost true] := by decide +kernel

example (i : Bool) : (received exEnd.1.log (!i)).map (·.1) = (writes exEnd.1.log i).map (·.1) :=
  C78_data (exCfg true) [] exTest (by decide) (by decide +kernel) i

example : ∃ l1 i l2, exEnd.1.log = l1 ++ .closing i :: l2 ∧ (∀ e ∈ l1, ∀ j, e ≠ .closing j ∧ e ≠ .lost j) ∧ l2.filter (fun e => !e.isLoop) = [.closing (!i), .lost (!i), .lost i] :=
  (C78_closed_partial (exCfg true) [] exTest (by decide) (by decide +kernel)).resolve_left fun h => (h (.lost true) (by decide +kernel) true).2 rfl

example : Ordered exEnd.1.log := (C78_loop (exCfg true) (St.pair [] fun _ => true) ⟨rfl, rfl⟩ exTest).1
example (n : Nat) (due : Int) (hw : Waiting exEnd.1.log n due) : exEnd.1.clock < due :=
  C78_loop_complete (exCfg true) (St.pair [] fun _ => true) ⟨rfl, rfl⟩ [.cmd (.write false [5]), .advance 1 10, .cmd (.later 0 1), .advance 1 10, .cmd (.write false [0]), .cmd (.write false [6])]
    (.advance 9 10) (.inl ⟨_, _, rfl⟩) (by decide +kernel) n due hw
example : ((exEnd.1.t false).count, (exEnd.1.t true).count) = (2, 2) := by decide +kernel

/-- A function that waits for its time. -/
example : Waiting (exec (exCfg true) (St.pair [] fun _ => true) [.cmd (.later 5 1), .cmd (.later 3 0), .advance 4 10]).1.log 0 5 := by
  constructor <;> decide +kernel

/-- Streams. -/
def exStream : List Act := [.cmd (.write true [1]), .cmd (.write false [2]), .cmd (.write true [3, 4]), .cmd (.close true), .cmd (.write true [5])]

example : storedData (exec (exCfg true) (St.streams [] fun _ => true) exStream).1.log true = [[1], [3, 4]] ∧
    (exec (exCfg true) (St.streams [] fun _ => true) exStream).1.log.count (.lost true) = 1 := by decide +kernel
example (i : Bool) : storedData (exec (exCfg true) (St.streams [] fun _ => true) exStream).1.log i = (writes (exec (exCfg true) (St.streams [] fun _ => true) exStream).1.log i).map (·.1) :=
  (C78_stream (exCfg true) [] (fun _ => true) exStream (by decide) (by decide +kernel) i).1

/-- Delays of 3 from `false` to `true` and of 1 back, with the other loop. -/
def exDelay : List Act := [.cmd (.write false [5]), .advance 1 10, .cmd (.write false [6, 6]), .advance 2 10, .cmd (.write false [7]), .advance 1 10]

def exDelayEnd : St Bytes × List Out := exec (exCfg false) (delayed [] fun i => if i then 1 else 3) exDelay

example : received exDelayEnd.1.log true = [([5], 3), ([6, 6], 4)] ∧ received exDelayEnd.1.log false = [([5, 5], 4)] ∧ dues exDelayEnd.1.log false 3 = [([5], 3), ([6, 6], 4), ([7], 6)] := by decide +kernel
example : ∃ come rest, dues exDelayEnd.1.log false 3 = come ++ rest ∧ Delivered come (received exDelayEnd.1.log true) :=
  have ⟨come, rest, h1, h2, _⟩ := C78_delayed_partial (exCfg false) [] (fun i => if i then 1 else 3) (fun h => nomatch h) exDelay (by decide) (by decide +kernel) false
  ⟨come, rest, h1, h2⟩

/-! ## What is false -/

/-- With the test loop as it is, delayed data never arrives: the loop calls `_write` with the bytes as its arguments. One byte arrives as an integer. -/
theorem C78_false_delay : (exec (exCfg true) (St.pair [] fun _ => true) [.setDelay false true 1, .cmd (.write false [5, 6]), .advance 1 10, .cmd (.write false [7]), .advance 1 10]).2 =
      [.done, .done, .raised .typeError, .done, .done] ∧
    (exec (exCfg true) (St.pair [] fun _ => true) [.setDelay false true 1, .cmd (.write false [5, 6]), .advance 1 10, .cmd (.write false [7]), .advance 1 10]).1.log =
      [.wrote false [5, 6] 0, .called 0 1, .ran 0 1, .wrote false [7] 1, .called 1 2, .ran 1 2, .gotInt true 7] := by decide +kernel

/-- Data that is under way when the other end closes is lost, and the loop gets an exception; even with asyncio's `call_later`. -/
theorem C78_false_pending : (exec (exCfg false) (delayed [] fun i => if i then 1 else 3) [.cmd (.write false [5]), .cmd (.close true), .advance 3 10]).2 = [.done, .done, .raised .remoteClosed] ∧
    received (exec (exCfg false) (delayed [] fun i => if i then 1 else 3) [.cmd (.write false [5]), .cmd (.close true), .advance 3 10]).1.log true = [] := by decide +kernel

/-- The protocol of the end `true` raises an exception when it is told that the connection is lost. -/
def failing : Cfg Unit := ⟨true, 40, fun i inp _ => match i, inp with
  | true, .lost => [fun a => (a, some (.raise 1))]
  | _, _ => [], fun _ _ => []⟩

/-- Then the other protocol is never told. -/
theorem C78_false_told : (exec failing (St.pair () fun _ => true) [.cmd (.close false), .cmd (.close false), .cmd (.close true)]).2 = [.raised (.own 1), .done, .done] ∧
    (exec failing (St.pair () fun _ => true) [.cmd (.close false), .cmd (.close false), .cmd (.close true)]).1.log = [.closing false, .closing true, .lost true] := by decide +kernel

/-- Two protocols that answer everything. -/
def talk : Cfg Unit := ⟨true, 40, fun i inp _ => match inp with
  | .data d => [fun a => (a, some (.write i d))]
  | _ => [], fun _ _ => []⟩

/-- A conversation that does not end breaks off with a RecursionError; a write is lost in it. -/
theorem C78_false_talk : (exec talk (St.pair () fun _ => true) [.cmd (.write false [1])]).2 = [.raised .recursion] ∧
    (writes (exec talk (St.pair () fun _ => true) [.cmd (.write false [1])]).1.log true).length = (received (exec talk (St.pair () fun _ => true) [.cmd (.write false [1])]).1.log false).length + 1 ∧
    (writes (exec talk (St.pair () fun _ => true) [.cmd (.write false [1])]).1.log false).length = (received (exec talk (St.pair () fun _ => true) [.cmd (.write false [1])]).1.log true).length := by decide +kernel

/-- When a function raises an exception, the others that are due are not run in this call, only in the next. -/
theorem C78_false_exception : (exec (exCfg true) (St.pair [] fun _ => true) [.cmd (.later 1 7), .cmd (.later 1 1), .advance 2 10]).2 = [.done, .done, .raised (.own 7)] ∧
    ranOf (exec (exCfg true) (St.pair [] fun _ => true) [.cmd (.later 1 7), .cmd (.later 1 1), .advance 2 10]).1.log = [(0, 2)] ∧
    ranOf (exec (exCfg true) (St.pair [] fun _ => true) [.cmd (.later 1 7), .cmd (.later 1 1), .advance 2 10, .advance 0 10]).1.log = [(0, 2), (1, 2), (2, 2)] := by decide +kernel

end Verif.Mock
