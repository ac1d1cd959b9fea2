import Verif.Spec.Deferred
import Mathlib.Data.List.Induction
/-! # C95: Deferred -/
namespace Verif.Deferred

theorem exec_append (s : St) (a b : List Ev) : exec s (a ++ b) = exec (exec s a) b := by
  induction a generalizing s with
  | nil => rfl
  | cons e a ih => exact ih (step s e)

theorem calls_append : ∀ a b : List Eff, calls (a ++ b) = calls a ++ calls b
  | [], _ => rfl
  | e :: a, b => by cases e <;> simp [calls, calls_append a b]

theorem refused_append : ∀ a b : List Eff, refused (a ++ b) = refused a + refused b
  | [], _ => by simp [refused]
  | e :: a, b => by cases e <;> simp [refused, refused_append a b]; omega

theorem added_append (k : Kind) : ∀ a b : List Ev, added k (a ++ b) = added k a ++ added k b
  | [], _ => rfl
  | e :: a, b => by
    have := added_append k a b
    cases e with
    | add k' f =>
      simp only [List.cons_append, added, this]
      split <;> rfl
    | _ => exact this

theorem decision_append : ∀ a b : List Ev, decision (a ++ b) = match decision a with | .pending => decision b | x => x
  | [], _ => rfl
  | e :: a, b => by
    have := decision_append a b
    cases e <;> first | rfl | exact this

/-- What a list of scheduled functions will do. -/
def fires (x : Fut) (l : List (Kind × Nat)) : List (Nat × Val) := calls (l.flatMap (fire x))

theorem fires_append (x : Fut) (a b : List (Kind × Nat)) : fires x (a ++ b) = fires x a ++ fires x b := by
  rw [fires, List.flatMap_append, calls_append]; rfl

/-- All functions added, in order. -/
def all : List Ev → List (Kind × Nat)
  | [] => []
  | .add k f :: h => (k, f) :: all h
  | _ :: h => all h

theorem all_append : ∀ a b : List Ev, all (a ++ b) = all a ++ all b
  | [], _ => rfl
  | e :: a, b => by
    have := all_append a b
    cases e <;> simp [all, this]

theorem fires_all (x : Fut) (hx : Truthy x) : ∀ h : List Ev, fires x (all h) = match x with
    | .result v => (added .callback h).map fun f => (f, v)
    | .exception v => (added .errback h).map fun f => (f, v)
    | _ => []
  | [] => by cases x <;> rfl
  | e :: h => by
    have ih := fires_all x hx h
    cases e with
    | add k f =>
      have hs : fires x (all (.add k f :: h)) = calls (fire x (k, f)) ++ fires x (all h) := by
        rw [all, fires, List.flatMap_cons, calls_append]; rfl
      rw [hs, ih]
      cases x with
      | result v =>
        have hx : v.truthy = true := hx
        cases k <;> simp [fire, calls, added, hx]
      | exception v =>
        have hx : v.truthy = true := hx
        cases k <;> simp [fire, calls, added, hx]
      | _ => cases k <;> rfl
    | _ => exact ih

theorem calls_fire (x : Fut) (c : Kind × Nat) (l : List (Kind × Nat)) : fires x (c :: l) = calls (fire x c) ++ fires x l := by
  rw [fires, List.flatMap_cons, calls_append]; rfl

/-- An event after the decision. -/
theorem step_done {s : St} (hf : s.fut ≠ .pending) (e : Ev) : (step s e).fut = s.fut ∧
    calls (step s e).out ++ fires s.fut (step s e).ready = calls s.out ++ fires s.fut (s.ready ++ all [e]) ∧ refused (step s e).out = refused s.out + settles [e] := by
  have hc : ∀ {α : Type} (a b : α), (match s.fut with | .pending => a | _ => b) = b := by
    intro α a b
    cases h : s.fut with
    | pending => exact absurd h hf
    | _ => rfl
  cases e with
  | add k f =>
    have : step s (.add k f) = { s with ready := s.ready ++ [(k, f)] } := hc _ _
    rw [this]; exact ⟨rfl, rfl, rfl⟩
  | callback v =>
    have : step s (.callback v) = { s with out := s.out ++ [.invalidState] } := hc _ _
    rw [this]; exact ⟨rfl, by simp [calls_append, calls, all], by simp [refused_append, refused, settles]⟩
  | errback v =>
    have : step s (.errback v) = { s with out := s.out ++ [.invalidState] } := hc _ _
    rw [this]; exact ⟨rfl, by simp [calls_append, calls, all], by simp [refused_append, refused, settles]⟩
  | cancel =>
    have : step s .cancel = s := hc _ _
    rw [this]; exact ⟨rfl, by simp [all], rfl⟩
  | run =>
    simp only [step]
    split
    · exact ⟨rfl, by simp [all], rfl⟩
    · next c l hr =>
      refine ⟨rfl, ?_, ?_⟩
      · show calls (s.out ++ fire s.fut c) ++ fires s.fut l = _
        rw [hr, calls_append, List.append_assoc, ← calls_fire]
        simp [all]
      · have : refused (fire s.fut c) = 0 := by
          obtain ⟨k, f⟩ := c
          cases k <;> cases s.fut <;> simp only [fire] <;> first | rfl | (split <;> rfl)
        simp [refused_append, this, settles]

structure Main (h : List Ev) (s : St) : Prop where
  fut : s.fut = decision h
  pend : s.fut = .pending → s.waiting = all h ∧ s.ready = [] ∧ calls s.out = []
  todo : s.fut ≠ .pending → calls s.out ++ fires s.fut s.ready = fires s.fut (all h)
  raised : refused s.out + accepted s.fut = settles h

theorem settles_append : ∀ a b : List Ev, settles (a ++ b) = settles a + settles b
  | [], _ => by simp [settles]
  | e :: a, b => by
    have := settles_append a b
    cases e <;> simp [settles, this] <;> omega

theorem Main.step {h : List Ev} {s : St} (hi : Main h s) (e : Ev) : Main (h ++ [e]) (step s e) := by
  have hd := decision_append h [e]
  rw [← hi.fut] at hd
  by_cases hf : s.fut = .pending
  · obtain ⟨h1, h2, h3⟩ := hi.pend hf
    have hra := hi.raised
    rw [hf] at hd hra
    have hd : decision (h ++ [e]) = decision [e] := hd
    have hra : refused s.out = settles h := hra
    have settled : ∀ x : Fut, x ≠ .pending → decision [e] = x → all [e] = [] → settles [e] = accepted x → Main (h ++ [e]) (settle s x) := by
      intro x hx hdx ha hse
      refine ⟨(hd.trans hdx).symm, fun hp => absurd hp hx, fun _ => ?_, ?_⟩
      · show calls s.out ++ fires x (s.ready ++ s.waiting) = _
        rw [h3, h2, h1, all_append, ha, List.append_nil]; rfl
      · show refused s.out + accepted x = _
        rw [settles_append, hse, hra]
    have hc : ∀ {α : Type} (a b : α), (match s.fut with | .pending => a | _ => b) = a := by
      intro α a b; rw [hf]
    cases e with
    | add k f =>
      have : Deferred.step s (.add k f) = { s with waiting := s.waiting ++ [(k, f)] } := hc _ _
      rw [this]
      refine ⟨hf.trans hd.symm, fun _ => ⟨?_, h2, h3⟩, fun hn => absurd hf hn, ?_⟩
      · rw [all_append, ← h1]; rfl
      · show refused s.out + accepted s.fut = _
        rw [hf, settles_append, hra]; rfl
    | callback v =>
      have : Deferred.step s (.callback v) = settle s (.result v) := hc _ _
      rw [this]; exact settled _ Fut.noConfusion rfl rfl rfl
    | errback v =>
      have : Deferred.step s (.errback v) = settle s (.exception v) := hc _ _
      rw [this]; exact settled _ Fut.noConfusion rfl rfl rfl
    | cancel =>
      have : Deferred.step s .cancel = settle s .cancelled := hc _ _
      rw [this]; exact settled _ Fut.noConfusion rfl rfl rfl
    | run =>
      simp only [Deferred.step, h2]
      refine ⟨hf.trans hd.symm, fun _ => ⟨by rw [all_append, h1]; simp [all], h2, h3⟩, fun hn => absurd hf hn, ?_⟩
      rw [hf, settles_append, hra]; rfl
  · obtain ⟨e1, e2, e3⟩ := step_done hf e
    have hd' : decision (h ++ [e]) = s.fut := by
      rw [hd]
      cases hx : s.fut with
      | pending => exact absurd hx hf
      | _ => rfl
    refine ⟨e1.trans hd'.symm, fun hp => absurd (e1 ▸ hp) hf, fun _ => ?_, ?_⟩
    · rw [e1, e2, fires_append, ← List.append_assoc, hi.todo hf, ← fires_append, ← all_append]
    · rw [e1, e3, settles_append, ← hi.raised]; omega

theorem Main.reachable (h : List Ev) : Main h (exec .init h) := by
  induction h using List.reverseRecOn with
  | nil => exact ⟨rfl, fun _ => ⟨rfl, rfl, rfl⟩, fun hn => absurd rfl hn, rfl⟩
  | append_singleton h e ih => rw [exec_append]; exact ih.step e

/-- C95. Unless the decision is a false value: the functions are called as owed, in the order in which they were added, each at most once per `addCallback` or `addErrback`;
and when the loop has nothing left to run, every one has been called. -/
theorem C95_calls_partial (h : List Ev) (ht : Truthy (decision h)) :
    calls (exec .init h).out <+: owed h ∧ ((exec .init h).ready = [] → calls (exec .init h).out = owed h) := by
  have hi := Main.reachable h
  by_cases hf : (exec .init h).fut = .pending
  · obtain ⟨_, _, h3⟩ := hi.pend hf
    have : owed h = [] := by rw [owed, ← hi.fut, hf]
    rw [h3, this]
    exact ⟨List.prefix_refl _, fun _ => rfl⟩
  · have h1 := hi.todo hf
    rw [hi.fut] at h1
    have h2 : fires (decision h) (all h) = owed h := by
      unfold owed
      generalize decision h = x at ht
      cases x <;> exact fires_all _ ht h
    rw [h2] at h1
    refine ⟨⟨_, h1⟩, fun hr => ?_⟩
    rw [hr] at h1
    simpa [fires, calls] using h1

/-- C95. The first of `callback`, `errback` and a cancellation decides; every other `callback` and `errback` raises `InvalidStateError` and changes nothing else. -/
theorem C95_once (h : List Ev) : (exec .init h).fut = decision h ∧ refused (exec .init h).out + accepted (decision h) = settles h := by
  have hi := Main.reachable h
  exact ⟨hi.fut, by rw [← hi.fut]; exact hi.raised⟩

theorem no_fires (x : Fut) (hx : ¬ Truthy x) : ∀ l : List (Kind × Nat), fires x l = []
  | [] => rfl
  | (k, f) :: l => by
    rw [calls_fire, no_fires x hx l, List.append_nil]
    cases x with
    | result v =>
      have hx : v.truthy = false := by simpa [Truthy] using hx
      cases k <;> simp [fire, calls, hx]
    | exception v =>
      have hx : v.truthy = false := by simpa [Truthy] using hx
      cases k <;> simp [fire, calls, hx]
    | _ => cases k <;> rfl

/-- C95 is false for false values: with a result like 0, `None`, an empty string or an empty list no function is ever called. -/
theorem C95_falsy_never (h : List Ev) (ht : ¬ Truthy (decision h)) : calls (exec .init h).out = [] := by
  have hi := Main.reachable h
  have hf : (exec .init h).fut ≠ .pending := by
    intro hp
    rw [← hi.fut, hp] at ht
    exact ht trivial
  have h1 := hi.todo hf
  rw [hi.fut, no_fires _ ht, no_fires _ ht, List.append_nil] at h1
  exact h1

theorem C95_false_falsy : ∃ h, (exec .init h).ready = [] ∧ owed h = [(7, ⟨0, false⟩)] ∧ (exec .init h).out = [] :=
  ⟨[.add .callback 7, .callback ⟨0, false⟩, .run], rfl, rfl, rfl⟩

/-- A case: functions added before and after the result, two results. -/
def busy : List Ev := [.add .callback 1, .add .errback 2, .callback ⟨5, true⟩, .add .callback 3, .run, .callback ⟨6, true⟩, .run, .run]

example : Truthy (decision busy) ∧ (exec .init busy).ready = [] ∧ (exec .init busy).out = [.called 1 ⟨5, true⟩, .invalidState, .called 3 ⟨5, true⟩] ∧
    owed busy = [(1, ⟨5, true⟩), (3, ⟨5, true⟩)] ∧ settles busy = 2 := ⟨rfl, rfl, rfl, rfl, rfl⟩

example : (exec .init [.add .callback 1, .add .errback 2, .errback ⟨5, true⟩, .run, .run]).out = [.called 2 ⟨5, true⟩] := rfl

end Verif.Deferred
