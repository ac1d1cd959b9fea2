import Verif.Spec.Timer
/-! # C42: the timer -/
namespace Verif.Timer

/-- The timer runs, with the deadline `w`; the callback was not called yet. -/
structure Waiting (w : Nat) (s : St) : Prop where
  task : ∃ i, s.task = some i ∧ s.handles = [(i, w)]
  calls : s.calls = []

/-- The timer will not call again. -/
structure Done (cs : List Nat) (s : St) : Prop where
  handles : s.handles = []
  calls : s.calls = cs
  task : s.task ≠ none

/-- The timer has not been started. -/
structure Idle (s : St) : Prop where
  handles : s.handles = []
  calls : s.calls = []
  task : s.task = none

theorem Idle.init (now period : Nat) : Idle (.init now period) := ⟨rfl, rfl, rfl⟩

theorem Idle.start {s : St} (h : Idle s) : Waiting (s.now + s.delay) (start s) :=
  ⟨⟨s.next, rfl, by show s.handles ++ _ = _; rw [h.handles]; rfl⟩, h.calls⟩

theorem Idle.step {s : St} (h : Idle s) (e : Ev) (he : e ≠ .start) : Idle (step s e) := by
  cases e with
  | start => exact absurd rfl he
  | extend e => exact ⟨h.handles, h.calls, h.task⟩
  | cancel => show Idle (cancel s); unfold cancel; rw [h.task]; exact ⟨h.handles, h.calls, rfl⟩
  | expire => show Idle (expire s); unfold expire; rw [h.task]; exact ⟨h.handles, h.calls, rfl⟩
  | tick n => exact ⟨h.handles, h.calls, h.task⟩
  | run i => show Idle (runHandle s i); unfold runHandle; rw [h.handles]; exact h

theorem Waiting.cancelTask {w : Nat} {s : St} (h : Waiting w s) {i : Nat} (hi : s.task = some i) : (cancelTask s i).handles = [] := by
  obtain ⟨j, h1, h2⟩ := h.task
  rw [hi] at h1; cases h1
  show s.handles.filter _ = []
  rw [h2]; simp

theorem Waiting.cancel {w : Nat} {s : St} (h : Waiting w s) : Done [] (cancel s) := by
  obtain ⟨i, h1, h2⟩ := h.task
  unfold Timer.cancel
  rw [h1]
  exact ⟨h.cancelTask h1, h.calls, by show s.task ≠ none; rw [h1]; simp⟩

theorem Waiting.expire {w : Nat} {s : St} (h : Waiting w s) : Done [s.now] (expire s) := by
  obtain ⟨i, h1, h2⟩ := h.task
  unfold Timer.expire
  rw [h1]
  exact ⟨h.cancelTask h1, by show s.calls ++ _ = _; rw [h.calls]; rfl, by show s.task ≠ none; rw [h1]; simp⟩

/-- The loop runs the handle in time. -/
theorem Waiting.fire {w : Nat} {s : St} (h : Waiting w s) {i : Nat} (hi : s.task = some i) (hw : w ≤ s.now) :
    if s.delay = 0 then Done [s.now] (runHandle s i) ∧ (runHandle s i).delay = 0
    else Waiting (s.now + s.delay) (runHandle s i) ∧ (runHandle s i).delay = 0 := by
  have hc := h.cancelTask hi
  obtain ⟨j, h1, h2⟩ := h.task
  rw [hi] at h1; cases h1
  have hr : runHandle s i = fireCallback (Timer.cancelTask s i) := by
    unfold runHandle; rw [h2]; simp [hw]
  rw [hr]
  unfold fireCallback
  have hd : (Timer.cancelTask s i).delay = s.delay := rfl
  by_cases h0 : s.delay = 0
  · rw [if_pos h0, if_neg (by rw [hd]; simp [h0])]
    exact ⟨⟨hc, by show s.calls ++ [s.now] = _; rw [h.calls]; rfl, by show s.task ≠ none; rw [hi]; simp⟩, h0⟩
  · rw [if_neg h0, if_pos (by rw [hd]; exact h0)]
    refine ⟨⟨⟨s.next, rfl, ?_⟩, h.calls⟩, rfl⟩
    show (Timer.cancelTask s i).handles ++ _ = _
    rw [hc]; rfl

theorem Waiting.run {w : Nat} {s : St} (h : Waiting w s) (i : Nat) :
    (runHandle s i = s) ∨ (s.task = some i ∧ w ≤ s.now) := by
  obtain ⟨j, h1, h2⟩ := h.task
  by_cases hi : j = i
  · subst hi
    by_cases hw : w ≤ s.now
    · exact .inr ⟨h1, hw⟩
    · left; unfold runHandle; rw [h2]; simp [hw]
  · left; unfold runHandle; rw [h2]; simp [hi]

theorem Done.step {cs : List Nat} {s : St} (h : Done cs s) (e : Ev) (h1 : e ≠ .start) (h2 : e ≠ .expire) : Done cs (step s e) := by
  cases e with
  | start => exact absurd rfl h1
  | expire => exact absurd rfl h2
  | extend e => exact ⟨h.handles, h.calls, h.task⟩
  | cancel =>
    show Done cs (cancel s); unfold cancel
    cases ht : s.task with
    | none => exact absurd ht h.task
    | some i => exact ⟨by show s.handles.filter _ = []; rw [h.handles]; rfl, h.calls, h.task⟩
  | tick n => exact ⟨h.handles, h.calls, h.task⟩
  | run i => show Done cs (runHandle s i); unfold runHandle; rw [h.handles]; exact h

theorem Done.later {cs : List Nat} : ∀ (h : List Ev) {s : St}, Done cs s → (∀ e ∈ h, isStart e = false ∧ isExpire e = false) → Done cs (exec s h)
  | [], _, hd, _ => hd
  | e :: h, _, hd, hh => Done.later h (hd.step e (by rintro rfl; simpa [isStart] using (hh _ (List.mem_cons_self ..)).1)
      (by rintro rfl; simpa [isExpire] using (hh _ (List.mem_cons_self ..)).2)) (fun x hx => hh x (List.mem_cons_of_mem _ hx))

/-- Started at time `a`: not called yet, or called once, not before `a + p`; and with an extension by `x` that stands, not before
the deadline and the extension. -/
theorem Waiting.later : ∀ (h : List Ev) {s : St} {w : Nat}, Waiting w s → (∀ e ∈ h, isStart e = false ∧ isExpire e = false) →
    (exec s h).calls = [] ∨ ∃ T, (exec s h).calls = [T] ∧ w ≤ T
  | [], s, w, hw, _ => .inl hw.calls
  | e :: h, s, w, hw, hh => by
    have hh' : ∀ x ∈ h, isStart x = false ∧ isExpire x = false := fun x hx => hh x (List.mem_cons_of_mem _ hx)
    have he := hh e (List.mem_cons_self ..)
    show (exec (step s e) h).calls = [] ∨ ∃ T, (exec (step s e) h).calls = [T] ∧ w ≤ T
    cases e with
    | start => simp [isStart] at he
    | expire => simp [isExpire] at he
    | extend x => exact Waiting.later h (s := extend s x) ⟨hw.task, hw.calls⟩ hh'
    | tick n => exact Waiting.later h (s := { s with now := s.now + n }) ⟨hw.task, hw.calls⟩ hh'
    | cancel => exact .inl (hw.cancel.later h hh').calls
    | run i =>
      rcases hw.run i with h1 | ⟨h1, h2⟩
      · show (exec (runHandle s i) h).calls = [] ∨ ∃ T, (exec (runHandle s i) h).calls = [T] ∧ w ≤ T
        rw [h1]; exact Waiting.later h hw hh'
      · have hf := hw.fire h1 h2
        by_cases h0 : s.delay = 0
        · rw [if_pos h0] at hf
          exact .inr ⟨s.now, (hf.1.later h hh').calls, h2⟩
        · rw [if_neg h0] at hf
          rcases Waiting.later h hf.1 hh' with h3 | ⟨T, h3, h4⟩
          · exact .inl h3
          · exact .inr ⟨T, h3, by omega⟩

/-- An extension that is not changed any more. -/
theorem Waiting.later_ext : ∀ (h : List Ev) {s : St} {w : Nat}, Waiting w s → (∀ e ∈ h, isStart e = false ∧ isExpire e = false ∧ isExtend e = false) →
    (exec s h).calls = [] ∨ ∃ T, (exec s h).calls = [T] ∧ w + s.delay ≤ T
  | [], s, w, hw, _ => .inl hw.calls
  | e :: h, s, w, hw, hh => by
    have hh' : ∀ x ∈ h, isStart x = false ∧ isExpire x = false ∧ isExtend x = false := fun x hx => hh x (List.mem_cons_of_mem _ hx)
    have hh2 : ∀ x ∈ h, isStart x = false ∧ isExpire x = false := fun x hx => ⟨(hh' x hx).1, (hh' x hx).2.1⟩
    have he := hh e (List.mem_cons_self ..)
    show (exec (step s e) h).calls = [] ∨ ∃ T, (exec (step s e) h).calls = [T] ∧ w + s.delay ≤ T
    cases e with
    | start => simp [isStart] at he
    | expire => simp [isExpire] at he
    | extend x => simp [isExtend] at he
    | tick n => exact Waiting.later_ext h (s := { s with now := s.now + n }) ⟨hw.task, hw.calls⟩ hh'
    | cancel => exact .inl (hw.cancel.later h hh2).calls
    | run i =>
      rcases hw.run i with h1 | ⟨h1, h2⟩
      · show (exec (runHandle s i) h).calls = [] ∨ ∃ T, (exec (runHandle s i) h).calls = [T] ∧ w + s.delay ≤ T
        rw [h1]; exact Waiting.later_ext h hw hh'
      · have hf := hw.fire h1 h2
        by_cases h0 : s.delay = 0
        · rw [if_pos h0] at hf
          exact .inr ⟨s.now, (hf.1.later h hh2).calls, by omega⟩
        · rw [if_neg h0] at hf
          rcases Waiting.later h hf.1 hh2 with h3 | ⟨T, h3, h4⟩
          · exact .inl h3
          · exact .inr ⟨T, h3, by omega⟩

theorem exec_append (s : St) (h1 h2 : List Ev) : exec s (h1 ++ h2) = exec (exec s h1) h2 := by
  induction h1 generalizing s with
  | nil => rfl
  | cons e h ih => exact ih _

theorem runHandle_now (s : St) (i : Nat) : (runHandle s i).now = s.now := by
  unfold runHandle fireCallback
  split
  · rfl
  · split
    · split <;> rfl
    · rfl

theorem exec_now : ∀ (h : List Ev) (s : St), (exec s h).now = s.now + elapsed h
  | [], s => rfl
  | e :: h, s => by
    show (exec (step s e) h).now = _
    rw [exec_now h]
    cases e with
    | tick n => show s.now + n + elapsed h = s.now + (n + elapsed h); omega
    | run i => show (runHandle s i).now + _ = _; rw [runHandle_now]; rfl
    | cancel =>
      show (cancel s).now + _ = _
      unfold cancel; split <;> rfl
    | expire =>
      show (expire s).now + _ = _
      unfold expire; split <;> rfl
    | start => rfl
    | extend x => rfl

/-- C42, whatever the event loop does (it may be late): a timer of period `p`, created at time `a` and started after a time, is
called at most once, and not before its period has passed since the start. -/
theorem C42_not_early (a p : Nat) (n : Nat) (h : List Ev) (hh : ∀ e ∈ h, isStart e = false ∧ isExpire e = false) :
    (exec (.init a p) (.tick n :: .start :: h)).calls = [] ∨
    ∃ T, (exec (.init a p) (.tick n :: .start :: h)).calls = [T] ∧ a + n + p ≤ T := by
  have hi : Idle (step (.init a p) (.tick n)) := (Idle.init a p).step _ (by simp)
  exact Waiting.later h hi.start hh

/-- An extension by `x` made before the period has passed and not replaced by another one: not before the period and the extension have
passed. -/
theorem C42_extended (a p x : Nat) (h1 h2 : List Ev) (hh1 : ∀ e ∈ h1, isStart e = false ∧ isExpire e = false)
    (ht : elapsed h1 < p)
    (hh2 : ∀ e ∈ h2, isStart e = false ∧ isExpire e = false ∧ isExtend e = false) :
    (exec (.init a p) (.start :: h1 ++ .extend x :: h2)).calls = [] ∨
    ∃ T, (exec (.init a p) (.start :: h1 ++ .extend x :: h2)).calls = [T] ∧ a + p + x ≤ T := by
  have key : ∀ (h : List Ev) {s : St} {w : Nat}, Waiting w s → (∀ e ∈ h, isStart e = false ∧ isExpire e = false) → s.now + elapsed h < w →
      Waiting w (exec s h) ∨ Done [] (exec s h) := by
    intro h
    induction h with
    | nil => intro s w hw _ _; exact .inl hw
    | cons e h ih =>
      intro s w hw hh hlt
      have hh' : ∀ x ∈ h, isStart x = false ∧ isExpire x = false := fun x hx => hh x (List.mem_cons_of_mem _ hx)
      have he := hh e (List.mem_cons_self ..)
      show Waiting w (exec (step s e) h) ∨ Done [] (exec (step s e) h)
      cases e with
      | start => simp [isStart] at he
      | expire => simp [isExpire] at he
      | extend x => exact ih (s := extend s x) ⟨hw.task, hw.calls⟩ hh' hlt
      | tick n =>
        refine ih (s := { s with now := s.now + n }) ⟨hw.task, hw.calls⟩ hh' ?_
        have : elapsed (.tick n :: h) = n + elapsed h := rfl
        show s.now + n + _ < _
        omega
      | cancel => exact .inr (hw.cancel.later h hh')
      | run i =>
        have hl : s.now + elapsed h < w := hlt
        rcases hw.run i with h1 | ⟨_, h2⟩
        · show Waiting w (exec (runHandle s i) h) ∨ Done [] (exec (runHandle s i) h)
          rw [h1]; exact ih hw hh' hl
        · omega
  have hsplit : exec (.init a p) (.start :: h1 ++ .extend x :: h2) = exec (extend (exec (start (.init a p)) h1) x) h2 := by
    rw [exec_append]; rfl
  rw [hsplit]
  have hh2' : ∀ e ∈ h2, isStart e = false ∧ isExpire e = false := fun e he => ⟨(hh2 e he).1, (hh2 e he).2.1⟩
  rcases key h1 (Idle.init a p).start hh1 (by show a + _ < a + p; omega) with hw | hd
  · exact Waiting.later_ext h2 (s := extend _ x) ⟨hw.task, hw.calls⟩ hh2
  · exact .inl (Done.later h2 (s := extend _ x) ⟨hd.handles, hd.calls, hd.task⟩ hh2').calls

/-- A timer that is cancelled before it was called is never called, whatever the event loop and further extensions do. -/
theorem C42_cancelled (a p : Nat) (h1 h2 : List Ev) (hh1 : ∀ e ∈ h1, isStart e = false ∧ isExpire e = false)
    (hh2 : ∀ e ∈ h2, isStart e = false ∧ isExpire e = false) (hc : (exec (.init a p) (.start :: h1)).calls = []) :
    (exec (.init a p) (.start :: h1 ++ .cancel :: h2)).calls = [] := by
  have key : ∀ (h : List Ev) {s : St} {w : Nat}, Waiting w s → (∀ e ∈ h, isStart e = false ∧ isExpire e = false) → (exec s h).calls = [] →
      (∃ w', Waiting w' (exec s h)) ∨ Done [] (exec s h) := by
    intro h
    induction h with
    | nil => intro s w hw _ _; exact .inl ⟨w, hw⟩
    | cons e h ih =>
      intro s w hw hh hcs
      have hh' : ∀ x ∈ h, isStart x = false ∧ isExpire x = false := fun x hx => hh x (List.mem_cons_of_mem _ hx)
      have he := hh e (List.mem_cons_self ..)
      have hcs' : (exec (step s e) h).calls = [] := hcs
      show (∃ w', Waiting w' (exec (step s e) h)) ∨ Done [] (exec (step s e) h)
      cases e with
      | start => simp [isStart] at he
      | expire => simp [isExpire] at he
      | extend x => exact ih (s := extend s x) ⟨hw.task, hw.calls⟩ hh' hcs'
      | tick n => exact ih (s := { s with now := s.now + n }) ⟨hw.task, hw.calls⟩ hh' hcs'
      | cancel => exact .inr (hw.cancel.later h hh')
      | run i =>
        rcases hw.run i with h1 | ⟨h1, h2⟩
        · have hcs2 : (exec (runHandle s i) h).calls = [] := hcs'
          show (∃ w', Waiting w' (exec (runHandle s i) h)) ∨ Done [] (exec (runHandle s i) h)
          rw [h1] at hcs2 ⊢
          exact ih hw hh' hcs2
        · have hf := hw.fire h1 h2
          by_cases h0 : s.delay = 0
          · rw [if_pos h0] at hf
            have h3 := (hf.1.later h hh').calls
            have h4 : (exec (runHandle s i) h).calls = [] := hcs'
            rw [h4] at h3; cases h3
          · rw [if_neg h0] at hf
            exact ih hf.1 hh' hcs'
  have hsplit : exec (.init a p) (.start :: h1 ++ .cancel :: h2) = exec (cancel (exec (start (.init a p)) h1)) h2 := by
    rw [exec_append]; rfl
  rw [hsplit]
  rcases key h1 (Idle.init a p).start hh1 hc with ⟨w, hw⟩ | hd
  · exact (hw.cancel.later h2 hh2).calls
  · exact ((hd.step .cancel (by simp) (by simp)).later h2 hh2).calls

/-- A timer that is made to expire before it was called is called at that time and never again. -/
theorem C42_expired (a p : Nat) (h1 h2 : List Ev) (hh1 : ∀ e ∈ h1, isStart e = false ∧ isExpire e = false ∧ e ≠ .cancel)
    (hh2 : ∀ e ∈ h2, isStart e = false ∧ isExpire e = false) (hc : (exec (.init a p) (.start :: h1)).calls = []) :
    (exec (.init a p) (.start :: h1 ++ .expire :: h2)).calls = [a + elapsed h1] := by
  have key : ∀ (h : List Ev) {s : St} {w : Nat}, Waiting w s → (∀ e ∈ h, isStart e = false ∧ isExpire e = false ∧ e ≠ .cancel) →
      (exec s h).calls = [] → ∃ w', Waiting w' (exec s h) := by
    intro h
    induction h with
    | nil => intro s w hw _ _; exact ⟨w, hw⟩
    | cons e h ih =>
      intro s w hw hh hcs
      have hh' : ∀ x ∈ h, isStart x = false ∧ isExpire x = false ∧ x ≠ .cancel := fun x hx => hh x (List.mem_cons_of_mem _ hx)
      have he := hh e (List.mem_cons_self ..)
      have hcs' : (exec (step s e) h).calls = [] := hcs
      show ∃ w', Waiting w' (exec (step s e) h)
      cases e with
      | start => simp [isStart] at he
      | expire => simp [isExpire] at he
      | extend x => exact ih (s := extend s x) ⟨hw.task, hw.calls⟩ hh' hcs'
      | tick n => exact ih (s := { s with now := s.now + n }) ⟨hw.task, hw.calls⟩ hh' hcs'
      | cancel => exact absurd rfl he.2.2
      | run i =>
        rcases hw.run i with h1 | ⟨h1, h2⟩
        · have hcs2 : (exec (runHandle s i) h).calls = [] := hcs'
          show ∃ w', Waiting w' (exec (runHandle s i) h)
          rw [h1] at hcs2 ⊢
          exact ih hw hh' hcs2
        · have hf := hw.fire h1 h2
          by_cases h0 : s.delay = 0
          · rw [if_pos h0] at hf
            have h3 := (hf.1.later h (fun x hx => ⟨(hh' x hx).1, (hh' x hx).2.1⟩)).calls
            have h4 : (exec (runHandle s i) h).calls = [] := hcs'
            rw [h4] at h3; cases h3
          · rw [if_neg h0] at hf
            exact ih hf.1 hh' hcs'
  have hsplit : exec (.init a p) (.start :: h1 ++ .expire :: h2) = exec (expire (exec (start (.init a p)) h1)) h2 := by
    rw [exec_append]; rfl
  rw [hsplit]
  obtain ⟨w, hw⟩ := key h1 (Idle.init a p).start hh1 hc
  have := (hw.expire.later h2 hh2).calls
  rw [this, exec_now]; rfl

/-! ## A loop that is never late -/

theorem prompt_now (s : St) : (prompt s).now = s.now + 1 := by
  unfold prompt
  dsimp only
  split
  · rfl
  · rw [runHandle_now]

theorem wait_now : ∀ (n : Nat) (s : St), (wait n s).now = s.now + n
  | 0, _ => rfl
  | n + 1, s => by rw [wait, wait_now, prompt_now]; omega

theorem Done.prompt {cs : List Nat} {s : St} (h : Done cs s) : Done cs (prompt s) := by
  unfold Timer.prompt
  dsimp only
  split
  · exact ⟨h.handles, h.calls, h.task⟩
  · unfold runHandle; dsimp only; rw [h.handles]; exact ⟨rfl, h.calls, h.task⟩

theorem Done.wait {cs : List Nat} : ∀ (n : Nat) {s : St}, Done cs s → Done cs (wait n s)
  | 0, _, h => h
  | n + 1, _, h => Done.wait n h.prompt

/-- One unit of time. -/
theorem Waiting.prompt {w : Nat} {s : St} (h : Waiting w s) (hw : s.now < w) :
    if s.now + 1 < w then Waiting w (prompt s) ∧ (prompt s).delay = s.delay
    else if s.delay = 0 then Done [w] (prompt s) else Waiting (w + s.delay) (prompt s) ∧ (prompt s).delay = 0 := by
  obtain ⟨i, h1, h2⟩ := h.task
  have hp : Timer.prompt s = runHandle { s with now := s.now + 1 } i := by
    unfold Timer.prompt; dsimp only; rw [h1]
  have hw' : Waiting w { s with now := s.now + 1 } := ⟨⟨i, h1, h2⟩, h.calls⟩
  rw [hp]
  split
  · next hlt =>
    have : runHandle { s with now := s.now + 1 } i = { s with now := s.now + 1 } := by
      unfold runHandle; dsimp only; rw [h2]; simp; intro hh; omega
    rw [this]
    exact ⟨hw', rfl⟩
  · next hge =>
    have hwn : w = s.now + 1 := by omega
    have hf := hw'.fire h1 (by show w ≤ s.now + 1; omega)
    by_cases h0 : s.delay = 0
    · rw [if_pos h0]
      rw [if_pos (show ({ s with now := s.now + 1 } : St).delay = 0 from h0)] at hf
      rw [hwn]; exact hf.1
    · rw [if_neg h0]
      rw [if_neg (show ¬ ({ s with now := s.now + 1 } : St).delay = 0 from h0)] at hf
      rw [hwn]; exact hf

/-- Waiting with a deadline and an extension (0: none). -/
def Runs (D e : Nat) (s : St) : Prop := Waiting D s ∧ s.delay = e

theorem Runs.wait0 : ∀ (n : Nat) {D e : Nat} {s : St}, Runs D e s → s.now + n < D → Runs D e (wait n s)
  | 0, _, _, _, h, _ => h
  | n + 1, D, e, s, h, hlt => by
    have hp := h.1.prompt (by omega)
    rw [if_pos (by omega)] at hp
    exact Runs.wait0 n (s := prompt s) ⟨hp.1, hp.2.trans h.2⟩ (by rw [prompt_now]; omega)

theorem Runs.wait1 (n : Nat) {D : Nat} {s : St} (h : Runs D 0 s) (hs : s.now < D) (hn : D ≤ s.now + n) : Done [D] (wait n s) := by
  obtain ⟨m, rfl⟩ : ∃ m, n = (D - s.now - 1) + (1 + m) := ⟨n - (D - s.now), by omega⟩
  have hw : ∀ (a b : Nat) (s : St), Timer.wait (a + b) s = Timer.wait b (Timer.wait a s) := by
    intro a
    induction a with
    | zero => intro b s; rw [Nat.zero_add]; rfl
    | succ a ih => intro b s; rw [Nat.succ_add, Timer.wait, ih]; rfl
  rw [hw, hw]
  have h1 := h.wait0 (D - s.now - 1) (by omega)
  have hp := h1.1.prompt (by rw [wait_now]; omega)
  rw [if_neg (by rw [wait_now]; omega), if_pos h1.2] at hp
  exact Done.wait m hp

theorem wait_add : ∀ (a b : Nat) (s : St), wait (a + b) s = wait b (wait a s) := by
  intro a
  induction a with
  | zero => intro b s; rw [Nat.zero_add]; rfl
  | succ a ih => intro b s; rw [Nat.succ_add, wait, ih]; rfl

theorem Runs.wait2 (n : Nat) {D e : Nat} {s : St} (h : Runs D e s) (he : e ≠ 0) (hs : s.now < D) (hn : D ≤ s.now + n) :
    ∃ m s', wait n s = wait m s' ∧ Runs (D + e) 0 s' ∧ s'.now = D ∧ s'.now + m = s.now + n := by
  obtain ⟨m, rfl⟩ : ∃ m, n = (D - s.now - 1) + (1 + m) := ⟨n - (D - s.now), by omega⟩
  refine ⟨m, wait 1 (wait (D - s.now - 1) s), by rw [wait_add, wait_add], ?_, by rw [wait_now, wait_now]; omega, by rw [wait_now, wait_now]; omega⟩
  have h1 := h.wait0 (D - s.now - 1) (by omega)
  have hp := h1.1.prompt (by rw [wait_now]; omega)
  rw [if_neg (by rw [wait_now]; omega), if_neg (by rw [h1.2]; exact he)] at hp
  rw [h1.2] at hp
  exact ⟨hp.1, hp.2⟩

/-- Outcome of waiting until time `x`. -/
theorem Runs.until {D e x : Nat} {s : St} (h : Runs D e s) (hs : s.now < D) (hx : s.now ≤ x) :
    if x < D then Runs D e (wait (x - s.now) s)
    else if e = 0 then Done [D] (wait (x - s.now) s)
    else if x < D + e then Runs (D + e) 0 (wait (x - s.now) s)
    else Done [D + e] (wait (x - s.now) s) := by
  split
  · exact h.wait0 _ (by omega)
  · split
    · next he => subst he; exact h.wait1 _ hs (by omega)
    · next hge he =>
      obtain ⟨m, s', h1, h2, h3, h4⟩ := h.wait2 (x - s.now) he hs (by omega)
      rw [h1]
      split
      · exact h2.wait0 _ (by omega)
      · exact h2.wait1 _ (by omega) (by omega)

theorem Done.carry {cs : List Nat} : ∀ (r : List (Nat × Nat)) (t : Nat) {s : St}, Done cs s → (carry s r t).calls = cs
  | [], t, s, h => (h.wait _).calls
  | (x, e) :: r, t, s, h => by
    have := h.wait (x - s.now)
    exact Done.carry r t (s := extend _ e) ⟨this.handles, this.calls, this.task⟩

theorem fireAt_ge : ∀ (r : List (Nat × Nat)) (D e : Nat), D ≤ fireAt D e r
  | [], D, e => by simp [fireAt]
  | (x, e') :: r, D, e => by
    unfold fireAt
    split
    · exact fireAt_ge r D e'
    · split
      · exact Nat.le_refl _
      · split
        · exact Nat.le_trans (Nat.le_add_right D e) (fireAt_ge r (D + e) e')
        · omega

theorem Runs.carry : ∀ (r : List (Nat × Nat)) (t : Nat) {D e : Nat} {s : St}, Runs D e s → s.now < D → Ordered s.now r → (∀ y ∈ r, y.1 ≤ t) → s.now ≤ t →
    (carry s r t).calls = if fireAt D e r ≤ t then [fireAt D e r] else []
  | [], t, D, e, s, h, hs, _, _, ht => by
    have hu := h.until (x := t) hs ht
    show (wait (t - s.now) s).calls = if D + e ≤ t then [D + e] else []
    by_cases h1 : t < D
    · rw [if_pos h1] at hu
      rw [if_neg (by omega)]; exact hu.1.calls
    · rw [if_neg h1] at hu
      by_cases h2 : e = 0
      · rw [if_pos h2] at hu
        rw [if_pos (by omega), h2]; exact hu.calls
      · rw [if_neg h2] at hu
        by_cases h3 : t < D + e
        · rw [if_pos h3] at hu
          rw [if_neg (by omega)]; exact hu.1.calls
        · rw [if_neg h3] at hu
          rw [if_pos (by omega)]; exact hu.calls
  | (x, e') :: r, t, D, e, s, h, hs, ho, hy, ht => by
    have hx : s.now ≤ x := ho.1
    have hxt : x ≤ t := hy (x, e') (List.mem_cons_self ..)
    have hu := h.until (x := x) hs hx
    have hnow : (extend (wait (x - s.now) s) e').now = x := by show (wait _ s).now = x; rw [wait_now]; omega
    have hy' : ∀ y ∈ r, y.1 ≤ t := fun y hm => hy y (List.mem_cons_of_mem _ hm)
    show (Timer.carry (extend (wait (x - s.now) s) e') r t).calls = _
    rw [fireAt]
    by_cases h1 : x < D
    · rw [if_pos h1] at hu ⊢
      exact Runs.carry r t (s := extend (wait (x - s.now) s) e') ⟨⟨hu.1.task, hu.1.calls⟩, rfl⟩ (by rw [hnow]; exact h1) (by rw [hnow]; exact ho.2) hy' (by rw [hnow]; exact hxt)
    · rw [if_neg h1] at hu ⊢
      by_cases h2 : e = 0
      · rw [if_pos h2] at hu ⊢
        rw [if_pos (by omega)]
        exact Done.carry r t (s := extend (wait (x - s.now) s) e') ⟨hu.handles, hu.calls, hu.task⟩
      · rw [if_neg h2] at hu ⊢
        by_cases h3 : x < D + e
        · rw [if_pos h3] at hu ⊢
          exact Runs.carry r t (s := extend (wait (x - s.now) s) e') ⟨⟨hu.1.task, hu.1.calls⟩, rfl⟩ (by rw [hnow]; exact h3) (by rw [hnow]; exact ho.2) hy' (by rw [hnow]; exact hxt)
        · rw [if_neg h3] at hu ⊢
          rw [if_pos (by omega)]
          exact Done.carry r t (s := extend (wait (x - s.now) s) e') ⟨hu.handles, hu.calls, hu.task⟩

/-- C42 for an event loop that is never late: a timer with a positive period, started at time `a` and extended at the given times, has at
time `t` been called exactly once, at the time that the specification says, if that time has come, and else not at all. -/
theorem C42_exact (a p : Nat) (hp : 0 < p) (r : List (Nat × Nat)) (ho : Ordered a r) (t : Nat) (ht : ∀ y ∈ r, y.1 ≤ t) (hat : a ≤ t) :
    (carry (start (.init a p)) r t).calls = if fireAt (a + p) 0 r ≤ t then [fireAt (a + p) 0 r] else [] :=
  Runs.carry r t (D := a + p) (e := 0) ⟨(Idle.init a p).start, rfl⟩ (by show a < a + p; omega) ho ht hat

/-- An extension before the deadline postpones the call by the extension after the deadline. -/
theorem C42_extension (a p x e : Nat) (hx : a ≤ x) (hxp : x < a + p) : fireAt (a + p) 0 [(x, e)] = a + p + e ∧ Ordered a [(x, e)] :=
  ⟨by simp [fireAt, hxp], hx, trivial⟩

/-- "Exactly once" is false if the timer is used again after it was called: making it expire calls again, and starting it again calls at
once, because the period is forgotten. -/
theorem C42_false_reuse : (exec (.init 0 10) [.start, .tick 10, .run 0, .expire]).calls = [10, 10] ∧
    (exec (.init 0 10) [.start, .tick 10, .run 0, .start, .run 1]).calls = [10, 10] := by decide +kernel

/-! ## Examples -/
example : (carry (start (.init 0 20)) [(15, 10), (22, 5)] 40).calls = [35] := by decide +kernel
example : fireAt 20 0 [(15, 10), (22, 5)] = 35 := by decide +kernel
example : (exec (.init 0 20) [.start, .tick 5, .extend 10, .tick 17, .run 0, .tick 11, .run 1]).calls = [33] := by decide +kernel
example : (exec (.init 0 20) [.start, .tick 5, .cancel, .tick 17, .run 0]).calls = [] := by decide +kernel

end Verif.Timer
