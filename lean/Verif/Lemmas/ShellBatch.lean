import Verif.Lemmas.ShellInv
/-! # Lemmas: batches -/
namespace Verif.Shell

theorem fedBy_append (t : Nat) (a b : List Eff) : fedBy t (a ++ b) = fedBy t a ++ fedBy t b := by
  induction a with
  | nil => rfl
  | cons x a ih => cases x <;> simp [fedBy, ih]

theorem results_append (t : Nat) (a b : List Eff) : results t (a ++ b) = results t a ++ results t b := by
  induction a with
  | nil => rfl
  | cons x a ih => cases x <;> simp [results, ih]

/-- Effects that no batch task makes. -/
def Still' (k : List Eff) : Prop := (∀ t l, .fed t l ∉ k) ∧ (∀ t r, .gave t r ∉ k)

theorem Still'.nil : Still' [] := ⟨(fun _ _ h => by cases h), (fun _ _ h => by cases h)⟩

theorem Still'.append {a b : List Eff} (h : Still' a) (g : Still' b) : Still' (a ++ b) :=
  ⟨fun t l hm => (List.mem_append.mp hm).elim (h.1 t l) (g.1 t l), fun t l hm => (List.mem_append.mp hm).elim (h.2 t l) (g.2 t l)⟩

theorem Still'.fedBy {k : List Eff} (h : Still' k) (t : Nat) : fedBy t k = [] := by
  induction k with
  | nil => rfl
  | cons x k ih =>
    have := ih ⟨fun t l hm => h.1 t l (by simp [hm]), fun t l hm => h.2 t l (by simp [hm])⟩
    cases x with
    | fed u l => exact absurd (by simp) (h.1 u l)
    | _ => simpa [Shell.fedBy] using this

theorem Still'.results {k : List Eff} (h : Still' k) (t : Nat) : results t k = [] := by
  induction k with
  | nil => rfl
  | cons x k ih =>
    have := ih ⟨fun t l hm => h.1 t l (by simp [hm]), fun t l hm => h.2 t l (by simp [hm])⟩
    cases x with
    | gave u l => exact absurd (by simp) (h.2 u l)
    | _ => simpa [Shell.results] using this

/-- What a line does about batches. -/
def Spawn (s s' : St) (r : Res) : Prop := ∃ k, s'.out = s.out ++ k ∧ Still' k ∧
  ((s'.nTask = s.nTask ∧ s'.task = s.task ∧ (∀ t ls, .started t ls ∉ k) ∧ ∀ t, r ≠ .ok (.fut (.batch t))) ∨
    ∃ ls, s'.nTask = s.nTask + 1 ∧ s'.task = upd s.task s.nTask ⟨ls, .ready⟩ ∧ (∀ t ls', .started t ls' ∈ k → t = s.nTask ∧ ls' = ls) ∧ .started s.nTask ls ∈ k ∧
      r = .ok (.fut (.batch s.nTask)))

theorem Spawn.emit (s : St) (k : List Eff) (h : Still' k) (h' : ∀ t ls, .started t ls ∉ k) (r : Res) (hr : ∀ t, r ≠ .ok (.fut (.batch t))) : Spawn s (emit s k) r :=
  ⟨k, rfl, h, .inl ⟨rfl, rfl, h', hr⟩⟩

theorem Spawn.refl (s : St) (r : Res) (hr : ∀ t, r ≠ .ok (.fut (.batch t))) : Spawn s s r := ⟨[], by simp, .nil, .inl ⟨rfl, rfl, (fun _ _ h => by cases h), hr⟩⟩

theorem Spawn.say (s : St) (m : List Msg) (r : Res) (hr : ∀ t, r ≠ .ok (.fut (.batch t))) : Spawn s (Shell.emit s (m.map .say)) r :=
  .emit s _ ⟨by simp, by simp⟩ (by simp) r hr

theorem Spawn.after {s s' : St} {r : Res} (k : List Eff) (h : Still' k) (h' : ∀ t ls, .started t ls ∉ k) (hs : Spawn (Shell.emit s k) s' r) : Spawn s s' r := by
  obtain ⟨k', h1, h2, h3⟩ := hs
  refine ⟨k ++ k', by rw [h1]; simp [Shell.emit], h.append h2, ?_⟩
  rcases h3 with ⟨g1, g2, g3, g4⟩ | ⟨ls, g1, g2, g3, g4, g5⟩
  · exact .inl ⟨g1, g2, fun t ls hm => (List.mem_append.mp hm).elim (h' t ls) (g3 t ls), g4⟩
  · exact .inr ⟨ls, g1, g2, fun t ls' hm => (List.mem_append.mp hm).elim (fun x => absurd x (h' t ls')) (g3 t ls'), by simp; exact .inr g4, g5⟩

theorem spawn_invoke (e : Env) (s : St) (p : Pod) (args : List Str) : Spawn s (invoke e s p args).1 (invoke e s p args).2 := by
  have hh : Still' (handlerEff p args) ∧ ∀ t ls, .started t ls ∉ handlerEff p args := by
    unfold handlerEff
    split
    · exact ⟨.nil, by simp⟩
    · exact ⟨⟨by simp, by simp⟩, by simp⟩
  unfold invoke
  simp only
  refine .after _ hh.1 hh.2 ?_
  split
  · exact .say _ [.trace] _ (by simp)
  · exact .say _ [.failed] _ (by simp)
  · next vs _ =>
    refine .after [.ran p.cb vs] ⟨by simp, by simp⟩ (by simp) ?_
    unfold runCb
    split
    · split
      · exact .say _ [.trace] _ (by simp)
      · exact .refl _ _ (by simp)
      · exact .refl _ _ (by simp)
    · exact .refl _ _ (by simp)
    · unfold runBatch
      split
      · split
        · exact .say _ [.noFile _] _ (by simp)
        · exact .say _ [.trace] _ (by simp)
        · next ls _ => exact ⟨[.started _ ls], rfl, ⟨by simp, by simp⟩, .inr ⟨ls, rfl, rfl, by simp, by simp, rfl⟩⟩
      · exact .say _ [.trace] _ (by simp)
    · exact .refl _ _ (by simp)

theorem spawn_process (e : Env) (s : St) : ∀ (ws : List Str) (o : Nat), Spawn s (process e s o ws).1 (process e s o ws).2 := by
  intro ws
  have hs : ∀ o ws, Spawn s (singleton e s o ws).1 (singleton e s o ws).2 := by
    intro o ws; unfold singleton; split
    · exact spawn_invoke ..
    · exact .say _ [.trace] _ (by simp)
  induction ws with
  | nil =>
    intro o
    unfold process
    split
    · exact hs _ _
    · unfold bareWord
      split
      · exact spawn_invoke ..
      · split
        · exact .say _ [.requires, .trace] _ (by simp)
        · exact .say _ [.requires, .wrongNumber] _ (by simp)
  | cons w ws ih =>
    intro o
    unfold process
    split
    · exact hs _ _
    · unfold counted
      split
      · exact spawn_invoke ..
      · exact .say _ [.wrongNumber] _ (by simp)
    · split
      · exact .say _ [.noSuch _] _ (by simp)
      · exact ih _

theorem spawn_line (e : Env) (s : St) (l : Str) : Spawn s (lineReceived e s l).1 (lineReceived e s l).2 := by
  unfold lineReceived
  split
  · exact .refl _ _ (by simp)
  · split
    · exact .say _ [.trace] _ (by simp)
    · unfold command
      split
      · exact .say _ [.trace] _ (by simp)
      · split
        · exact .say _ [.unknown _] _ (by simp)
        · exact spawn_process ..

/-- The line succeeded and what it gave is completed. -/
def Good (s : St) (r : Res) : Prop := ∃ f, r = .ok (.fut f) ∧ Completed s f

/-- The line stops its batch. -/
def Bad (s : St) (r : Res) : Prop := r = .failed ∨ r = .ok .plain ∨ ∃ f, r = .ok (.fut f) ∧ Failed s f

def WaitOk (s : St) (t : Nat) : Prop := match (s.task t).wait with
  | .ready => ∀ r ∈ results t s.out, Good s r
  | .on f l => ∃ rs ls, results t s.out = rs ++ [.ok (.fut f)] ∧ fedBy t s.out = ls ++ [l] ∧ ∀ r ∈ rs, Good s r
  | .over => ((s.task t).left = [] ∧ ∀ r ∈ results t s.out, Good s r) ∨
    ∃ rs r ls l, results t s.out = rs ++ [r] ∧ fedBy t s.out = ls ++ [l] ∧ (∀ r ∈ rs, Good s r) ∧ Bad s r ∧ .say (.batchFailed l) ∈ s.out

structure Batches (s : St) : Prop where
  made : ∀ t, t < s.nTask → ∃ ls, .started t ls ∈ s.out
  file : ∀ t ls, .started t ls ∈ s.out → t < s.nTask ∧ fedBy t s.out ++ (s.task t).left = ls
  fresh : ∀ t, s.nTask ≤ t → fedBy t s.out = [] ∧ results t s.out = []
  len : ∀ t, (results t s.out).length = (fedBy t s.out).length
  low : ∀ t t', .ok (.fut (.batch t')) ∈ results t s.out → t' < s.nTask
  wait : ∀ t, t < s.nTask → WaitOk s t

theorem Batches.init : Batches .init where
  made := fun t h => by have : St.init.nTask = 0 := by decide
                        omega
  file := fun t ls h => by
    have : St.init.out = [] := by decide
    rw [this] at h; cases h
  fresh := fun t _ => by
    have : St.init.out = [] := by decide
    rw [this]; exact ⟨rfl, rfl⟩
  len := fun t => by
    have : St.init.out = [] := by decide
    rw [this]; rfl
  low := fun t t' h => by
    have : St.init.out = [] := by decide
    rw [this] at h; cases h
  wait := fun t h => by have : St.init.nTask = 0 := by decide
                        omega

/-- Futures stay done. -/
structure Ends (s s' : St) : Prop where
  fin : ∀ n b, s.fin.get n = some b → s'.fin.get n = some b
  over : ∀ t, t < s.nTask → (s.task t).wait = .over → (s'.task t).wait = .over

theorem Ends.good {s s' : St} (h : Ends s s') {r : Res} (hl : ∀ t, r = .ok (.fut (.batch t)) → t < s.nTask) (hg : Good s r) : Good s' r := by
  obtain ⟨f, rfl, hc⟩ := hg
  refine ⟨f, rfl, ?_⟩
  cases f with
  | user n => exact h.fin n true hc
  | batch t => exact h.over t (hl t rfl) hc

theorem Ends.bad {s s' : St} (h : Ends s s') {r : Res} (hg : Bad s r) : Bad s' r := by
  rcases hg with hg | hg | ⟨f, h1, h2⟩
  · exact .inl hg
  · exact .inr (.inl hg)
  · refine .inr (.inr ⟨f, h1, ?_⟩)
    cases f with
    | user n => exact h.fin n false h2
    | batch t => exact h2

/-- A task on which nothing happens. -/
theorem WaitOk.keep {s s' : St} {t : Nat} (hb : Batches s) (h : WaitOk s t) (he : Ends s s') (ht : s'.task t = s.task t) (hr : results t s'.out = results t s.out)
    (hf : fedBy t s'.out = fedBy t s.out) (ho : ∀ m, .say m ∈ s.out → .say m ∈ s'.out) : WaitOk s' t := by
  have good : ∀ r ∈ results t s.out, Good s r → Good s' r := fun r hm => he.good (fun t' e => hb.low t t' (by rw [← e]; exact hm))
  unfold WaitOk at h ⊢
  rw [ht, hr, hf]
  cases hw : (s.task t).wait with
  | ready =>
    rw [hw] at h
    exact fun r hm => good r hm (h r hm)
  | on f l =>
    rw [hw] at h
    obtain ⟨rs, ls, h1, h2, h3⟩ := h
    exact ⟨rs, ls, h1, h2, fun r hm => good r (by rw [h1]; simp [hm]) (h3 r hm)⟩
  | over =>
    rw [hw] at h
    rcases h with ⟨h1, h2⟩ | ⟨rs, r, ls, l, h1, h2, h3, h4, h5⟩
    · exact .inl ⟨h1, fun r hm => good r hm (h2 r hm)⟩
    · exact .inr ⟨rs, r, ls, l, h1, h2, fun r hm => good r (by rw [h1]; simp [hm]) (h3 r hm), he.bad h4, ho _ h5⟩

theorem Batches.spawn {s s' : St} {r : Res} (hb : Batches s) (hs : Spawn s s' r) (hf : s'.fin = s.fin) : Batches s' := by
  obtain ⟨k, ho, hk, hc⟩ := hs
  have f1 : ∀ t, fedBy t s'.out = fedBy t s.out := fun t => by rw [ho, fedBy_append, hk.fedBy, List.append_nil]
  have r1 : ∀ t, results t s'.out = results t s.out := fun t => by rw [ho, results_append, hk.results, List.append_nil]
  have so : ∀ x, x ∈ s.out → x ∈ s'.out := fun x hx => by rw [ho]; simp [hx]
  rcases hc with ⟨h1, h2, h3, _⟩ | ⟨ls, h1, h2, h3, h4, _⟩
  · have he : Ends s s' := ⟨fun n b h => by rw [hf]; exact h, fun t _ h => by rw [h2]; exact h⟩
    refine ⟨?_, ?_, ?_, ?_, ?_, ?_⟩
    · intro t ht
      obtain ⟨ls, hl⟩ := hb.made t (by omega)
      exact ⟨ls, so _ hl⟩
    · intro t ls hm
      rw [ho] at hm
      rcases List.mem_append.mp hm with hm | hm
      · rw [h1, f1, h2]; exact hb.file t ls hm
      · exact absurd hm (h3 t ls)
    · intro t ht; rw [f1, r1]; exact hb.fresh t (by omega)
    · intro t; rw [f1, r1]; exact hb.len t
    · intro t t' hm; rw [r1] at hm; rw [h1]; exact hb.low t t' hm
    · intro t ht
      exact (hb.wait t (by omega)).keep hb he (by rw [h2]) (r1 t) (f1 t) (fun m => so _)
  · have he : Ends s s' := ⟨fun n b h => by rw [hf]; exact h, fun t ht h => by rw [h2]; simp only [upd]; rw [if_neg (by omega)]; exact h⟩
    refine ⟨?_, ?_, ?_, ?_, ?_, ?_⟩
    · intro t ht
      by_cases e : t = s.nTask
      · subst e; exact ⟨ls, by rw [ho]; simp [h4]⟩
      · obtain ⟨ls, hl⟩ := hb.made t (by omega)
        exact ⟨ls, so _ hl⟩
    · intro t ls' hm
      rw [ho] at hm
      rcases List.mem_append.mp hm with hm | hm
      · obtain ⟨g1, g2⟩ := hb.file t ls' hm
        rw [h1, f1, h2]
        simp only [upd]
        rw [if_neg (by omega)]
        exact ⟨by omega, g2⟩
      · obtain ⟨rfl, rfl⟩ := h3 t ls' hm
        rw [h1, f1, (hb.fresh _ (Nat.le_refl _)).1, h2]
        exact ⟨by omega, by simp [upd]⟩
    · intro t ht; rw [f1, r1]; exact hb.fresh t (by omega)
    · intro t; rw [f1, r1]; exact hb.len t
    · intro t t' hm; rw [r1] at hm; have := hb.low t t' hm; omega
    · intro t ht
      by_cases e : t = s.nTask
      · subst e
        unfold WaitOk
        rw [h2]
        simp only [upd, if_true]
        intro r hm
        rw [r1, (hb.fresh _ (Nat.le_refl _)).2] at hm
        cases hm
      · exact (hb.wait t (by omega)).keep hb he (by rw [h2]; simp [upd, e]) (r1 t) (f1 t) (fun m => so _)

/-- Only the task `t` changes, by itself. -/
theorem Batches.wake {s : St} (hb : Batches s) {t : Nat} (ht : t < s.nTask) {w : Wait} {k : List Eff} (hk : ∀ x ∈ k, ∃ m, x = .say m) (hw : (s.task t).wait ≠ .over)
    (h : WaitOk { s with task := upd s.task t { s.task t with wait := w }, out := s.out ++ k } t) :
    Batches { s with task := upd s.task t { s.task t with wait := w }, out := s.out ++ k } := by
  have hs : Still' k := ⟨(fun u l hm => by obtain ⟨m, hx⟩ := hk _ hm; cases hx), (fun u l hm => by obtain ⟨m, hx⟩ := hk _ hm; cases hx)⟩
  have f1 : ∀ t, fedBy t (s.out ++ k) = fedBy t s.out := fun t => by rw [fedBy_append, hs.fedBy, List.append_nil]
  have r1 : ∀ t, results t (s.out ++ k) = results t s.out := fun t => by rw [results_append, hs.results, List.append_nil]
  refine ⟨?_, ?_, ?_, ?_, ?_, ?_⟩
  · intro u hu
    obtain ⟨ls, hl⟩ := hb.made u hu
    exact ⟨ls, by simp [hl]⟩
  · intro u ls hm
    rcases List.mem_append.mp hm with hm | hm
    · obtain ⟨g1, g2⟩ := hb.file u ls hm
      refine ⟨g1, ?_⟩
      simp only [f1, upd]
      split
      · next e => subst e; exact g2
      · exact g2
    · obtain ⟨m, hx⟩ := hk _ hm; cases hx
  · intro u hu; simp only [f1, r1]; exact hb.fresh u hu
  · intro u; simp only [f1, r1]; exact hb.len u
  · intro u t' hm; simp only [r1] at hm; exact hb.low u t' hm
  · intro u hu
    by_cases e : u = t
    · subst e; exact h
    · refine (hb.wait u hu).keep hb ⟨fun _ _ h => h, ?_⟩ (by simp [upd, e]) (r1 u) (f1 u) (fun m hm => by simp [hm])
      intro v _ hv
      simp only [upd]
      split
      · next e' => subst e'; exact absurd hv hw
      · exact hv

theorem Batches.feed {s : St} (hb : Batches s) (e : Env) {t : Nat} (ht : t < s.nTask) {l : Str} {ls : List Str} (hw : (s.task t).wait = .ready) (hl : (s.task t).left = l :: ls) :
    Batches (feed e s t l ls) := by
  unfold Shell.feed
  simp only
  generalize hs1 : emit { s with task := upd s.task t { s.task t with left := ls } } [.fed t l] = s1
  have o1 : s1.out = s.out ++ [.fed t l] := by rw [← hs1]; rfl
  have n1 : s1.nTask = s.nTask := by rw [← hs1]; rfl
  have t1 : s1.task = upd s.task t ⟨ls, .ready⟩ := by rw [← hs1]; simp [emit, hw]
  have fin1 : s1.fin = s.fin := by rw [← hs1]; rfl
  obtain ⟨k, ho, hk, hc⟩ := spawn_line e s1 l
  have fin2 : (lineReceived e s1 l).1.fin = s.fin := by rw [(frame_line e s1 l).fin, fin1]
  generalize (lineReceived e s1 l).1 = s2 at ho hc fin2 ⊢
  generalize (lineReceived e s1 l).2 = r at hc ⊢
  -- the tasks after the line
  have n2 : s.nTask ≤ s2.nTask := by rcases hc with ⟨h, _⟩ | ⟨_, h, _⟩ <;> omega
  have t2 : ∀ u, u < s.nTask → s2.task u = if u = t then ⟨ls, .ready⟩ else s.task u := by
    intro u hu
    rcases hc with ⟨_, h, _⟩ | ⟨_, _, h, _⟩
    · rw [h, t1]; rfl
    · rw [h]; simp only [upd]; rw [if_neg (by omega), t1]; rfl
  -- the state after it all
  have key : ∀ (tail : List Eff) (w : Wait), (∀ x ∈ tail, ∃ m, x = .say m) →
      (∀ s', s'.fin = s.fin → Ends s s' → s'.task t = ⟨ls, w⟩ → results t s'.out = results t s.out ++ [r] → fedBy t s'.out = fedBy t s.out ++ [l] →
        (∀ x ∈ tail, x ∈ s'.out) → (∀ r ∈ results t s.out, Good s' r) → WaitOk s' t) →
      Batches { s2 with out := s2.out ++ .gave t r :: tail, task := upd s2.task t ⟨ls, w⟩ } := by
    intro tail w htail hwait
    have hst : Still' tail := ⟨(fun u l hm => by obtain ⟨m, hx⟩ := htail _ hm; cases hx), (fun u l hm => by obtain ⟨m, hx⟩ := htail _ hm; cases hx)⟩
    generalize hs' : ({ s2 with out := s2.out ++ .gave t r :: tail, task := upd s2.task t ⟨ls, w⟩ } : St) = s'
    have out' : s'.out = s.out ++ (.fed t l :: k ++ .gave t r :: tail) := by rw [← hs']; simp [ho, o1]
    have nT : s'.nTask = s2.nTask := by rw [← hs']
    have fin' : s'.fin = s.fin := by rw [← hs']; exact fin2
    have task' : ∀ u, u < s.nTask → u ≠ t → s'.task u = s.task u := by
      intro u hu hne
      rw [← hs']; simp only [upd]; rw [if_neg hne, t2 u hu, if_neg hne]
    have taskt : s'.task t = ⟨ls, w⟩ := by rw [← hs']; simp [upd]
    have f' : ∀ u, fedBy u s'.out = fedBy u s.out ++ if t = u then [l] else [] := by
      intro u
      rw [out', fedBy_append, fedBy_append]
      simp only [Shell.fedBy, hk.fedBy, hst.fedBy, List.append_nil]
    have r' : ∀ u, results u s'.out = results u s.out ++ if t = u then [r] else [] := by
      intro u
      rw [out', results_append, results_append]
      simp only [Shell.results, hk.results, hst.results, List.append_nil, List.nil_append]
    have ends : Ends s s' := by
      refine ⟨fun n b h => by rw [fin']; exact h, fun u hu h => ?_⟩
      by_cases e : u = t
      · subst e; rw [hw] at h; cases h
      · rw [task' u hu e]; exact h
    have good : ∀ u, ∀ r ∈ results u s.out, Good s r → Good s' r := fun u r hm => ends.good (fun t' e => hb.low u t' (by rw [← e]; exact hm))
    have started' : ∀ u ls', .started u ls' ∈ s'.out → .started u ls' ∈ s.out ∨ .started u ls' ∈ k := by
      intro u ls' hm
      rw [out'] at hm
      simp only [List.cons_append, List.mem_append, List.mem_cons, reduceCtorEq, false_or] at hm
      rcases hm with hm | hm | hm
      · exact .inl hm
      · exact .inr hm
      · obtain ⟨m, hx⟩ := htail _ hm; cases hx
    have so : ∀ x, x ∈ s.out → x ∈ s'.out := fun x hx => by rw [out']; simp [hx]
    have rlow : ∀ t', r = .ok (.fut (.batch t')) → t' < s2.nTask := by
      rintro t' rfl
      rcases hc with ⟨_, _, _, h⟩ | ⟨_, h, _, _, _, h'⟩
      · exact absurd rfl (h t')
      · cases h'; omega
    -- a task started by the line
    have newTask : ∀ u, s.nTask ≤ u → u < s2.nTask → ∃ ls', u = s.nTask ∧ s'.task u = ⟨ls', .ready⟩ ∧ .started u ls' ∈ s'.out := by
      intro u h1 h2
      rcases hc with ⟨h, _⟩ | ⟨ls', h, h', _, h'', _⟩
      · omega
      · have : u = s.nTask := by omega
        subst this
        refine ⟨ls', rfl, ?_, by rw [out', ← n1]; simp [h'']⟩
        rw [← hs']
        simp only [upd]
        rw [if_neg (by omega), h', n1]
        simp [upd]
    refine ⟨?_, ?_, ?_, ?_, ?_, ?_⟩
    · intro u hu
      rw [nT] at hu
      by_cases h : u < s.nTask
      · obtain ⟨x, hx⟩ := hb.made u h
        exact ⟨x, so _ hx⟩
      · obtain ⟨x, _, _, hx⟩ := newTask u (by omega) hu
        exact ⟨x, hx⟩
    · intro u ls' hm
      rw [nT]
      rcases started' u ls' hm with hm | hm
      · obtain ⟨g1, g2⟩ := hb.file u ls' hm
        refine ⟨by omega, ?_⟩
        rw [f']
        by_cases e : u = t
        · subst e; rw [taskt, ← g2, hl]; simp
        · rw [task' u g1 e, if_neg (Ne.symm e), List.append_nil]; exact g2
      · rcases hc with ⟨_, _, h, _⟩ | ⟨ls'', h, h', h'', _, _⟩
        · exact absurd hm (h u ls')
        · obtain ⟨rfl, rfl⟩ := h'' u ls' hm
          rw [n1] at h ⊢
          obtain ⟨x, _, hx, _⟩ := newTask s.nTask (Nat.le_refl _) (by omega)
          refine ⟨by omega, ?_⟩
          have hx' : s'.task s.nTask = ⟨ls', .ready⟩ := by
            rw [← hs']; simp only [upd]; rw [if_neg (by omega), h', n1]; simp [upd]
          rw [hx', f', (hb.fresh s.nTask (Nat.le_refl _)).1, if_neg (by omega)]
          rfl
    · intro u hu
      rw [nT] at hu
      rw [f', r', (hb.fresh u (by omega)).1, (hb.fresh u (by omega)).2, if_neg (by omega), if_neg (by omega)]
      exact ⟨rfl, rfl⟩
    · intro u
      rw [f', r', List.length_append, List.length_append, hb.len u]
      split <;> rfl
    · intro u t' hm
      rw [r'] at hm
      rw [nT]
      rcases List.mem_append.mp hm with hm | hm
      · have := hb.low u t' hm; omega
      · split at hm
        · exact rlow t' (List.mem_singleton.mp hm).symm
        · cases hm
    · intro u hu
      rw [nT] at hu
      by_cases e : u = t
      · subst e
        have hr := hb.wait u ht
        unfold WaitOk at hr
        rw [hw] at hr
        refine hwait s' fin' ends taskt (by rw [r', if_pos rfl]) (by rw [f', if_pos rfl]) ?_ (fun r hm => good u r hm (hr r hm))
        intro x hx; rw [out']; simp [hx]
      · by_cases h : u < s.nTask
        · exact (hb.wait u h).keep hb ends (task' u h e) (by rw [r', if_neg (Ne.symm e), List.append_nil]) (by rw [f', if_neg (Ne.symm e), List.append_nil]) (fun m => so _)
        · obtain ⟨x, hx, hx', _⟩ := newTask u (by omega) hu
          unfold WaitOk
          rw [hx']
          intro r hm
          rw [r', (hb.fresh u (by omega)).2, if_neg (Ne.symm e)] at hm
          cases hm
  have tt : s2.task t = ⟨ls, .ready⟩ := by rw [t2 t ht, if_pos rfl]
  cases hr : r with
  | failed =>
    have := key [.say (.batchFailed l)] .over (by simp) (by
      intro s' _ _ h1 h2 h3 h4 h5
      unfold WaitOk
      rw [h1]
      exact .inr ⟨_, r, _, l, h2, h3, h5, .inl hr, h4 _ (by simp)⟩)
    subst hr
    simpa [afterLine, emit, tt] using this
  | ok x =>
    cases x with
    | plain =>
      have := key [.say (.batchFailed l)] .over (by simp) (by
        intro s' _ _ h1 h2 h3 h4 h5
        unfold WaitOk
        rw [h1]
        exact .inr ⟨_, r, _, l, h2, h3, h5, .inr (.inl hr), h4 _ (by simp)⟩)
      subst hr
      simpa [afterLine, emit, tt] using this
    | fut f =>
      have := key [] (.on f l) (by simp) (by
        intro s' _ _ h1 h2 h3 h4 h5
        unfold WaitOk
        rw [h1]
        exact ⟨_, _, by rw [h2, hr], h3, h5⟩)
      subst hr
      simpa [afterLine, emit, tt] using this

theorem Batches.other {s s' : St} (hb : Batches s) (h1 : s'.nTask = s.nTask) (h2 : s'.task = s.task) (hf : ∀ n b, s.fin.get n = some b → s'.fin.get n = some b) (k : List Eff)
    (ho : s'.out = s.out ++ k) (hk : ∀ x ∈ k, x = .raised) : Batches s' := by
  have hs : Still' k := ⟨(fun u l hm => by cases hk _ hm), (fun u l hm => by cases hk _ hm)⟩
  have f1 : ∀ t, fedBy t s'.out = fedBy t s.out := fun t => by rw [ho, fedBy_append, hs.fedBy, List.append_nil]
  have r1 : ∀ t, results t s'.out = results t s.out := fun t => by rw [ho, results_append, hs.results, List.append_nil]
  have he : Ends s s' := ⟨hf, fun t _ h => by rw [h2]; exact h⟩
  refine ⟨?_, ?_, ?_, ?_, ?_, ?_⟩
  · intro t ht
    obtain ⟨ls, hl⟩ := hb.made t (by omega)
    exact ⟨ls, by rw [ho]; simp [hl]⟩
  · intro t ls hm
    rw [ho] at hm
    rcases List.mem_append.mp hm with hm | hm
    · rw [h1, f1, h2]; exact hb.file t ls hm
    · cases hk _ hm
  · intro t ht; rw [f1, r1]; exact hb.fresh t (by omega)
  · intro t; rw [f1, r1]; exact hb.len t
  · intro t t' hm; rw [r1] at hm; rw [h1]; exact hb.low t t' hm
  · intro t ht
    exact (hb.wait t (by omega)).keep hb he (by rw [h2]) (r1 t) (f1 t) (fun m hm => by rw [ho]; simp [hm])

theorem Batches.run {s : St} (hb : Batches s) (e : Env) {t : Nat} (ht : t < s.nTask) : Batches (runTask e s t) := by
  unfold runTask
  split
  · exact hb
  · next hw =>
    have hr := hb.wait t ht
    unfold WaitOk at hr
    rw [hw] at hr
    split
    · next hl =>
      have := hb.wake ht (w := .over) (k := []) (by simp) (by rw [hw]; simp) (by
        unfold WaitOk
        simp only [upd, if_true, List.append_nil]
        refine .inl ⟨hl, fun r hm => ?_⟩
        obtain ⟨f, h1, h2⟩ := hr r hm
        refine ⟨f, h1, ?_⟩
        cases f with
        | user n => exact h2
        | batch u =>
          simp only [Completed] at h2 ⊢
          by_cases hu : u = t
          · simp [upd, hu]
          · simpa [upd, hu] using h2)
      simpa using this
    · next l ls hl => exact hb.feed e ht hw hl
  · next f l hw =>
    have hr := hb.wait t ht
    unfold WaitOk at hr
    rw [hw] at hr
    obtain ⟨rs, ls, h1, h2, h3⟩ := hr
    have good : ∀ w r, Good s r → Good { s with task := upd s.task t { s.task t with wait := w } } r := by
      rintro w r ⟨f', rfl, hc⟩
      refine ⟨f', rfl, ?_⟩
      cases f' with
      | user n => exact hc
      | batch u =>
        simp only [Completed, upd] at hc ⊢
        split
        · next e => subst e; rw [hw] at hc; cases hc
        · exact hc
    split
    · exact hb
    · next hd =>
      have hc : Completed s f := by
        cases f with
        | user n => exact hd
        | batch u =>
          simp only [done] at hd
          split at hd
          · assumption
          · cases hd
      have := hb.wake ht (w := .ready) (k := []) (by simp) (by rw [hw]; simp) (by
        unfold WaitOk
        simp only [upd, if_true, List.append_nil, h1]
        intro r hm
        refine good .ready r ?_
        rcases List.mem_append.mp hm with hm | hm
        · exact h3 r hm
        · rw [List.mem_singleton.mp hm]; exact ⟨f, rfl, hc⟩)
      simpa using this
    · next hd =>
      have hc : Failed s f := by
        cases f with
        | user n => exact hd
        | batch u =>
          simp only [done] at hd
          split at hd <;> cases hd
      have hk : Still' [Eff.say (.batchFailed l)] := ⟨by simp, by simp⟩
      exact hb.wake ht (w := .over) (k := [.say (.batchFailed l)]) (by simp) (by rw [hw]; simp) (by
        unfold WaitOk
        simp only [upd, if_true, results_append, fedBy_append, hk.results, hk.fedBy, List.append_nil]
        refine .inr ⟨rs, _, ls, l, h1, h2, fun r hm => ?_, .inr (.inr ⟨f, rfl, ?_⟩), by simp⟩
        · obtain ⟨f', g1, g2⟩ := good .over r (h3 r hm)
          refine ⟨f', g1, ?_⟩
          cases f' <;> exact g2
        · cases f with
          | user n => exact hc
          | batch u => exact hc)

theorem Batches.step {s : St} (hb : Batches s) (e : Ev) : Batches (step s e) := by
  cases e with
  | new txt mode dflt =>
    simp only [Shell.step]
    split
    · exact hb.other rfl rfl (fun _ _ h => h) [.raised] rfl (by simp)
    · exact hb.other rfl rfl (fun _ _ h => h) [] (by simp [alloc]) (by simp)
  | configure o n p =>
    simp only [Shell.step]
    split
    · unfold Shell.configure
      split
      · exact hb.other rfl rfl (fun _ _ h => h) [.raised] rfl (by simp)
      · split
        · exact hb.other rfl rfl (fun _ _ h => h) [.raised] rfl (by simp)
        · split
          · exact hb.other rfl rfl (fun _ _ h => h) [.raised] rfl (by simp)
          · exact hb.other rfl rfl (fun _ _ h => h) [] (by simp) (by simp)
    · exact hb
  | configureSub o o' =>
    simp only [Shell.step]
    split
    · unfold Shell.configureSub
      split
      · exact hb.other rfl rfl (fun _ _ h => h) [.raised] rfl (by simp)
      · split
        · exact hb.other rfl rfl (fun _ _ h => h) [.raised] rfl (by simp)
        · exact hb.other rfl rfl (fun _ _ h => h) [] (by simp) (by simp)
    · exact hb
  | register o =>
    simp only [Shell.step]
    split
    · unfold Shell.register
      split
      · exact hb.other rfl rfl (fun _ _ h => h) [.raised] rfl (by simp)
      · unfold addCommand
        simp only
        split
        · exact hb.other rfl rfl (fun _ _ h => h) [.raised] rfl (by simp)
        · exact hb.other rfl rfl (fun _ _ h => h) [] (by simp [alloc]) (by simp)
    · exact hb
  | line l e => exact hb.spawn (spawn_line e s l) (frame_line e s l).fin
  | done n ok =>
    simp only [Shell.step]
    split
    · exact hb
    · next h => exact hb.other rfl rfl (fun k b hk => get_set_keep (by simpa using h) hk) [] (by simp) (by simp)
  | run t e =>
    simp only [Shell.step]
    split
    · next h => exact hb.run e h
    · exact hb

theorem Batches.reachable (h : List Ev) : Batches (exec .init h) := by
  have key : ∀ (h : List Ev) (s : St), Batches s → Batches (exec s h) := by
    intro h
    induction h with
    | nil => exact fun s hs => hs
    | cons e h ih => exact fun s hs => ih _ (hs.step e)
  exact key h _ .init

end Verif.Shell
