import Verif.Lemmas.MockLoop
/-! # Lemmas for C78: closing a pair without delays -/
namespace Verif.Mock

theorem foldl_insert_mem (y : Entry) : ∀ (l acc : List Entry), y ∈ l.foldl (fun acc x => insertEntry x acc) acc ↔ y ∈ acc ∨ y ∈ l
  | [], acc => by simp
  | x :: l, acc => by
    rw [List.foldl_cons, foldl_insert_mem y l, insertEntry_mem, List.mem_cons]
    constructor
    · rintro ((h | h) | h)
      · exact .inr (.inl h)
      · exact .inl h
      · exact .inr (.inr h)
    · rintro (h | h | h)
      · exact .inl (.inr h)
      · exact .inl (.inl h)
      · exact .inr h

theorem sortEntries_mem (l : List Entry) (y : Entry) : y ∈ sortEntries l ↔ y ∈ l := by
  unfold sortEntries
  rw [foldl_insert_mem]
  simp

/-- A pair without delays. -/
structure D {σ} (s : St σ) : Prop where
  tr : ∀ i, (s.t i).delay = 0 ∧ (s.t i).sink = .remote
  tasks : ∀ e ∈ s.sched, ∃ k, e.task = .user k

theorem D.later {σ} {s : St σ} (h : D s) (dt : Int) (k : Nat) : D (s.callLater dt (.user k)) :=
  ⟨h.tr, fun e he => by
    rcases List.mem_append.mp ((sortEntries_mem _ _).mp he) with he | he
    · exact h.tasks e he
    · rw [List.mem_singleton] at he
      rw [he]
      exact ⟨k, rfl⟩⟩

theorem D.setT {σ} {s : St σ} (h : D s) (i : Bool) (x : Tr) (hx : x.delay = (s.t i).delay ∧ x.sink = (s.t i).sink) : D (s.setT i x) :=
  ⟨fun j => by
    unfold St.setT
    dsimp only
    split
    · next he => subst he; rw [hx.1, hx.2]; exact h.tr j
    · exact h.tr j, h.tasks⟩

theorem setT_self {σ} (s : St σ) (i : Bool) (x : Tr) : (s.setT i x).t i = x := by simp [St.setT]
theorem setT_ne {σ} (s : St σ) {i j : Bool} (x : Tr) (h : j ≠ i) : (s.setT i x).t j = s.t j := by simp [St.setT, h]
theorem not_ne (i : Bool) : (!i) ≠ i := by cases i <;> simp
theorem eq_or_not (i j : Bool) : j = i ∨ j = !i := by cases i <;> cases j <;> simp

/-- Exceptions of the test's own, or too deep a recursion. -/
def Mild (r : Option Err) : Prop := ∀ e, r = some e → e = .recursion ∨ ∃ k, e = .own k

theorem mild_none : Mild none := fun _ h => nomatch h
theorem mild_recursion : Mild (some .recursion) := fun _ h => .inl (by cases h; rfl)
theorem mild_own (k : Nat) : Mild (some (.own k)) := fun _ h => .inr ⟨k, by cases h; rfl⟩

/-- A transport without a protocol has a closed remote. -/
structure K {σ} (s : St σ) : Prop where
  d : D s
  gone : ∀ j, (s.t j).proto = false → (s.t !j).closed = true

def KPre {σ} (s : St σ) : Call → Prop
  | .rawWrite i _ => (s.t i).closed = false
  | .ownClose i => (s.t !i).closed = true
  | _ => True

structure KPost {σ} (s : St σ) (k : Call) (r : St σ × Option Err) : Prop where
  inv : K r.1
  mono : ∀ i, (s.t i).closed = true → (r.1.t i).closed = true
  mild : Mild r.2
  close : ∀ i, k = .close i → r.2 = none → (r.1.t i).closed = true

theorem K_code {σ} {rec : Rec σ} (hrec : ∀ s k, K s → KPre s k → KPost s k (rec s k)) : ∀ (code : Code σ) (s : St σ), K s →
    K (runCode rec s code).1 ∧ (∀ i, (s.t i).closed = true → ((runCode rec s code).1.t i).closed = true) ∧ Mild (runCode rec s code).2
  | [], s, h => ⟨h, fun _ hi => hi, mild_none⟩
  | ins :: code, s, h => by
    rw [runCode]
    rcases hi : ins s.app with ⟨a, _ | cmd⟩
    · exact K_code hrec code { s with app := a } ⟨⟨h.d.tr, h.d.tasks⟩, h.gone⟩
    · dsimp only
      have h1 := hrec { s with app := a } cmd.call ⟨⟨h.d.tr, h.d.tasks⟩, h.gone⟩ (by cases cmd <;> trivial)
      rcases hr : rec { s with app := a } cmd.call with ⟨s', _ | e⟩
      · rw [hr] at h1
        obtain ⟨j1, j2, j3⟩ := K_code hrec code s' h1.inv
        exact ⟨j1, fun i hi => j2 i (h1.mono i hi), j3⟩
      · rw [hr] at h1
        exact ⟨h1.inv, h1.mono, h1.mild⟩

theorem K_run {σ} (c : Cfg σ) : ∀ (f : Nat) (s : St σ) (k : Call), K s → KPre s k → KPost s k (run c f s k)
  | 0, s, k, h, _ => ⟨h, fun _ hi => hi, mild_recursion, fun _ _ h => nomatch h⟩
  | f + 1, s, k, h, hp => by
    have hrec := K_run c f
    rw [run]
    cases k with
    | write i d =>
      show KPost s _ (writeBody _ s i d)
      unfold writeBody
      by_cases hc : (s.t i).closed = true
      · rw [if_pos hc]
        exact ⟨h, fun _ hi => hi, mild_none, fun _ h => nomatch h⟩
      · rw [if_neg hc]
        dsimp only
        have hcl : ∀ j, (((s.setT i { s.t i with count := (s.t i).count + 1 }).add (.wrote i d s.clock)).t j).closed = (s.t j).closed := fun j => by
          rcases eq_or_not i j with rfl | rfl
          · show ((s.setT j _).t j).closed = _
            rw [setT_self]
          · show ((s.setT i _).t (!i)).closed = _
            rw [setT_ne _ _ (not_ne i)]
        have hpr : ∀ j, (((s.setT i { s.t i with count := (s.t i).count + 1 }).add (.wrote i d s.clock)).t j).proto = (s.t j).proto := fun j => by
          rcases eq_or_not i j with rfl | rfl
          · show ((s.setT j _).t j).proto = _
            rw [setT_self]
          · show ((s.setT i _).t (!i)).proto = _
            rw [setT_ne _ _ (not_ne i)]
        have hD : D ((s.setT i { s.t i with count := (s.t i).count + 1 }).add (.wrote i d s.clock)) := ⟨(h.d.setT i { s.t i with count := (s.t i).count + 1 } ⟨rfl, rfl⟩).tr, h.d.tasks⟩
        generalize (s.setT i { s.t i with count := (s.t i).count + 1 }).add (.wrote i d s.clock) = s1 at hcl hpr hD
        rw [if_neg (by rw [(hD.tr i).1]; exact fun hh => hh rfl)]
        have := hrec s1 (.rawWrite i (.data d)) ⟨hD, fun j hj => by rw [hcl]; exact h.gone j (by rw [← hpr]; exact hj)⟩ (by
          show (s1.t i).closed = false
          rw [hcl]; exact Bool.eq_false_iff.mpr hc)
        exact ⟨this.inv, fun j hj => this.mono j (by rw [hcl]; exact hj), this.mild, fun _ h => nomatch h⟩
    | rawWrite i inp =>
      show KPost s _ (rawWriteBody _ s i inp)
      unfold rawWriteBody
      rw [(h.d.tr i).2]
      dsimp only
      by_cases hpr : (s.t !i).proto = true
      · rw [if_pos hpr]
        have := hrec s (.recv (!i) inp) h trivial
        exact ⟨this.inv, this.mono, this.mild, fun _ h => nomatch h⟩
      · have := h.gone (!i) (Bool.eq_false_iff.mpr hpr)
        rw [Bool.not_not] at this
        have hp : (s.t i).closed = false := hp
        rw [hp] at this
        cases this
    | close i =>
      show KPost s _ (closeBody _ s i)
      unfold closeBody
      by_cases hc : (s.t i).closed = true
      · rw [if_pos hc]
        exact ⟨h, fun _ hi => hi, mild_none, fun j hj _ => by cases hj; exact hc⟩
      · rw [if_neg hc]
        dsimp only
        have hcl : ∀ j, (s.t j).closed = true ∨ j = i → (((s.setT i { s.t i with closed := true }).add (.closing i)).t j).closed = true := fun j hj => by
          rcases eq_or_not i j with rfl | rfl
          · show ((s.setT j _).t j).closed = _
            rw [setT_self]
          · show ((s.setT i _).t (!i)).closed = _
            rw [setT_ne _ _ (not_ne i)]
            rcases hj with hj | hj
            · exact hj
            · exact absurd hj (not_ne i)
        have hpr : ∀ j, (((s.setT i { s.t i with closed := true }).add (.closing i)).t j).proto = (s.t j).proto := fun j => by
          rcases eq_or_not i j with rfl | rfl
          · show ((s.setT j _).t j).proto = _
            rw [setT_self]
          · show ((s.setT i _).t (!i)).proto = _
            rw [setT_ne _ _ (not_ne i)]
        have hD : D ((s.setT i { s.t i with closed := true }).add (.closing i)) := ⟨(h.d.setT i { s.t i with closed := true } ⟨rfl, rfl⟩).tr, h.d.tasks⟩
        generalize (s.setT i { s.t i with closed := true }).add (.closing i) = s1 at hcl hpr hD
        rw [if_neg (by rw [(hD.tr i).1]; exact fun hh => hh rfl)]
        have := hrec s1 (.rawClose i) ⟨hD, fun j hj => hcl _ (.inl (h.gone j (by rw [← hpr]; exact hj)))⟩ trivial
        exact ⟨this.inv, fun j hj => this.mono j (hcl j (.inl hj)), this.mild, fun j hj _ => by cases hj; exact this.mono _ (hcl _ (.inr rfl))⟩
    | rawClose i =>
      show KPost s _ (rawCloseBody _ s i)
      unfold rawCloseBody
      rw [(h.d.tr i).2]
      dsimp only
      have h1 := hrec s (.close !i) h trivial
      rcases hr : run c f s (.close !i) with ⟨s', _ | e⟩
      · rw [hr] at h1
        have := hrec s' (.ownClose i) h1.inv (h1.close (!i) rfl rfl)
        exact ⟨this.inv, fun j hj => this.mono j (h1.mono j hj), this.mild, fun _ h => nomatch h⟩
      · rw [hr] at h1
        exact ⟨h1.inv, h1.mono, h1.mild, fun _ h => nomatch h⟩
    | ownClose i =>
      show KPost s _ (ownCloseBody _ s i)
      unfold ownCloseBody
      by_cases hpr : (s.t i).proto = true
      · rw [if_pos hpr]
        have h1 := hrec s (.recv i .lost) h trivial
        rcases hr : run c f s (.recv i .lost) with ⟨s', _ | e⟩
        · rw [hr] at h1
          have hcl : ∀ j, ((s'.setT i { s'.t i with proto := false }).t j).closed = (s'.t j).closed := fun j => by
            rcases eq_or_not i j with rfl | rfl
            · rw [setT_self]
            · rw [setT_ne _ _ (not_ne i)]
          refine ⟨⟨h1.inv.d.setT i _ ⟨rfl, rfl⟩, fun j hj => ?_⟩, fun j hj => ?_, mild_none, fun _ h => nomatch h⟩
          · dsimp only at hj ⊢
            rw [hcl]
            rcases eq_or_not i j with rfl | rfl
            · exact h1.mono _ hp
            · rw [setT_ne _ _ (not_ne i)] at hj
              exact h1.inv.gone _ hj
          · dsimp only
            rw [hcl]
            exact h1.mono j hj
        · rw [hr] at h1
          exact ⟨h1.inv, h1.mono, h1.mild, fun _ h => nomatch h⟩
      · rw [if_neg hpr]
        exact ⟨h, fun _ hi => hi, mild_none, fun _ h => nomatch h⟩
    | recv i inp =>
      obtain ⟨j1, j2, j3⟩ := K_code hrec (c.recv i inp s.app) (s.add (inputEv i s.clock inp)) ⟨⟨h.d.tr, h.d.tasks⟩, h.gone⟩
      exact ⟨j1, j2, j3, fun _ h => nomatch h⟩
    | later dt k => exact ⟨⟨h.d.later dt k, h.gone⟩, fun _ hi => hi, mild_none, fun _ h => nomatch h⟩
    | raise k => exact ⟨h, fun _ hi => hi, mild_own k, fun _ h => nomatch h⟩

theorem K_task {σ} (c : Cfg σ) (s : St σ) (e : Entry) (rest : List Entry) (hs : s.sched = e :: rest) (h : K s) :
    K (runTask c (s.pop e rest) e.task).1 ∧ Mild (runTask c (s.pop e rest) e.task).2 := by
  obtain ⟨k, hk⟩ := h.d.tasks e (by rw [hs]; exact List.mem_cons_self ..)
  rw [hk]
  have hK : K (s.pop e rest) := ⟨⟨h.d.tr, fun x hx => h.d.tasks x (by rw [hs]; exact List.mem_cons_of_mem _ hx)⟩, h.gone⟩
  obtain ⟨j1, _, j3⟩ := K_code (K_run c c.depth) (c.task k (s.pop e rest).app) _ hK
  exact ⟨j1, j3⟩

def MildOut (o : Out) : Prop := ∀ e, o = .raised e → e = .recursion ∨ ∃ k, e = .own k

theorem mildOut_of {r : Option Err} (h : Mild r) : MildOut (outOf r) := by
  intro e he
  cases r with
  | none => cases he
  | some x => cases he; exact h _ rfl

theorem K_runOnce {σ} (c : Cfg σ) : ∀ (n : Nat) (s : St σ), K s → K (runOnce c n s).1 ∧ MildOut (runOnce c n s).2
  | 0, s, h => ⟨h, fun _ h => nomatch h⟩
  | n + 1, s, h => by
    rw [runOnce]
    rcases hs : s.sched with _ | ⟨e, rest⟩
    · exact ⟨h, fun _ h => nomatch h⟩
    · dsimp only
      split
      · obtain ⟨h1, h2⟩ := K_task c s e rest hs h
        rcases hr : runTask c (s.pop e rest) e.task with ⟨s', _ | x⟩
        · rw [hr] at h1
          exact K_runOnce c n s' h1
        · rw [hr] at h1 h2
          exact ⟨h1, fun y hy => by cases hy; exact h2 _ rfl⟩
      · exact ⟨h, fun _ h => nomatch h⟩

theorem K_exec {σ} (c : Cfg σ) : ∀ (h : List Act) (s : St σ), K s → (∀ a ∈ h, a.direct = true) → K (exec c s h).1 ∧ ∀ o ∈ (exec c s h).2, MildOut o
  | [], s, hK, _ => ⟨hK, fun _ h => nomatch h⟩
  | a :: h, s, hK, hp => by
    suffices hg : K (act c s a).1 ∧ MildOut (act c s a).2 by
      obtain ⟨i1, i2⟩ := K_exec c h (act c s a).1 hg.1 fun b hb => hp b (List.mem_cons_of_mem _ hb)
      rw [exec]
      refine ⟨i1, fun o ho => ?_⟩
      rcases List.mem_cons.mp ho with rfl | ho
      · exact hg.2
      · exact i2 o ho
    have ha := hp a (List.mem_cons_self ..)
    cases a with
    | cmd k =>
      have := K_run c c.depth s k.call hK (by cases k <;> trivial)
      exact ⟨this.inv, mildOut_of this.mild⟩
    | advance dt n => exact K_runOnce c n _ ⟨⟨hK.d.tr, hK.d.tasks⟩, hK.gone⟩
    | runOnce n => exact K_runOnce c n s hK
    | setClock now => exact ⟨⟨⟨hK.d.tr, hK.d.tasks⟩, hK.gone⟩, fun _ h => nomatch h⟩
    | setDelay _ _ _ => cases ha
    | setProto i =>
      refine ⟨⟨hK.d.setT i _ ⟨rfl, rfl⟩, fun j hj => ?_⟩, fun _ h => nomatch h⟩
      have hcl : ∀ j, ((s.setT i { s.t i with proto := true }).t j).closed = (s.t j).closed := fun j => by
        rcases eq_or_not i j with rfl | rfl
        · rw [setT_self]
        · rw [setT_ne _ _ (not_ne i)]
      show ((s.setT i { s.t i with proto := true }).t !j).closed = true
      rw [hcl]
      change ((s.setT i { s.t i with proto := true }).t j).proto = false at hj
      rcases eq_or_not i j with rfl | rfl
      · rw [setT_self] at hj; cases hj
      · rw [setT_ne _ _ (not_ne i)] at hj
        exact hK.gone _ hj

/-! ## When both are closed -/

/-- Both are closed. -/
structure Shut {σ} (s : St σ) : Prop where
  d : D s
  closed : ∀ i, (s.t i).closed = true

/-- Only the loop is used. -/
structure Quiet {σ} (s s' : St σ) : Prop where
  t : s'.t = s.t
  d : D s'
  log : ∃ l, s'.log = s.log ++ l ∧ ∀ e ∈ l, e.isLoop = true

theorem Quiet.shut {σ} {s s' : St σ} (h : Quiet s s') (hs : Shut s) : Shut s' := ⟨h.d, fun i => by rw [h.t]; exact hs.closed i⟩
theorem Quiet.refl {σ} {s : St σ} (h : D s) : Quiet s s := ⟨rfl, h, [], by simp, fun _ h => nomatch h⟩
theorem Quiet.trans {σ} {a b c : St σ} (h1 : Quiet a b) (h2 : Quiet b c) : Quiet a c := by
  obtain ⟨l1, e1, q1⟩ := h1.log
  obtain ⟨l2, e2, q2⟩ := h2.log
  refine ⟨h2.t.trans h1.t, h2.d, l1 ++ l2, by rw [e2, e1, List.append_assoc], fun e he => ?_⟩
  rcases List.mem_append.mp he with he | he
  · exact q1 e he
  · exact q2 e he

theorem shut_cmd {σ} (c : Cfg σ) (f : Nat) (s : St σ) (k : Cmd) (h : Shut s) : Quiet s (run c f s k.call).1 := by
  cases f with
  | zero => exact .refl h.d
  | succ f =>
    rw [run]
    cases k with
    | write i d =>
      show Quiet s (writeBody _ s i d).1
      unfold writeBody
      rw [if_pos (h.closed i)]
      exact .refl h.d
    | close i =>
      show Quiet s (closeBody _ s i).1
      unfold closeBody
      rw [if_pos (h.closed i)]
      exact .refl h.d
    | later dt k => exact ⟨rfl, h.d.later dt k, [.called s.next (s.clock + dt)], rfl, fun e he => by rw [List.mem_singleton.mp he]; rfl⟩
    | raise k => exact .refl h.d

theorem shut_code {σ} (c : Cfg σ) (f : Nat) : ∀ (code : Code σ) (s : St σ), Shut s → Quiet s (runCode (run c f) s code).1
  | [], s, h => .refl h.d
  | ins :: code, s, h => by
    rw [runCode]
    rcases hi : ins s.app with ⟨a, _ | cmd⟩
    · have := shut_code c f code { s with app := a } ⟨⟨h.d.tr, h.d.tasks⟩, h.closed⟩
      exact ⟨this.t, this.d, this.log⟩
    · dsimp only
      have h1 := shut_cmd c f { s with app := a } cmd ⟨⟨h.d.tr, h.d.tasks⟩, h.closed⟩
      have h2 : Quiet s (run c f { s with app := a } cmd.call).1 := ⟨h1.t, h1.d, h1.log⟩
      rcases hr : run c f { s with app := a } cmd.call with ⟨s', _ | e⟩
      · rw [hr] at h2
        exact h2.trans (shut_code c f code s' (h2.shut h))
      · rw [hr] at h2
        exact h2

/-- From `s`, protocol `i` is told that the connection is lost, and nothing else happens. -/
def Told {σ} (i : Bool) (s s' : St σ) : Prop := ∃ l, s'.log = s.log ++ .lost i :: l ∧ ∀ e ∈ l, e.isLoop = true

theorem shut_lost {σ} (c : Cfg σ) (f : Nat) (s : St σ) (i : Bool) (h : Shut s) (hr : (run c f s (.recv i .lost)).2 ≠ some .recursion) :
    (run c f s (.recv i .lost)).1.t = s.t ∧ D (run c f s (.recv i .lost)).1 ∧ Told i s (run c f s (.recv i .lost)).1 := by
  cases f with
  | zero => exact absurd rfl hr
  | succ f =>
    have := shut_code c f (c.recv i .lost s.app) (s.add (.lost i)) ⟨⟨h.d.tr, h.d.tasks⟩, h.closed⟩
    obtain ⟨l, e1, e2⟩ := this.log
    exact ⟨this.t, this.d, l, by rw [show (run c (f + 1) s (.recv i .lost)).1.log = _ from e1]; simp [St.add], e2⟩

theorem shut_own {σ} (c : Cfg σ) (f : Nat) (s : St σ) (i : Bool) (h : Shut s) (hp : (s.t i).proto = true) (hr : (run c f s (.ownClose i)).2 ≠ some .recursion) :
    Shut (run c f s (.ownClose i)).1 ∧ Told i s (run c f s (.ownClose i)).1 ∧ ((run c f s (.ownClose i)).1.t !i) = s.t !i ∧
    ((run c f s (.ownClose i)).2 = none → ((run c f s (.ownClose i)).1.t i).proto = false) := by
  cases f with
  | zero => exact absurd rfl hr
  | succ f =>
    rw [run] at hr ⊢
    change (ownCloseBody (run c f) s i).2 ≠ _ at hr
    show Shut (ownCloseBody (run c f) s i).1 ∧ Told i s (ownCloseBody (run c f) s i).1 ∧ ((ownCloseBody (run c f) s i).1.t !i) = s.t !i ∧
      ((ownCloseBody (run c f) s i).2 = none → ((ownCloseBody (run c f) s i).1.t i).proto = false)
    unfold ownCloseBody at hr ⊢
    rw [if_pos hp] at hr ⊢
    have h1 := shut_lost c f s i h
    rcases hx : run c f s (.recv i .lost) with ⟨s', _ | e⟩
    · rw [hx] at h1
      obtain ⟨j1, j2, l, j3, j4⟩ := h1 (fun hh => nomatch hh)
      dsimp only at j1 j2 j3 ⊢
      have hcl : ∀ j, ((s'.setT i { s'.t i with proto := false }).t j).closed = (s.t j).closed := fun j => by
        rcases eq_or_not i j with rfl | rfl
        · rw [setT_self, j1]
        · rw [setT_ne _ _ (not_ne i), j1]
      refine ⟨⟨j2.setT i _ ⟨rfl, rfl⟩, fun j => by rw [hcl]; exact h.closed j⟩, ⟨l, j3, j4⟩, by rw [setT_ne _ _ (not_ne i), j1], fun _ => by rw [setT_self]⟩
    · rw [hx] at h1 hr
      obtain ⟨j1, j2, j3⟩ := h1 hr
      dsimp only at j1 j2 j3 ⊢
      exact ⟨⟨j2, fun j => by rw [j1]; exact h.closed j⟩, j3, by rw [j1], fun hh => nomatch hh⟩

theorem run_close_closed {σ} (c : Cfg σ) (f : Nat) (s : St σ) (i : Bool) (h : (s.t i).closed = true) (hr : (run c f s (.close i)).2 ≠ some .recursion) :
    run c f s (.close i) = (s, none) := by
  cases f with
  | zero => exact absurd rfl hr
  | succ f =>
    rw [run]
    show closeBody _ s i = _
    unfold closeBody
    rw [if_pos h]

/-- `_close` when both are closed already. -/
theorem shut_raw {σ} (c : Cfg σ) (f : Nat) (s : St σ) (i : Bool) (h : Shut s) (hp : (s.t i).proto = true) (hr : (run c f s (.rawClose i)).2 ≠ some .recursion) :
    Shut (run c f s (.rawClose i)).1 ∧ Told i s (run c f s (.rawClose i)).1 ∧ ((run c f s (.rawClose i)).1.t !i) = s.t !i ∧
    ((run c f s (.rawClose i)).2 = none → ((run c f s (.rawClose i)).1.t i).proto = false) := by
  cases f with
  | zero => exact absurd rfl hr
  | succ f =>
    have hb : run c (f + 1) s (.rawClose i) = match run c f s (.close !i) with
        | (s', some e) => (s', some e)
        | (s', none) => run c f s' (.ownClose i) := by
      rw [run]
      show rawCloseBody _ s i = _
      unfold rawCloseBody
      rw [(h.d.tr i).2]
      rfl
    by_cases hx : (run c f s (.close !i)).2 = some .recursion
    · rcases hy : run c f s (.close !i) with ⟨s', _ | e⟩
      · rw [hy] at hx; cases hx
      · rw [hy] at hx hb
        rw [hb] at hr
        exact absurd hx hr
    · rw [run_close_closed c f s (!i) (h.closed !i) hx] at hb
      dsimp only at hb
      rw [hb] at hr ⊢
      exact shut_own c f s i h hp hr

/-- The connection of the pair is open. -/
structure Open {σ} (s : St σ) : Prop where
  d : D s
  closed : ∀ i, (s.t i).closed = false
  proto : ∀ i, (s.t i).proto = true
  log : ∀ e ∈ s.log, ∀ i, e ≠ .closing i ∧ e ≠ .lost i

/-- It was closed: no data since then, and each protocol was told at most once. -/
structure Half {σ} (s : St σ) : Prop where
  shut : Shut s
  log : ∃ l1 i l2, s.log = l1 ++ .closing i :: l2 ∧ (∀ e ∈ l1, ∀ j, e ≠ .closing j ∧ e ≠ .lost j) ∧ (∀ e ∈ l2, e.isData = false) ∧ ∀ j, losses l2 j ≤ 1

/-- It was closed, and both protocols were told, the one at the other end first. -/
structure Done {σ} (s : St σ) : Prop where
  shut : Shut s
  proto : ∀ i, (s.t i).proto = false
  log : ∃ l1 i l2 l3 l4, s.log = l1 ++ .closing i :: .closing (!i) :: .lost (!i) :: (l2 ++ .lost i :: l3) ++ l4 ∧ (∀ e ∈ l1, ∀ j, e ≠ .closing j ∧ e ≠ .lost j) ∧ (∀ e ∈ l2, e.isLoop = true) ∧
    (∀ e ∈ l3, e.isLoop = true) ∧ (∀ e ∈ l4, e.isLoop = true)

theorem losses_loop {l : List Ev} (h : ∀ e ∈ l, e.isLoop = true) (j : Bool) : losses l j = 0 := by
  unfold losses
  rw [List.count_eq_zero]
  intro hm
  have := h _ hm
  cases this

theorem Half.quiet {σ} {s s' : St σ} (h : Half s) (hq : Quiet s s') : Half s' := by
  obtain ⟨l1, i, l2, e1, e2, e3, e4⟩ := h.log
  obtain ⟨l, f1, f2⟩ := hq.log
  refine ⟨hq.shut h.shut, l1, i, l2 ++ l, by rw [f1, e1]; simp, e2, fun e he => ?_, fun j => ?_⟩
  · rcases List.mem_append.mp he with he | he
    · exact e3 e he
    · have := f2 e he
      cases e <;> first | rfl | cases this
  · have := losses_loop f2 j
    unfold losses at this ⊢
    rw [List.count_append, this]
    exact e4 j

theorem Done.quiet {σ} {s s' : St σ} (h : Done s) (hq : Quiet s s') : Done s' := by
  obtain ⟨l1, i, l2, l3, l4, e1, e2, e3, e4, e5⟩ := h.log
  obtain ⟨l, f1, f2⟩ := hq.log
  refine ⟨hq.shut h.shut, fun i => by rw [hq.t]; exact h.proto i, l1, i, l2, l3, l4 ++ l, by rw [f1, e1]; simp, e2, e3, e4, fun e he => ?_⟩
  rcases List.mem_append.mp he with he | he
  · exact e5 e he
  · exact f2 e he

theorem losses_cons (e : Ev) (l : List Ev) (j : Bool) : losses (e :: l) j = losses l j + if e = .lost j then 1 else 0 := by
  unfold losses
  rw [List.count_cons]
  by_cases h : e = .lost j <;> simp [h]

theorem losses_append (l1 l2 : List Ev) (j : Bool) : losses (l1 ++ l2) j = losses l1 j + losses l2 j := List.count_append

theorem told_close {i : Bool} {l2 l3 : List Ev} (h2 : ∀ e ∈ l2, e.isLoop = true) (h3 : ∀ e ∈ l3, e.isLoop = true) :
    (∀ e ∈ .closing (!i) :: .lost (!i) :: (l2 ++ .lost i :: l3), e.isData = false) ∧ ∀ j, losses (.closing (!i) :: .lost (!i) :: (l2 ++ .lost i :: l3)) j = 1 := by
  have hd : ∀ e : Ev, e.isLoop = true → e.isData = false := fun e he => by cases e <;> first | rfl | cases he
  constructor
  · intro e he
    rcases List.mem_cons.mp he with rfl | he
    · rfl
    rcases List.mem_cons.mp he with rfl | he
    · rfl
    rcases List.mem_append.mp he with he | he
    · exact hd e (h2 e he)
    rcases List.mem_cons.mp he with rfl | he
    · rfl
    · exact hd e (h3 e he)
  · intro j
    rw [losses_cons, losses_cons, losses_append, losses_cons, losses_loop h2, losses_loop h3]
    cases i <;> cases j <;> simp

theorem Done.half {σ} {s : St σ} (h : Done s) : Half s := by
  obtain ⟨l1, i, l2, l3, l4, e1, e2, e3, e4, e5⟩ := h.log
  have hd : ∀ e : Ev, e.isLoop = true → e.isData = false := fun e he => by cases e <;> first | rfl | cases he
  refine ⟨h.shut, l1, i, .closing (!i) :: .lost (!i) :: (l2 ++ .lost i :: l3) ++ l4, by rw [e1]; simp, e2, fun e he => ?_, fun j => ?_⟩
  · rcases List.mem_append.mp he with he | he
    · exact (told_close e3 e4).1 e he
    · exact hd e (e5 e he)
  · rw [losses_append, (told_close e3 e4).2 j, losses_loop e5]
    exact Nat.le_refl _

/-- `close` when the other end is closed already and this protocol is there. -/
theorem half_close {σ} (c : Cfg σ) (f : Nat) (s : St σ) (j : Bool) (hd : D s) (h1 : (s.t !j).closed = true) (h2 : (s.t j).closed = false) (hp : (s.t j).proto = true)
    (hr : (run c f s (.close j)).2 ≠ some .recursion) :
    Shut (run c f s (.close j)).1 ∧ (∃ l, (run c f s (.close j)).1.log = s.log ++ .closing j :: .lost j :: l ∧ ∀ e ∈ l, e.isLoop = true) ∧ ((run c f s (.close j)).1.t !j) = s.t !j ∧
    ((run c f s (.close j)).2 = none → ((run c f s (.close j)).1.t j).proto = false) := by
  cases f with
  | zero => exact absurd rfl hr
  | succ f =>
    have hb : run c (f + 1) s (.close j) = run c f ((s.setT j { s.t j with closed := true }).add (.closing j)) (.rawClose j) := by
      rw [run]
      show closeBody _ s j = _
      unfold closeBody
      rw [if_neg (by rw [h2]; decide)]
      dsimp only
      rw [if_neg]
      show ¬ ((s.setT j _).t j).delay ≠ 0
      rw [setT_self]
      exact fun hh => hh (hd.tr j).1
    rw [hb] at hr ⊢
    have hs : Shut ((s.setT j { s.t j with closed := true }).add (.closing j)) := ⟨⟨(hd.setT j { s.t j with closed := true } ⟨rfl, rfl⟩).tr, hd.tasks⟩, fun i => by
      rcases eq_or_not j i with rfl | rfl
      · show ((s.setT i _).t i).closed = _
        rw [setT_self]
      · show ((s.setT j _).t (!j)).closed = _
        rw [setT_ne _ _ (not_ne j)]
        exact h1⟩
    obtain ⟨j1, ⟨l, j2, j2'⟩, j3, j4⟩ := shut_raw c f _ j hs (by show ((s.setT j _).t j).proto = _; rw [setT_self]; exact hp) hr
    refine ⟨j1, ⟨l, by rw [j2]; simp [St.add, St.setT], j2'⟩, ?_, j4⟩
    rw [j3]
    show (s.setT j _).t (!j) = _
    rw [setT_ne _ _ (not_ne j)]

/-- `close` on an open pair. -/
theorem open_close {σ} (c : Cfg σ) (f : Nat) (s : St σ) (i : Bool) (h : Open s) (hr : (run c f s (.close i)).2 ≠ some .recursion) :
    Half (run c f s (.close i)).1 ∧ ((run c f s (.close i)).2 = none → Done (run c f s (.close i)).1) := by
  cases f with
  | zero => exact absurd rfl hr
  | succ f =>
  have hb : run c (f + 1) s (.close i) = run c f ((s.setT i { s.t i with closed := true }).add (.closing i)) (.rawClose i) := by
    rw [run]
    show closeBody _ s i = _
    unfold closeBody
    rw [if_neg (by rw [h.closed i]; decide)]
    dsimp only
    rw [if_neg]
    show ¬ ((s.setT i _).t i).delay ≠ 0
    rw [setT_self]
    exact fun hh => hh (h.d.tr i).1
  rw [hb] at hr ⊢
  have hD : D ((s.setT i { s.t i with closed := true }).add (.closing i)) := ⟨(h.d.setT i { s.t i with closed := true } ⟨rfl, rfl⟩).tr, h.d.tasks⟩
  have hti : ((s.setT i { s.t i with closed := true }).add (.closing i)).t i = { s.t i with closed := true } := setT_self ..
  have htn : ((s.setT i { s.t i with closed := true }).add (.closing i)).t (!i) = s.t !i := setT_ne _ _ (not_ne i)
  have hlog : ((s.setT i { s.t i with closed := true }).add (.closing i)).log = s.log ++ [.closing i] := rfl
  generalize (s.setT i { s.t i with closed := true }).add (.closing i) = s1 at *
  cases f with
  | zero => exact absurd rfl hr
  | succ f =>
    have hb2 : run c (f + 1) s1 (.rawClose i) = match run c f s1 (.close !i) with
        | (s', some e) => (s', some e)
        | (s', none) => run c f s' (.ownClose i) := by
      rw [run]
      show rawCloseBody _ s1 i = _
      unfold rawCloseBody
      rw [(hD.tr i).2]
      rfl
    have hc := half_close c f s1 (!i) hD (by rw [Bool.not_not, hti]) (by rw [htn]; exact h.closed _) (by rw [htn]; exact h.proto _)
    rw [Bool.not_not] at hc
    rw [hb2] at hr ⊢
    have hd : ∀ e : Ev, e.isLoop = true → e.isData = false := fun e he => by cases e <;> first | rfl | cases he
    rcases hx : run c f s1 (.close !i) with ⟨s2, _ | e⟩
    · rw [hx] at hr hc
      dsimp only at hr hc ⊢
      obtain ⟨a1, ⟨l, a2, a3⟩, a4, a5⟩ := hc (fun hh => nomatch hh)
      obtain ⟨b1, ⟨l', b2, b3⟩, b4, b5⟩ := shut_own c f s2 i a1 (by rw [a4, hti]; exact h.proto i) hr
      have hl : (run c f s2 (.ownClose i)).1.log = s.log ++ .closing i :: .closing (!i) :: .lost (!i) :: (l ++ .lost i :: l') := by rw [b2, a2, hlog]; simp
      refine ⟨⟨b1, s.log, i, _, hl, h.log, (told_close a3 b3).1, fun j => by rw [(told_close a3 b3).2 j]; exact Nat.le_refl _⟩, fun hn => ⟨b1, fun j => ?_,
        s.log, i, l, l', [], by rw [hl]; simp, h.log, a3, b3, fun _ h => nomatch h⟩⟩
      rcases eq_or_not i j with rfl | rfl
      · exact b5 hn
      · rw [b4]; exact a5 rfl
    · rw [hx] at hr hc
      dsimp only at hr hc ⊢
      obtain ⟨a1, ⟨l, a2, a3⟩, a4, a5⟩ := hc hr
      refine ⟨⟨a1, s.log, i, .closing (!i) :: .lost (!i) :: l, by rw [a2, hlog]; simp, h.log, fun e he => ?_, fun j => ?_⟩, fun hn => nomatch hn⟩
      · rcases List.mem_cons.mp he with rfl | he
        · rfl
        rcases List.mem_cons.mp he with rfl | he
        · rfl
        · exact hd e (a3 e he)
      · rw [losses_cons, losses_cons, losses_loop a3]
        split <;> split <;> simp_all

/-- How a call on an open pair may end. -/
def Fine {σ} (r : St σ × Option Err) : Prop := r.2 ≠ some .recursion → (Open r.1 ∨ Half r.1) ∧ (r.2 = none → Open r.1 ∨ Done r.1)

theorem Open.add {σ} {s : St σ} (h : Open s) {e : Ev} (he : ∀ i, e ≠ .closing i ∧ e ≠ .lost i) : Open (s.add e) :=
  ⟨⟨h.d.tr, h.d.tasks⟩, h.closed, h.proto, fun x hx => by
    rcases List.mem_append.mp hx with hx | hx
    · exact h.log x hx
    · rw [List.mem_singleton.mp hx]; exact he⟩

theorem fine_code {σ} (c : Cfg σ) (f : Nat) (hrec : ∀ s (k : Cmd), Open s → Fine (run c f s k.call)) : ∀ (code : Code σ) (s : St σ), Open s → Fine (runCode (run c f) s code)
  | [], s, h => fun _ => ⟨.inl h, fun _ => .inl h⟩
  | ins :: code, s, h => by
    rw [runCode]
    rcases hi : ins s.app with ⟨a, _ | cmd⟩
    · exact fine_code c f hrec code { s with app := a } ⟨⟨h.d.tr, h.d.tasks⟩, h.closed, h.proto, h.log⟩
    · dsimp only
      have h1 := hrec { s with app := a } cmd ⟨⟨h.d.tr, h.d.tasks⟩, h.closed, h.proto, h.log⟩
      rcases hr : run c f { s with app := a } cmd.call with ⟨s', _ | e⟩
      · rw [hr] at h1
        rcases (h1 (fun hh => nomatch hh)).2 rfl with h2 | h2
        · exact fine_code c f hrec code s' h2
        · have hq := shut_code c f code s' h2.shut
          exact fun _ => ⟨.inr (h2.quiet hq).half, fun _ => .inr (h2.quiet hq)⟩
      · rw [hr] at h1
        exact h1

/-- Calls that only come when the connection is open. -/
def Plain : Call → Prop
  | .write .. | .close _ | .later .. | .raise _ => True
  | .rawWrite _ (.data _) | .recv _ (.data _) => True
  | _ => False

theorem fine_run {σ} (c : Cfg σ) : ∀ (f : Nat) (s : St σ) (k : Call), Open s → Plain k → Fine (run c f s k)
  | 0, s, k, h, _ => fun hh => absurd rfl hh
  | f + 1, s, k, h, hk => by
    cases k with
    | write i d =>
      rw [run]
      show Fine (writeBody _ s i d)
      unfold writeBody
      rw [if_neg (by rw [h.closed i]; decide)]
      dsimp only
      have hO : Open ((s.setT i { s.t i with count := (s.t i).count + 1 }).add (.wrote i d s.clock)) := by
        refine Open.add (e := .wrote i d s.clock) ⟨h.d.setT i { s.t i with count := (s.t i).count + 1 } ⟨rfl, rfl⟩, fun j => ?_, fun j => ?_, h.log⟩ (fun j => ⟨(fun hh => nomatch hh), (fun hh => nomatch hh)⟩)
        · rcases eq_or_not i j with rfl | rfl
          · rw [setT_self]; exact h.closed _
          · rw [setT_ne _ _ (not_ne i)]; exact h.closed _
        · rcases eq_or_not i j with rfl | rfl
          · rw [setT_self]; exact h.proto _
          · rw [setT_ne _ _ (not_ne i)]; exact h.proto _
      rw [if_neg (by rw [(hO.d.tr i).1]; exact fun hh => hh rfl)]
      exact fine_run c f _ _ hO trivial
    | rawWrite i inp =>
      cases inp with
      | data d =>
        rw [run]
        show Fine (rawWriteBody _ s i _)
        unfold rawWriteBody
        rw [(h.d.tr i).2]
        dsimp only
        rw [if_pos (h.proto _)]
        exact fine_run c f _ _ h trivial
      | int n => exact hk.elim
      | lost => exact hk.elim
    | close i => exact fun hr => ⟨.inr (open_close c (f + 1) s i h hr).1, fun hn => .inr ((open_close c (f + 1) s i h hr).2 hn)⟩
    | rawClose i => exact hk.elim
    | ownClose i => exact hk.elim
    | recv i inp =>
      cases inp with
      | data d =>
        exact fine_code c f (fun s k h => fine_run c f s k.call h (by cases k <;> trivial)) _ _
          (h.add (e := .got i d s.clock) (fun j => ⟨(fun hh => nomatch hh), (fun hh => nomatch hh)⟩))
      | int n => exact hk.elim
      | lost => exact hk.elim
    | later dt k =>
      have hO : Open (s.callLater dt (.user k)) := ⟨h.d.later dt k, h.closed, h.proto, fun x hx => by
        rcases List.mem_append.mp hx with hx | hx
        · exact h.log x hx
        · rw [List.mem_singleton.mp hx]; exact fun j => ⟨(fun hh => nomatch hh), (fun hh => nomatch hh)⟩⟩
      exact fun _ => ⟨.inl hO, fun _ => .inl hO⟩
    | raise k => exact fun _ => ⟨.inl h, fun _ => .inl h⟩

/-! ## A test -/

theorem pop_open {σ} {s : St σ} (h : Open s) {e : Entry} {rest : List Entry} (hs : s.sched = e :: rest) : Open (s.pop e rest) :=
  ⟨⟨h.d.tr, fun x hx => h.d.tasks x (by rw [hs]; exact List.mem_cons_of_mem _ hx)⟩, h.closed, h.proto, fun x hx => by
    rcases List.mem_append.mp hx with hx | hx
    · exact h.log x hx
    · rw [List.mem_singleton.mp hx]; exact fun j => ⟨(fun hh => nomatch hh), (fun hh => nomatch hh)⟩⟩

theorem pop_quiet {σ} {s : St σ} (h : D s) {e : Entry} {rest : List Entry} (hs : s.sched = e :: rest) : Quiet s (s.pop e rest) :=
  ⟨rfl, ⟨h.tr, fun x hx => h.tasks x (by rw [hs]; exact List.mem_cons_of_mem _ hx)⟩, [.ran e.num s.clock], rfl, fun x hx => by rw [List.mem_singleton.mp hx]; rfl⟩

/-- The loop, when both are closed. -/
theorem shut_runOnce {σ} (c : Cfg σ) : ∀ (n : Nat) (s : St σ), Shut s → Quiet s (runOnce c n s).1
  | 0, s, h => .refl h.d
  | n + 1, s, h => by
    rw [runOnce]
    rcases hs : s.sched with _ | ⟨e, rest⟩
    · exact .refl h.d
    · dsimp only
      split
      · have h1 := pop_quiet h.d hs
        obtain ⟨k, hk⟩ := h.d.tasks e (by rw [hs]; exact List.mem_cons_self ..)
        have h2 : Quiet s (runTask c (s.pop e rest) e.task).1 := by
          rw [hk]
          exact h1.trans (shut_code c c.depth (c.task k (s.pop e rest).app) _ (h1.shut h))
        rcases hr : runTask c (s.pop e rest) e.task with ⟨s', _ | x⟩
        · rw [hr] at h2
          exact h2.trans (shut_runOnce c n s' (h2.shut h))
        · rw [hr] at h2
          exact h2
      · exact .refl h.d

def FineOut {σ} (r : St σ × Out) : Prop := r.2 ≠ .raised .recursion → (Open r.1 ∨ Half r.1) ∧ (r.2.ok = true → Open r.1 ∨ Done r.1)

theorem fine_runOnce {σ} (c : Cfg σ) : ∀ (n : Nat) (s : St σ), Open s → FineOut (runOnce c n s)
  | 0, s, h => fun _ => ⟨.inl h, fun _ => .inl h⟩
  | n + 1, s, h => by
    rw [runOnce]
    rcases hs : s.sched with _ | ⟨e, rest⟩
    · exact fun _ => ⟨.inl h, fun _ => .inl h⟩
    · dsimp only
      split
      · have h1 := pop_open h hs
        obtain ⟨k, hk⟩ := h.d.tasks e (by rw [hs]; exact List.mem_cons_self ..)
        have h2 : Fine (runTask c (s.pop e rest) e.task) := by
          rw [hk]
          exact fine_code c c.depth (fun s k h => fine_run c c.depth s k.call h (by cases k <;> trivial)) (c.task k (s.pop e rest).app) _ h1
        rcases hr : runTask c (s.pop e rest) e.task with ⟨s', _ | x⟩
        · rw [hr] at h2
          rcases (h2 (fun hh => nomatch hh)).2 rfl with h3 | h3
          · exact fine_runOnce c n s' h3
          · have hq := shut_runOnce c n s' h3.shut
            exact fun _ => ⟨.inr (h3.quiet hq).half, fun _ => .inr (h3.quiet hq)⟩
        · rw [hr] at h2
          intro hx
          obtain ⟨i1, _⟩ := h2 (fun hh => hx (by cases hh; rfl))
          exact ⟨i1, fun hh => nomatch hh⟩
      · exact fun _ => ⟨.inl h, fun _ => .inl h⟩

theorem shut_act {σ} (c : Cfg σ) (s : St σ) (a : Act) (ha : a.steady = true) (h : Shut s) : Quiet s (act c s a).1 := by
  cases a with
  | cmd k => exact shut_cmd c c.depth s k h
  | advance dt n =>
    have := shut_runOnce c n { s with clock := s.clock + dt } ⟨⟨h.d.tr, h.d.tasks⟩, h.closed⟩
    exact ⟨this.t, this.d, this.log⟩
  | runOnce n => exact shut_runOnce c n s h
  | setClock now => exact ⟨rfl, ⟨h.d.tr, h.d.tasks⟩, [], by simp [act], fun _ h => nomatch h⟩
  | setDelay _ _ _ => cases ha
  | setProto _ => cases ha

theorem open_act {σ} (c : Cfg σ) (s : St σ) (a : Act) (ha : a.steady = true) (h : Open s) : FineOut (act c s a) := by
  cases a with
  | cmd k =>
    intro hx
    have h1 := fine_run c c.depth s k.call h (by cases k <;> trivial)
    change outOf (run c c.depth s k.call).2 ≠ _ at hx
    show (Open (run c c.depth s k.call).1 ∨ Half (run c c.depth s k.call).1) ∧ ((outOf (run c c.depth s k.call).2).ok = true → Open (run c c.depth s k.call).1 ∨ Done (run c c.depth s k.call).1)
    rcases hr : run c c.depth s k.call with ⟨s', _ | e⟩
    · rw [hr] at h1
      obtain ⟨i1, i2⟩ := h1 (fun hh => nomatch hh)
      exact ⟨i1, fun _ => i2 rfl⟩
    · rw [hr] at h1 hx
      obtain ⟨i1, i2⟩ := h1 (fun hh => hx (by cases hh; rfl))
      exact ⟨i1, fun hh => nomatch hh⟩
  | advance dt n => exact fine_runOnce c n _ ⟨⟨h.d.tr, h.d.tasks⟩, h.closed, h.proto, h.log⟩
  | runOnce n => exact fine_runOnce c n s h
  | setClock now =>
    have hO : Open { s with clock := now } := ⟨⟨h.d.tr, h.d.tasks⟩, h.closed, h.proto, h.log⟩
    exact fun _ => ⟨.inl hO, fun _ => .inl hO⟩
  | setDelay _ _ _ => cases ha
  | setProto _ => cases ha

theorem fine_exec {σ} (c : Cfg σ) : ∀ (h : List Act) (s : St σ), Open s ∨ Half s → (∀ a ∈ h, a.steady = true) → (∀ o ∈ (exec c s h).2, o ≠ .raised .recursion) →
    (Open (exec c s h).1 ∨ Half (exec c s h).1) ∧ (Open s ∨ Done s → (∀ o ∈ (exec c s h).2, o.ok = true) → Open (exec c s h).1 ∨ Done (exec c s h).1)
  | [], s, hO, _, _ => ⟨hO, fun h _ => h⟩
  | a :: h, s, hO, hp, ho => by
    rw [exec] at ho ⊢
    dsimp only at ho ⊢
    have ha := hp a (List.mem_cons_self ..)
    have hoa := ho _ (List.mem_cons_self ..)
    have hp' : ∀ b ∈ h, b.steady = true := fun b hb => hp b (List.mem_cons_of_mem _ hb)
    have ho' : ∀ o ∈ (exec c (act c s a).1 h).2, o ≠ .raised .recursion := fun o h => ho o (List.mem_cons_of_mem _ h)
    rcases hO with hO | hO
    · obtain ⟨i1, i2⟩ := open_act c s a ha hO hoa
      obtain ⟨j1, j2⟩ := fine_exec c h (act c s a).1 i1 hp' ho'
      exact ⟨j1, fun _ hk => j2 (i2 (hk _ (List.mem_cons_self ..))) fun o h => hk o (List.mem_cons_of_mem _ h)⟩
    · have hq := shut_act c s a ha hO.shut
      obtain ⟨j1, j2⟩ := fine_exec c h (act c s a).1 (.inr (hO.quiet hq)) hp' ho'
      refine ⟨j1, fun hd hk => ?_⟩
      rcases hd with hd | hd
      · have := hO.shut.closed true
        rw [hd.closed true] at this
        cases this
      · exact j2 (.inr (hd.quiet hq)) fun o h => hk o (List.mem_cons_of_mem _ h)

end Verif.Mock
