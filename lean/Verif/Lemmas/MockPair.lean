import Verif.Lemmas.MockLoop
/-! # Lemmas for C78: data between the transports of a pair -/
namespace Verif.Mock

theorem delivered_snoc : ∀ {ws rs : List (Bytes × Int)} {d : Bytes} {due now : Int}, Delivered ws rs → due ≤ now → Delivered (ws ++ [(d, due)]) (rs ++ [(d, now)])
  | [], [], _, _, _, _, h => ⟨rfl, h, trivial⟩
  | (_, _) :: _, (_, _) :: _, _, _, _, h, h' => ⟨h.1, h.2.1, delivered_snoc h.2.2 h'⟩
  | [], _ :: _, _, _, _, h, _ => h.elim
  | (_, _) :: _, [], _, _, _, h, _ => h.elim

theorem writes_append (l1 l2 : List Ev) (i : Bool) : writes (l1 ++ l2) i = writes l1 i ++ writes l2 i := by unfold writes; rw [List.filterMap_append]
theorem received_append (l1 l2 : List Ev) (i : Bool) : received (l1 ++ l2) i = received l1 i ++ received l2 i := by unfold received; rw [List.filterMap_append]
theorem dues_append (l1 l2 : List Ev) (i : Bool) (d : Int) : dues (l1 ++ l2) i d = dues l1 i d ++ dues l2 i d := by unfold dues; rw [writes_append, List.map_append]

/-- The writes to transport `i` in the schedule. -/
def taskWrite (i : Bool) (e : Entry) : Option (Bytes × Int) := match e.task with
  | .write j d => if j = i then some (d, e.due) else none
  | _ => none

def pend (l : List Entry) (i : Bool) : List (Bytes × Int) := l.filterMap (taskWrite i)

theorem pend_insert_none {x : Entry} {i : Bool} (h : taskWrite i x = none) : ∀ (l : List Entry), pend (insertEntry x l) i = pend l i
  | [] => by simp [insertEntry, pend, h]
  | y :: l => by
    rw [insertEntry]
    split
    · unfold pend; rw [List.filterMap_cons, h]
    · have := pend_insert_none h l
      unfold pend at this ⊢
      rw [List.filterMap_cons, List.filterMap_cons, this]

theorem pend_none {i : Bool} {l : List Entry} (h : ∀ e ∈ l, taskWrite i e = none) : pend l i = [] := List.filterMap_eq_nil_iff.mpr h

theorem pend_insert_some {x : Entry} {i : Bool} {p : Bytes × Int} (h : taskWrite i x = some p) : ∀ (l : List Entry), Sorted l →
    (∀ e ∈ l, taskWrite i e ≠ none → e.due ≤ x.due) → pend (insertEntry x l) i = pend l i ++ [p]
  | [], _, _ => by simp [insertEntry, pend, h]
  | y :: l, hs, he => by
    have hp := List.pairwise_cons.mp hs
    rw [insertEntry]
    split
    · next hlt =>
      have hall : ∀ e ∈ y :: l, taskWrite i e = none := by
        intro e hm
        by_cases hn : taskWrite i e = none
        · exact hn
        · have h1 := he e hm hn
          rcases List.mem_cons.mp hm with rfl | hm
          · omega
          · rcases hp.1 e hm with h2 | h2 <;> omega
      have h1 := pend_none hall
      unfold pend at h1 ⊢
      rw [List.filterMap_cons, h, h1]
      rfl
    · have := pend_insert_some h l hp.2 fun e hm => he e (List.mem_cons_of_mem _ hm)
      unfold pend at this ⊢
      rw [List.filterMap_cons, List.filterMap_cons, this]
      rcases taskWrite i y with _ | q <;> rfl

/-- The pair, with its delays. -/
structure B {σ} (delay : Bool → Int) (s : St σ) : Prop where
  tr : ∀ i, (s.t i).delay = delay i ∧ (delay i ≠ 0 → (s.t i).loop = true) ∧ (s.t i).sink = .remote
  loop : L s
  early : ∀ i, ∀ e ∈ s.sched, taskWrite i e ≠ none → e.due ≤ s.clock + delay i
  slow : ∀ i, ∀ e ∈ s.sched, taskWrite i e ≠ none → delay i ≠ 0

/-- All data is accounted for: what has come, what is on its way in the call in hand, and what is in the schedule. -/
def Bal {σ} (delay : Bool → Int) (s : St σ) (owed : Bool → List (Bytes × Int)) : Prop :=
  ∀ i, ∃ ws, dues s.log i (delay i) = ws ++ owed i ++ pend s.sched i ∧ Delivered ws (received s.log !i)

def nothing : Bool → List (Bytes × Int) := fun _ => []

/-- The data that the call has in hand. -/
def Owes (now : Int) (owed : Bool → List (Bytes × Int)) : Call → Prop
  | .rawWrite i (.data d) => (∃ due, due ≤ now ∧ owed i = [(d, due)]) ∧ owed (!i) = []
  | .recv i (.data d) => (∃ due, due ≤ now ∧ owed (!i) = [(d, due)]) ∧ owed i = []
  | _ => owed = nothing

theorem owed_of {i : Bool} {owed : Bool → List (Bytes × Int)} (h1 : owed i = []) (h2 : owed (!i) = []) : owed = nothing := by
  funext j
  cases i <;> cases j <;> simp_all [nothing]

def Err.bad : Err → Bool
  | .recursion | .remoteClosed => true
  | _ => false

theorem B.setT {σ} {delay} {s : St σ} (h : B delay s) (i : Bool) (x : Tr) (hx : x.delay = (s.t i).delay ∧ x.loop = (s.t i).loop ∧ x.sink = (s.t i).sink) : B delay (s.setT i x) :=
  ⟨fun j => by
    unfold St.setT
    dsimp only
    split
    · next he => subst he; rw [hx.1, hx.2.1, hx.2.2]; exact h.tr j
    · exact h.tr j,
   h.loop.congr rfl rfl rfl, h.early, h.slow⟩

theorem B.app {σ} {delay} {s : St σ} (h : B delay s) (a : σ) : B delay { s with app := a } := ⟨h.tr, h.loop.congr rfl rfl rfl, h.early, h.slow⟩
theorem B.add {σ} {delay} {s : St σ} (h : B delay s) {e : Ev} (he : e.isLoop = false) : B delay (s.add e) := ⟨h.tr, h.loop.add he, h.early, h.slow⟩

theorem B.later {σ} {delay} {s : St σ} (h : B delay s) (dt : Int) (k : Task) (hk : ∀ i, taskWrite i ⟨s.clock + dt, s.next, k⟩ ≠ none → dt = delay i ∧ delay i ≠ 0) : B delay (s.callLater dt k) := by
  have hs : (s.callLater dt k).sched = insertEntry ⟨s.clock + dt, s.next, k⟩ s.sched := sortEntries_snoc h.loop.sorted _
  refine ⟨h.tr, h.loop.later dt k, fun i e he hn => ?_, fun i e he hn => ?_⟩
  · rw [hs] at he
    show e.due ≤ s.clock + delay i
    rcases (insertEntry_mem _ _ _).mp he with rfl | he
    · have := (hk i hn).1
      show s.clock + dt ≤ _
      omega
    · exact h.early i e he hn
  · rw [hs] at he
    rcases (insertEntry_mem _ _ _).mp he with rfl | he
    · exact (hk i hn).2
    · exact h.slow i e he hn

theorem taskWrite_user (i : Bool) (due : Int) (n k : Nat) : taskWrite i ⟨due, n, .user k⟩ = none := rfl
theorem taskWrite_close (i j : Bool) (due : Int) (n : Nat) : taskWrite i ⟨due, n, .close j⟩ = none := rfl

theorem later_pend {σ} {delay} {s : St σ} (h : B delay s) (dt : Int) (k : Task) (i : Bool) (hk : taskWrite i ⟨s.clock + dt, s.next, k⟩ = none) :
    pend (s.callLater dt k).sched i = pend s.sched i := by
  have hs : (s.callLater dt k).sched = insertEntry ⟨s.clock + dt, s.next, k⟩ s.sched := sortEntries_snoc h.loop.sorted _
  rw [hs, pend_insert_none hk]

/-- What does not change the data keeps the account. -/
theorem Bal.congr {σ} {delay} {s s' : St σ} {owed} (h : Bal delay s owed) (h1 : ∀ i, writes s'.log i = writes s.log i) (h2 : ∀ i, received s'.log i = received s.log i)
    (h3 : ∀ i, pend s'.sched i = pend s.sched i) : Bal delay s' owed := by
  intro i
  obtain ⟨ws, e1, e2⟩ := h i
  exact ⟨ws, by unfold dues at e1 ⊢; rw [h1, h3, e1], by rw [h2]; exact e2⟩

theorem Bal.later {σ} {delay} {s : St σ} {owed} (h : Bal delay s owed) (hB : B delay s) (dt : Int) (k : Task) (hk : ∀ i, taskWrite i ⟨s.clock + dt, s.next, k⟩ = none) :
    Bal delay (s.callLater dt k) owed :=
  h.congr (fun i => by show writes (s.log ++ _) i = _; rw [writes_append]; simp [writes]) (fun i => by show received (s.log ++ _) i = _; rw [received_append]; simp [received])
    fun i => later_pend hB dt k i (hk i)

/-- A good end of a call: everything is accounted for. -/
def Good {σ} (delay : Bool → Int) (s : St σ) (r : St σ × Option Err) : Prop :=
  B delay r.1 ∧ r.1.clock = s.clock ∧ ((∀ e, r.2 = some e → e.bad = false) → Bal delay r.1 nothing)

theorem good_code {σ} {delay} {rec : Rec σ} (hrec : ∀ s k owed, B delay s → Owes s.clock owed k → Bal delay s owed → Good delay s (rec s k)) :
    ∀ (code : Code σ) (s : St σ), B delay s → Bal delay s nothing → Good delay s (runCode rec s code)
  | [], s, h, hb => ⟨h, rfl, fun _ => hb⟩
  | ins :: code, s, h, hb => by
    rw [runCode]
    rcases hi : ins s.app with ⟨a, _ | cmd⟩
    · exact good_code hrec code { s with app := a } (h.app a) (hb.congr (fun _ => rfl) (fun _ => rfl) fun _ => rfl)
    · dsimp only
      have h1 := hrec { s with app := a } cmd.call nothing (h.app a) (by cases cmd <;> exact rfl) (hb.congr (fun _ => rfl) (fun _ => rfl) fun _ => rfl)
      rcases hr : rec { s with app := a } cmd.call with ⟨s', _ | e⟩
      · rw [hr] at h1
        obtain ⟨i1, i2, i3⟩ := h1
        obtain ⟨j1, j2, j3⟩ := good_code hrec code s' i1 (i3 (fun e he => nomatch he))
        exact ⟨j1, j2.trans i2, j3⟩
      · rw [hr] at h1
        exact h1

theorem good_run {σ} {delay} (c : Cfg σ) : ∀ (f : Nat) (s : St σ) (k : Call) (owed : Bool → List (Bytes × Int)), B delay s → Owes s.clock owed k → Bal delay s owed →
    Good delay s (run c f s k)
  | 0, s, k, owed, h, _, _ => ⟨h, rfl, fun hh => by have := hh .recursion rfl; cases this⟩
  | f + 1, s, k, owed, h, ho, hb => by
    have hrec := good_run (delay := delay) c f
    rw [run]
    cases k with
    | write i d =>
      have ho : owed = nothing := ho
      subst ho
      show Good delay s (writeBody _ s i d)
      unfold writeBody
      have hB1 : B delay ((s.setT i { s.t i with count := (s.t i).count + 1 }).add (.wrote i d s.clock)) := by
        refine B.add (B.setT h i _ ?_) rfl
        exact ⟨rfl, rfl, rfl⟩
      generalize hs1 : (s.setT i { s.t i with count := (s.t i).count + 1 }).add (.wrote i d s.clock) = s1 at hB1
      have hlog : s1.log = s.log ++ [.wrote i d s.clock] := by rw [← hs1]; rfl
      have hsch : s1.sched = s.sched := by rw [← hs1]; rfl
      have hck : s1.clock = s.clock := by rw [← hs1]; rfl
      have hd1 : dues s1.log i (delay i) = dues s.log i (delay i) ++ [(d, s.clock + delay i)] := by
        rw [hlog, dues_append]
        simp [dues, writes]
      have hd2 : dues s1.log (!i) (delay !i) = dues s.log (!i) (delay !i) := by
        rw [hlog, dues_append]
        cases i <;> simp [dues, writes]
      have hr1 : ∀ j, received s1.log j = received s.log j := fun j => by rw [hlog, received_append]; simp [received]
      split
      · exact ⟨h, rfl, fun _ => hb⟩
      · dsimp only
        have htr := hB1.tr i
        split
        · next hnz =>
          rw [htr.1] at hnz
          unfold schedule
          rw [if_pos (htr.2.1 hnz), htr.1]
          have hw : taskWrite i ⟨s1.clock + delay i, s1.next, .write i d⟩ = some (d, s1.clock + delay i) := by simp [taskWrite]
          have hw' : taskWrite (!i) ⟨s1.clock + delay i, s1.next, .write i d⟩ = none := by cases i <;> simp [taskWrite]
          have hk : ∀ j, taskWrite j ⟨s1.clock + delay i, s1.next, .write i d⟩ ≠ none → delay i = delay j ∧ delay j ≠ 0 := by
            intro j hj
            by_cases he : j = i
            · subst he; exact ⟨rfl, hnz⟩
            · have : j = !i := by cases i <;> cases j <;> simp_all
              rw [this] at hj
              exact absurd hw' hj
          have hs : (s1.callLater (delay i) (.write i d)).sched = insertEntry ⟨s1.clock + delay i, s1.next, .write i d⟩ s1.sched := sortEntries_snoc hB1.loop.sorted _
          refine ⟨hB1.later _ _ hk, hck, fun _ j => ?_⟩
          have hlg : (s1.callLater (delay i) (.write i d)).log = s1.log ++ [.called s1.next (s1.clock + delay i)] := rfl
          have hdl : ∀ j x, dues (s1.callLater (delay i) (.write i d)).log j x = dues s1.log j x := fun j x => by rw [hlg, dues_append]; simp [dues, writes]
          have hrl : ∀ j, received (s1.callLater (delay i) (.write i d)).log j = received s.log j := fun j => by rw [hlg, received_append, hr1]; simp [received]
          obtain ⟨ws, e1, e2⟩ := hb j
          refine ⟨ws, ?_, by rw [hrl]; exact e2⟩
          rw [hdl]
          by_cases he : j = i
          · subst he
            rw [hd1, e1, hs, pend_insert_some hw _ hB1.loop.sorted fun e hm hn => hB1.early j e hm hn, hsch, hck]
            simp [nothing]
          · have hj : j = !i := by cases i <;> cases j <;> simp_all
            subst hj
            rw [hd2, e1, later_pend hB1 _ _ _ hw', hsch]
        · next hz =>
          rw [htr.1] at hz
          have hz : delay i = 0 := Decidable.byContradiction hz
          have hpend : pend s.sched i = [] := pend_none fun e hm => Decidable.byContradiction fun hn => h.slow i e hm hn hz
          have hg := hrec s1 (.rawWrite i (.data d)) (fun j => if j = i then [(d, s.clock)] else []) hB1
            ⟨⟨s.clock, by rw [hck]; exact Int.le_refl _, if_pos rfl⟩, by cases i <;> rfl⟩ (fun j => by
              obtain ⟨ws, e1, e2⟩ := hb j
              refine ⟨ws, ?_, by rw [hr1]; exact e2⟩
              by_cases he : j = i
              · subst he
                rw [hd1, e1, hsch, hpend, hz]
                simp [nothing]
              · have hj : j = !i := by cases i <;> cases j <;> simp_all
                subst hj
                rw [hd2, e1, hsch]
                cases i <;> simp [nothing])
          exact ⟨hg.1, hg.2.1.trans hck, hg.2.2⟩
    | rawWrite i inp =>
      show Good delay s (rawWriteBody _ s i inp)
      unfold rawWriteBody
      rw [(h.tr i).2.2]
      dsimp only
      split
      · cases inp with
        | data d =>
          obtain ⟨⟨due, h1, h2⟩, h3⟩ := ho
          exact hrec s (.recv (!i) (.data d)) owed h ⟨⟨due, h1, by rw [Bool.not_not]; exact h2⟩, h3⟩ hb
        | int n => exact hrec s (.recv (!i) (.int n)) owed h ho hb
        | lost => exact hrec s (.recv (!i) .lost) owed h ho hb
      · exact ⟨h, rfl, fun hh => by have := hh .remoteClosed rfl; cases this⟩
    | close i =>
      have ho : owed = nothing := ho
      subst ho
      show Good delay s (closeBody _ s i)
      unfold closeBody
      have hB1 : B delay ((s.setT i { s.t i with closed := true }).add (.closing i)) := by
        refine B.add (B.setT h i _ ?_) rfl
        exact ⟨rfl, rfl, rfl⟩
      have hb1 : Bal delay ((s.setT i { s.t i with closed := true }).add (.closing i)) nothing :=
        hb.congr (fun j => by show writes (s.log ++ [.closing i]) j = _; rw [writes_append]; simp [writes])
          (fun j => by show received (s.log ++ [.closing i]) j = _; rw [received_append]; simp [received]) fun _ => rfl
      split
      · exact ⟨h, rfl, fun _ => hb⟩
      · dsimp only
        split
        · next hnz =>
          unfold schedule
          rw [(hB1.tr i).1] at hnz
          rw [if_pos ((hB1.tr i).2.1 hnz)]
          exact ⟨hB1.later _ _ fun j hj => absurd (taskWrite_close ..) hj, rfl, fun _ => hb1.later hB1 _ _ fun j => taskWrite_close ..⟩
        · exact hrec _ (.rawClose i) nothing hB1 rfl hb1
    | rawClose i =>
      have ho : owed = nothing := ho
      subst ho
      show Good delay s (rawCloseBody _ s i)
      unfold rawCloseBody
      rw [(h.tr i).2.2]
      dsimp only
      have h1 := hrec s (.close !i) nothing h rfl hb
      rcases hr : run c f s (.close !i) with ⟨s', _ | e⟩
      · rw [hr] at h1
        obtain ⟨i1, i2, i3⟩ := h1
        have := hrec s' (.ownClose i) nothing i1 rfl (i3 (fun e he => nomatch he))
        exact ⟨this.1, this.2.1.trans i2, this.2.2⟩
      · rw [hr] at h1
        exact h1
    | ownClose i =>
      have ho : owed = nothing := ho
      subst ho
      show Good delay s (ownCloseBody _ s i)
      unfold ownCloseBody
      split
      · have h1 := hrec s (.recv i .lost) nothing h rfl hb
        rcases hr : run c f s (.recv i .lost) with ⟨s', _ | e⟩
        · rw [hr] at h1
          obtain ⟨i1, i2, i3⟩ := h1
          exact ⟨i1.setT i _ ⟨rfl, rfl, rfl⟩, i2, fun _ => (i3 (fun e he => nomatch he)).congr (fun _ => rfl) (fun _ => rfl) fun _ => rfl⟩
        · rw [hr] at h1
          exact h1
      · exact ⟨h, rfl, fun _ => hb⟩
    | recv i inp =>
      have hB1 : B delay (s.add (inputEv i s.clock inp)) := h.add (by cases inp <;> rfl)
      refine good_code hrec _ _ hB1 ?_
      cases inp with
      | data d =>
        obtain ⟨⟨due, h1, h2⟩, h3⟩ := ho
        intro j
        obtain ⟨ws, e1, e2⟩ := hb j
        have hw : ∀ x, dues (s.add (inputEv i s.clock (.data d))).log j x = dues s.log j x := fun x => by
          show dues (s.log ++ [.got i d s.clock]) j x = _
          rw [dues_append]; simp [dues, writes]
        have hr : received (s.add (inputEv i s.clock (.data d))).log (!j) = received s.log (!j) ++ (if i = !j then [(d, s.clock)] else []) := by
          show received (s.log ++ [.got i d s.clock]) _ = _
          rw [received_append]
          congr 1
          by_cases he : i = !j <;> simp [received, he]
        rw [hr]
        by_cases he : i = !j
        · have hj : j = !i := by rw [he, Bool.not_not]
          rw [hj, h2] at e1
          refine ⟨ws ++ [(d, due)], ?_, ?_⟩
          · rw [hw, hj, e1]
            simp [nothing, St.add]
          · rw [if_pos he]
            exact delivered_snoc e2 h1
        · have hj : j = i := by cases i <;> cases j <;> simp_all
          subst hj
          rw [h3] at e1
          refine ⟨ws, ?_, ?_⟩
          · rw [hw, e1]
            simp [nothing, St.add]
          · rw [if_neg he, List.append_nil]
            exact e2
      | int n =>
        have ho : owed = nothing := ho
        subst ho
        exact hb.congr (fun j => by show writes (s.log ++ [.gotInt i n]) j = _; rw [writes_append]; simp [writes])
          (fun j => by show received (s.log ++ [.gotInt i n]) j = _; rw [received_append]; simp [received]) fun _ => rfl
      | lost =>
        have ho : owed = nothing := ho
        subst ho
        exact hb.congr (fun j => by show writes (s.log ++ [.lost i]) j = _; rw [writes_append]; simp [writes])
          (fun j => by show received (s.log ++ [.lost i]) j = _; rw [received_append]; simp [received]) fun _ => rfl
    | later dt k =>
      have ho : owed = nothing := ho
      subst ho
      exact ⟨h.later _ _ fun j hj => absurd (taskWrite_user ..) hj, rfl, fun _ => hb.later h _ _ fun j => taskWrite_user ..⟩
    | raise k =>
      have ho : owed = nothing := ho
      subst ho
      exact ⟨h, rfl, fun _ => hb⟩

/-- The outcome of an action of the test. -/
def Out.bad : Out → Bool
  | .raised e => e.bad
  | _ => false

theorem good_task {σ} {delay} (c : Cfg σ) (hsp : c.splat = true → ∀ i, delay i = 0) (s : St σ) (e : Entry) (rest : List Entry) (hs : s.sched = e :: rest) (hd : e.due ≤ s.clock)
    (h : B delay s) (hb : Bal delay s nothing) : Good delay s (runTask c (s.pop e rest) e.task) := by
  have hB : B delay (s.pop e rest) := ⟨h.tr, h.loop.pop hs hd, fun i x hx => h.early i x (by rw [hs]; exact List.mem_cons_of_mem _ hx),
    fun i x hx => h.slow i x (by rw [hs]; exact List.mem_cons_of_mem _ hx)⟩
  have hw : ∀ j x, dues (s.pop e rest).log j x = dues s.log j x := fun j x => by
    show dues (s.log ++ [.ran e.num s.clock]) j x = _
    rw [dues_append]; simp [dues, writes]
  have hr : ∀ j, received (s.pop e rest).log j = received s.log j := fun j => by
    show received (s.log ++ [.ran e.num s.clock]) j = _
    rw [received_append]; simp [received]
  have hbal : ∀ (owed : Bool → List (Bytes × Int)), (∀ i, pend (e :: rest) i = owed i ++ pend rest i) → Bal delay (s.pop e rest) owed := by
    intro owed ho i
    obtain ⟨ws, e1, e2⟩ := hb i
    refine ⟨ws, ?_, by rw [hr]; exact e2⟩
    rw [hw, e1, hs, ho]
    simp [nothing, St.pop]
  cases hk : e.task with
  | user k => exact good_code (good_run c _) _ _ hB (hbal _ fun i => by simp [pend, nothing, taskWrite, hk])
  | close i => exact good_run c _ _ (.rawClose i) nothing hB rfl (hbal _ fun i => by simp [pend, nothing, taskWrite, hk])
  | write i d =>
    have hsl : delay i ≠ 0 := h.slow i e (by rw [hs]; exact List.mem_cons_self ..) (by simp [taskWrite, hk])
    show Good delay s (runWrite c _ i d)
    unfold runWrite
    rw [if_neg (fun hh => hsl (hsp hh i))]
    refine good_run c _ _ (.rawWrite i (.data d)) (fun j => if j = i then [(d, e.due)] else []) hB ⟨⟨e.due, hd, if_pos rfl⟩, by cases i <;> rfl⟩ (hbal _ fun j => ?_)
    cases i <;> cases j <;> simp [pend, taskWrite, hk]

theorem good_runOnce {σ} {delay} (c : Cfg σ) (hsp : c.splat = true → ∀ i, delay i = 0) : ∀ (n : Nat) (s : St σ), B delay s → Bal delay s nothing →
    B delay (runOnce c n s).1 ∧ ((runOnce c n s).2.bad = false → Bal delay (runOnce c n s).1 nothing)
  | 0, s, h, hb => ⟨h, fun _ => hb⟩
  | n + 1, s, h, hb => by
    rw [runOnce]
    rcases hs : s.sched with _ | ⟨e, rest⟩
    · exact ⟨h, fun _ => hb⟩
    · dsimp only
      split
      · next hd =>
        obtain ⟨h1, h2, h3⟩ := good_task c hsp s e rest hs hd h hb
        rcases hr : runTask c (s.pop e rest) e.task with ⟨s', _ | x⟩
        · rw [hr] at h1 h3
          exact good_runOnce c hsp n s' h1 (h3 (fun e he => nomatch he))
        · rw [hr] at h1 h3
          exact ⟨h1, fun hx => h3 (fun e he => by cases he; exact hx)⟩
      · exact ⟨h, fun _ => hb⟩

theorem good_exec {σ} {delay} (c : Cfg σ) (hsp : c.splat = true → ∀ i, delay i = 0) : ∀ (h : List Act) (s : St σ), B delay s → Bal delay s nothing →
    (∀ a ∈ h, a.plain = true ∨ ((∀ i, delay i = 0) ∧ a.steady = true)) → (∀ o ∈ (exec c s h).2, o.bad = false) → B delay (exec c s h).1 ∧ Bal delay (exec c s h).1 nothing
  | [], s, hB, hb, _, _ => ⟨hB, hb⟩
  | a :: h, s, hB, hb, hp, ho => by
    rw [exec] at ho ⊢
    dsimp only at ho ⊢
    have ha := hp a (List.mem_cons_self ..)
    have hoa := ho _ (List.mem_cons_self ..)
    suffices hg : B delay (act c s a).1 ∧ Bal delay (act c s a).1 nothing from
      good_exec c hsp h _ hg.1 hg.2 (fun b hb' => hp b (List.mem_cons_of_mem _ hb')) fun o ho' => ho o (List.mem_cons_of_mem _ ho')
    cases a with
    | cmd k =>
      obtain ⟨h1, h2, h3⟩ := good_run c c.depth s k.call nothing hB (by cases k <;> exact rfl) hb
      refine ⟨h1, h3 fun e he => ?_⟩
      change (outOf (run c c.depth s k.call).2).bad = false at hoa
      rw [he] at hoa
      exact hoa
    | advance dt n =>
      have hB1 : B delay { s with clock := s.clock + dt } := ⟨hB.tr, hB.loop.congr rfl rfl rfl, fun i e he hn => by
        have := hB.early i e he hn
        rcases ha with ha | ha
        · have hdt : 0 ≤ dt := of_decide_eq_true ha
          show e.due ≤ s.clock + dt + delay i
          omega
        · exact absurd (ha.1 i) (hB.slow i e he hn), hB.slow⟩
      obtain ⟨h1, h2⟩ := good_runOnce c hsp n _ hB1 (hb.congr (fun _ => rfl) (fun _ => rfl) fun _ => rfl)
      exact ⟨h1, h2 hoa⟩
    | runOnce n =>
      obtain ⟨h1, h2⟩ := good_runOnce c hsp n s hB hb
      exact ⟨h1, h2 hoa⟩
    | setClock now =>
      rcases ha with ha | ha
      · cases ha
      · exact ⟨⟨hB.tr, hB.loop.congr rfl rfl rfl, fun i e he hn => absurd (ha.1 i) (hB.slow i e he hn), hB.slow⟩, hb.congr (fun _ => rfl) (fun _ => rfl) fun _ => rfl⟩
    | setDelay _ _ _ => rcases ha with ha | ha <;> cases ha <;> contradiction
    | setProto _ => rcases ha with ha | ha <;> cases ha <;> contradiction

theorem B_delayed {σ} (app : σ) (delay : Bool → Int) : B delay (delayed app delay) ∧ Bal delay (delayed app delay) nothing := by
  refine ⟨⟨fun i => ⟨rfl, fun _ => rfl, rfl⟩, L_init rfl rfl, fun i e he => (nomatch he), fun i e he => (nomatch he)⟩, fun i => ⟨[], rfl, trivial⟩⟩

theorem B_pair {σ} (app : σ) (proto : Bool → Bool) : B (fun _ => 0) (St.pair app proto) ∧ Bal (fun _ => 0) (St.pair app proto) nothing :=
  ⟨⟨fun i => ⟨rfl, fun h => absurd rfl h, rfl⟩, L_init rfl rfl, fun i e he => (nomatch he), fun i e he => (nomatch he)⟩, fun i => ⟨[], rfl, trivial⟩⟩

end Verif.Mock
