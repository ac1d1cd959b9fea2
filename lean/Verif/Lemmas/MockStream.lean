import Verif.Lemmas.MockClose
import Verif.Lemmas.MockPair
/-! # Lemmas for C78: transports to streams, and the number of writes -/
namespace Verif.Mock

theorem storedData_append (l1 l2 : List Ev) (i : Bool) : storedData (l1 ++ l2) i = storedData l1 i ++ storedData l2 i := by unfold storedData; rw [List.filterMap_append]

structure SD {σ} (s : St σ) : Prop where
  tr : ∀ i, (s.t i).delay = 0 ∧ (s.t i).sink = .stream
  tasks : ∀ e ∈ s.sched, ∃ k, e.task = .user k

/-- The stream has what was written, but for the data in hand. -/
def SBal {σ} (s : St σ) (owed : Bool → List Bytes) : Prop := ∀ i, (writes s.log i).map (·.1) = storedData s.log i ++ owed i

def SOwes (owed : Bool → List Bytes) : Call → Prop
  | .rawWrite i (.data d) => owed = fun j => if j = i then [d] else []
  | .rawWrite .. | .recv _ (.data _) | .recv _ (.int _) => False
  | _ => owed = fun _ => []

theorem SBal.congr {σ} {s s' : St σ} {owed} (h : SBal s owed) (h1 : ∀ i, writes s'.log i = writes s.log i) (h2 : ∀ i, storedData s'.log i = storedData s.log i) : SBal s' owed :=
  fun i => by rw [h1, h2]; exact h i

def SGood {σ} (r : St σ × Option Err) : Prop := SD r.1 ∧ Mild r.2 ∧ (r.2 ≠ some .recursion → SBal r.1 fun _ => [])

theorem SD.setT {σ} {s : St σ} (h : SD s) (i : Bool) (x : Tr) (hx : x.delay = (s.t i).delay ∧ x.sink = (s.t i).sink) : SD (s.setT i x) :=
  ⟨fun j => by
    unfold St.setT
    dsimp only
    split
    · next he => subst he; rw [hx.1, hx.2]; exact h.tr j
    · exact h.tr j, h.tasks⟩

theorem SD.later {σ} {s : St σ} (h : SD s) (dt : Int) (k : Nat) : SD (s.callLater dt (.user k)) :=
  ⟨h.tr, fun e he => by
    rcases List.mem_append.mp ((sortEntries_mem _ _).mp he) with he | he
    · exact h.tasks e he
    · rw [List.mem_singleton] at he
      rw [he]
      exact ⟨k, rfl⟩⟩

theorem stream_code {σ} {rec : Rec σ} (hrec : ∀ s k owed, SD s → SOwes owed k → SBal s owed → SGood (rec s k)) : ∀ (code : Code σ) (s : St σ), SD s → SBal s (fun _ => []) →
    SGood (runCode rec s code)
  | [], s, h, hb => ⟨h, mild_none, fun _ => hb⟩
  | ins :: code, s, h, hb => by
    rw [runCode]
    rcases hi : ins s.app with ⟨a, _ | cmd⟩
    · exact stream_code hrec code { s with app := a } ⟨h.tr, h.tasks⟩ (hb.congr (fun _ => rfl) fun _ => rfl)
    · dsimp only
      have h1 := hrec { s with app := a } cmd.call _ ⟨h.tr, h.tasks⟩ (by cases cmd <;> exact rfl) (hb.congr (fun _ => rfl) fun _ => rfl)
      rcases hr : rec { s with app := a } cmd.call with ⟨s', _ | e⟩
      · rw [hr] at h1
        exact stream_code hrec code s' h1.1 (h1.2.2 (fun hh => nomatch hh))
      · rw [hr] at h1
        exact h1

theorem stream_run {σ} (c : Cfg σ) : ∀ (f : Nat) (s : St σ) (k : Call) (owed : Bool → List Bytes), SD s → SOwes owed k → SBal s owed → SGood (run c f s k)
  | 0, s, k, owed, h, _, _ => ⟨h, mild_recursion, fun hh => absurd rfl hh⟩
  | f + 1, s, k, owed, h, ho, hb => by
    have hrec := stream_run c f
    rw [run]
    cases k with
    | write i d =>
      have ho : owed = fun _ => [] := ho
      subst ho
      show SGood (writeBody _ s i d)
      unfold writeBody
      split
      · exact ⟨h, mild_none, fun _ => hb⟩
      · dsimp only
        have hS : SD ((s.setT i { s.t i with count := (s.t i).count + 1 }).add (.wrote i d s.clock)) := by
          have := SD.setT h i { s.t i with count := (s.t i).count + 1 } ⟨rfl, rfl⟩
          exact ⟨this.tr, this.tasks⟩
        rw [if_neg (by rw [(hS.tr i).1]; exact fun hh => hh rfl)]
        refine hrec _ (.rawWrite i (.data d)) _ hS rfl fun j => ?_
        show (writes (s.log ++ [.wrote i d s.clock]) j).map (·.1) = storedData (s.log ++ [.wrote i d s.clock]) j ++ _
        rw [writes_append, storedData_append, List.map_append, hb j]
        cases i <;> cases j <;> simp [writes, storedData]
    | rawWrite i inp =>
      cases inp with
      | data d =>
        have ho : owed = fun j => if j = i then [d] else [] := ho
        subst ho
        show SGood (rawWriteBody _ s i _)
        unfold rawWriteBody
        rw [(h.tr i).2]
        refine ⟨⟨h.tr, h.tasks⟩, mild_none, fun _ j => ?_⟩
        show (writes (s.log ++ [.stored i d]) j).map (·.1) = storedData (s.log ++ [.stored i d]) j ++ []
        rw [writes_append, storedData_append, List.map_append, hb j]
        cases i <;> cases j <;> simp [writes, storedData]
      | int n => exact ho.elim
      | lost => exact ho.elim
    | close i =>
      have ho : owed = fun _ => [] := ho
      subst ho
      show SGood (closeBody _ s i)
      unfold closeBody
      split
      · exact ⟨h, mild_none, fun _ => hb⟩
      · dsimp only
        have hS : SD ((s.setT i { s.t i with closed := true }).add (.closing i)) := by
          have := SD.setT h i { s.t i with closed := true } ⟨rfl, rfl⟩
          exact ⟨this.tr, this.tasks⟩
        rw [if_neg (by rw [(hS.tr i).1]; exact fun hh => hh rfl)]
        exact hrec _ (.rawClose i) _ hS rfl (hb.congr (fun j => by show writes (s.log ++ [.closing i]) j = _; rw [writes_append]; simp [writes])
          fun j => by show storedData (s.log ++ [.closing i]) j = _; rw [storedData_append]; simp [storedData])
    | rawClose i =>
      have ho : owed = fun _ => [] := ho
      subst ho
      show SGood (rawCloseBody _ s i)
      unfold rawCloseBody
      rw [(h.tr i).2]
      exact hrec s (.ownClose i) _ h rfl hb
    | ownClose i =>
      have ho : owed = fun _ => [] := ho
      subst ho
      show SGood (ownCloseBody _ s i)
      unfold ownCloseBody
      split
      · have h1 := hrec s (.recv i .lost) _ h rfl hb
        rcases hr : run c f s (.recv i .lost) with ⟨s', _ | e⟩
        · rw [hr] at h1
          exact ⟨h1.1.setT i _ ⟨rfl, rfl⟩, mild_none, fun _ => (h1.2.2 (fun hh => nomatch hh)).congr (fun _ => rfl) fun _ => rfl⟩
        · rw [hr] at h1
          exact h1
      · exact ⟨h, mild_none, fun _ => hb⟩
    | recv i inp =>
      cases inp with
      | data d => exact ho.elim
      | int n => exact ho.elim
      | lost =>
        have ho : owed = fun _ => [] := ho
        subst ho
        exact stream_code hrec (c.recv i .lost s.app) (s.add (.lost i)) ⟨h.tr, h.tasks⟩
          (hb.congr (fun j => by show writes (s.log ++ [.lost i]) j = _; rw [writes_append]; simp [writes])
            fun j => by show storedData (s.log ++ [.lost i]) j = _; rw [storedData_append]; simp [storedData])
    | later dt k =>
      have ho : owed = fun _ => [] := ho
      subst ho
      exact ⟨h.later dt k, mild_none, fun _ => hb.congr (fun j => by show writes (s.log ++ _) j = _; rw [writes_append]; simp [writes])
        fun j => by show storedData (s.log ++ _) j = _; rw [storedData_append]; simp [storedData]⟩
    | raise k =>
      have ho : owed = fun _ => [] := ho
      subst ho
      exact ⟨h, mild_own k, fun _ => hb⟩

theorem stream_runOnce {σ} (c : Cfg σ) : ∀ (n : Nat) (s : St σ), SD s → SBal s (fun _ => []) →
    SD (runOnce c n s).1 ∧ MildOut (runOnce c n s).2 ∧ ((runOnce c n s).2 ≠ .raised .recursion → SBal (runOnce c n s).1 fun _ => [])
  | 0, s, h, hb => ⟨h, (fun _ h => nomatch h), fun _ => hb⟩
  | n + 1, s, h, hb => by
    rw [runOnce]
    rcases hs : s.sched with _ | ⟨e, rest⟩
    · exact ⟨h, (fun _ h => nomatch h), fun _ => hb⟩
    · dsimp only
      split
      · obtain ⟨k, hk⟩ := h.tasks e (by rw [hs]; exact List.mem_cons_self ..)
        have h1 : SGood (runTask c (s.pop e rest) e.task) := by
          rw [hk]
          exact stream_code (stream_run c c.depth) (c.task k (s.pop e rest).app) (s.pop e rest) ⟨h.tr, fun x hx => h.tasks x (by rw [hs]; exact List.mem_cons_of_mem _ hx)⟩
            (hb.congr (fun j => by show writes (s.log ++ _) j = _; rw [writes_append]; simp [writes])
              fun j => by show storedData (s.log ++ _) j = _; rw [storedData_append]; simp [storedData])
        rcases hr : runTask c (s.pop e rest) e.task with ⟨s', _ | x⟩
        · rw [hr] at h1
          exact stream_runOnce c n s' h1.1 (h1.2.2 (fun hh => nomatch hh))
        · rw [hr] at h1
          exact ⟨h1.1, fun y hy => by cases hy; exact h1.2.1 _ rfl, fun hx => h1.2.2 (fun hh => hx (by cases hh; rfl))⟩
      · exact ⟨h, (fun _ h => nomatch h), fun _ => hb⟩

theorem stream_exec {σ} (c : Cfg σ) : ∀ (h : List Act) (s : St σ), SD s → SBal s (fun _ => []) → (∀ a ∈ h, a.direct = true) → (∀ o ∈ (exec c s h).2, o ≠ .raised .recursion) →
    SBal (exec c s h).1 (fun _ => []) ∧ ∀ o ∈ (exec c s h).2, MildOut o
  | [], s, hD, hb, _, _ => ⟨hb, fun _ h => nomatch h⟩
  | a :: h, s, hD, hb, hp, ho => by
    rw [exec] at ho ⊢
    dsimp only at ho ⊢
    have hoa := ho _ (List.mem_cons_self ..)
    suffices hg : SD (act c s a).1 ∧ MildOut (act c s a).2 ∧ SBal (act c s a).1 (fun _ => []) by
      obtain ⟨i1, i2⟩ := stream_exec c h (act c s a).1 hg.1 hg.2.2 (fun b hb => hp b (List.mem_cons_of_mem _ hb)) fun o h => ho o (List.mem_cons_of_mem _ h)
      refine ⟨i1, fun o ho => ?_⟩
      rcases List.mem_cons.mp ho with rfl | ho
      · exact hg.2.1
      · exact i2 o ho
    have ha := hp a (List.mem_cons_self ..)
    cases a with
    | cmd k =>
      have := stream_run c c.depth s k.call _ hD (by cases k <;> exact rfl) hb
      refine ⟨this.1, mildOut_of this.2.1, this.2.2 fun hh => ?_⟩
      change outOf (run c c.depth s k.call).2 ≠ _ at hoa
      rw [hh] at hoa
      exact hoa rfl
    | advance dt n =>
      have := stream_runOnce c n { s with clock := s.clock + dt } ⟨hD.tr, hD.tasks⟩ (hb.congr (fun _ => rfl) fun _ => rfl)
      exact ⟨this.1, this.2.1, this.2.2 hoa⟩
    | runOnce n =>
      have := stream_runOnce c n s hD hb
      exact ⟨this.1, this.2.1, this.2.2 hoa⟩
    | setClock now => exact ⟨⟨hD.tr, hD.tasks⟩, (fun _ h => nomatch h), hb.congr (fun _ => rfl) fun _ => rfl⟩
    | setDelay _ _ _ => cases ha
    | setProto i => exact ⟨hD.setT i _ ⟨rfl, rfl⟩, (fun _ h => nomatch h), hb.congr (fun _ => rfl) fun _ => rfl⟩

/-! ## The count -/

/-- `writeCount` counts the writes. -/
def Counted {σ} (s : St σ) : Prop := ∀ i, (s.t i).count = (writes s.log i).length

theorem kept_counted {σ} : Kept (σ := σ) Counted := by
  refine ⟨fun s a h => h, fun s i x hx h j => ?_, fun s i d h j => ?_, fun s e he hw h j => ?_, fun s dt k h j => ?_⟩
  · show ((s.setT i x).t j).count = (writes s.log j).length
    rw [← h j]
    rcases eq_or_not i j with rfl | rfl
    · rw [setT_self]; exact hx
    · rw [setT_ne _ _ (not_ne i)]
  · show ((s.setT i _).t j).count = (writes (s.log ++ [.wrote i d s.clock]) j).length
    rw [writes_append, List.length_append, ← h j]
    rcases eq_or_not i j with rfl | rfl
    · rw [setT_self]; simp [writes]
    · rw [setT_ne _ _ (not_ne i)]
      cases i <;> simp [writes]
  · show (s.t j).count = (writes (s.log ++ [e]) j).length
    rw [writes_append, List.length_append, ← h j]
    cases e <;> first | exact absurd rfl (hw _ _ _) | simp [writes]
  · show (s.t j).count = (writes (s.log ++ [.called s.next (s.clock + dt)]) j).length
    rw [writes_append, List.length_append, ← h j]
    simp [writes]

theorem counted_exec {σ} (c : Cfg σ) (h : List Act) (s : St σ) (hs : Counted s) : Counted (exec c s h).1 :=
  kept_exec kept_counted (fun s e rest _ _ h j => by
    show (s.t j).count = (writes (s.log ++ [.ran e.num s.clock]) j).length
    rw [writes_append, List.length_append, ← h j]
    simp [writes]) (fun _ _ h => h) c h s hs

end Verif.Mock
