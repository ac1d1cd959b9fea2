import Verif.Spec.Mock
/-! # Lemmas for C78: the loop -/
namespace Verif.Mock

/-- The order of the schedule. -/
def Entry.before (a b : Entry) : Prop := a.due < b.due ∨ (a.due = b.due ∧ a.num < b.num)

def Sorted (l : List Entry) : Prop := l.Pairwise Entry.before

theorem insertEntry_mem (x : Entry) : ∀ (l : List Entry) (y : Entry), y ∈ insertEntry x l ↔ y = x ∨ y ∈ l
  | [], y => by simp [insertEntry]
  | z :: l, y => by
    rw [insertEntry]
    split
    · simp
    · rw [List.mem_cons, insertEntry_mem x l y, List.mem_cons]
      constructor
      · rintro (h | h | h)
        · exact .inr (.inl h)
        · exact .inl h
        · exact .inr (.inr h)
      · rintro (h | h | h)
        · exact .inr (.inl h)
        · exact .inl h
        · exact .inr (.inr h)

theorem insertEntry_sorted (x : Entry) : ∀ (l : List Entry), Sorted l → (∀ y ∈ l, y.num < x.num) → Sorted (insertEntry x l)
  | [], _, _ => List.pairwise_singleton ..
  | z :: l, h, hn => by
    have hz := List.pairwise_cons.mp h
    rw [insertEntry]
    split
    · next hlt =>
      refine List.pairwise_cons.mpr ⟨fun y hy => ?_, h⟩
      rcases List.mem_cons.mp hy with rfl | hy
      · exact .inl hlt
      · rcases hz.1 y hy with h1 | h1
        · exact .inl (by omega)
        · exact .inl (by omega)
    · next hge =>
      refine List.pairwise_cons.mpr ⟨fun y hy => ?_, insertEntry_sorted x l hz.2 fun y hy => hn y (List.mem_cons_of_mem _ hy)⟩
      rcases (insertEntry_mem x l y).mp hy with rfl | hy
      · have := hn z (List.mem_cons_self ..)
        unfold Entry.before
        omega
      · exact hz.1 y hy

/-- An element that is behind all others stays last. -/
theorem insertEntry_last (x : Entry) : ∀ (l : List Entry), (∀ y ∈ l, y.due ≤ x.due) → insertEntry x l = l ++ [x]
  | [], _ => rfl
  | z :: l, h => by
    have := h z (List.mem_cons_self ..)
    rw [insertEntry, if_neg (by omega), insertEntry_last x l fun y hy => h y (List.mem_cons_of_mem _ hy)]
    rfl

theorem sort_sorted : ∀ (l acc : List Entry), Sorted (acc ++ l) → l.foldl (fun acc x => insertEntry x acc) acc = acc ++ l
  | [], acc, _ => by simp
  | x :: l, acc, h => by
    rw [List.foldl_cons, insertEntry_last x acc, sort_sorted l (acc ++ [x])]
    · simp
    · simpa using h
    · intro y hy
      have := (List.pairwise_append.mp h).2.2 y hy x (List.mem_cons_self ..)
      rcases this with h1 | h1 <;> omega

theorem sortEntries_snoc {l : List Entry} (h : Sorted l) (x : Entry) : sortEntries (l ++ [x]) = insertEntry x l := by
  unfold sortEntries
  rw [List.foldl_append, sort_sorted l [] (by simpa using h)]
  rfl

/-! ## The log -/

theorem calledOf_append (l1 l2 : List Ev) : calledOf (l1 ++ l2) = calledOf l1 ++ calledOf l2 := by unfold calledOf; rw [List.filterMap_append]
theorem ranOf_append (l1 l2 : List Ev) : ranOf (l1 ++ l2) = ranOf l1 ++ ranOf l2 := by unfold ranOf; rw [List.filterMap_append]

def Ev.isLoop : Ev → Bool
  | .called .. | .ran .. => true
  | _ => false

theorem calledOf_other {e : Ev} (h : e.isLoop = false) (l : List Ev) : calledOf (l ++ [e]) = calledOf l := by
  rw [calledOf_append]; cases e <;> simp [Ev.isLoop, calledOf] at h ⊢
theorem ranOf_other {e : Ev} (h : e.isLoop = false) (l : List Ev) : ranOf (l ++ [e]) = ranOf l := by
  rw [ranOf_append]; cases e <;> simp [Ev.isLoop, ranOf] at h ⊢

theorem ordered_snoc {l : List Ev} {e : Ev} (h : Ordered l) (he : ∀ n now, e = .ran n now →
    ∃ due, Waiting l n due ∧ due ≤ now ∧ ∀ m due', Waiting l m due' → due < due' ∨ (due = due' ∧ n ≤ m)) : Ordered (l ++ [e]) := by
  intro l1 n now l2 hl
  rcases List.eq_nil_or_concat l2 with rfl | ⟨l2', x, rfl⟩
  · have := List.append_inj' (t₁ := [e]) (t₂ := [.ran n now]) hl rfl
    rw [← this.1]
    exact he n now (by simpa using this.2)
  · have h2 : l ++ [e] = (l1 ++ .ran n now :: l2') ++ [x] := by rw [hl]; simp
    have := List.append_inj' h2 rfl
    exact h l1 n now l2' this.1

/-- The state of the loop fits what happened. -/
structure L {σ} (s : St σ) : Prop where
  sorted : Sorted s.sched
  fresh : ∀ n due, (n, due) ∈ calledOf s.log → n < s.next
  once : ((calledOf s.log).map (·.1)).Nodup
  ranOnce : ((ranOf s.log).map (·.1)).Nodup
  ranCalled : ∀ n now, (n, now) ∈ ranOf s.log → ∃ due, (n, due) ∈ calledOf s.log
  wait : ∀ n due, Waiting s.log n due ↔ ∃ k, (⟨due, n, k⟩ : Entry) ∈ s.sched
  ordered : Ordered s.log

/-- Only what the loop has counts. -/
theorem L.congr {σ} {s s' : St σ} (h : L s) (h1 : s'.sched = s.sched) (h2 : s'.next = s.next) (h3 : s'.log = s.log) : L s' :=
  ⟨by rw [h1]; exact h.sorted, by rw [h2, h3]; exact h.fresh, by rw [h3]; exact h.once, by rw [h3]; exact h.ranOnce, by rw [h3]; exact h.ranCalled,
    by rw [h1, h3]; exact h.wait, by rw [h3]; exact h.ordered⟩

theorem L.add {σ} {s : St σ} (h : L s) {e : Ev} (he : e.isLoop = false) : L (s.add e) := by
  have h1 : calledOf (s.add e).log = calledOf s.log := calledOf_other he _
  have h2 : ranOf (s.add e).log = ranOf s.log := ranOf_other he _
  refine ⟨h.sorted, by rw [h1]; exact h.fresh, by rw [h1]; exact h.once, by rw [h2]; exact h.ranOnce, by rw [h1, h2]; exact h.ranCalled, fun n due => ?_, ?_⟩
  · unfold Waiting; rw [h1, h2]; exact h.wait n due
  · exact ordered_snoc h.ordered fun n now hh => by rw [hh] at he; cases he

theorem L.later {σ} {s : St σ} (h : L s) (dt : Int) (k : Task) : L (s.callLater dt k) := by
  have h1 : calledOf (s.callLater dt k).log = calledOf s.log ++ [(s.next, s.clock + dt)] := calledOf_append _ _
  have h2 : ranOf (s.callLater dt k).log = ranOf s.log := by
    show ranOf (s.log ++ [.called s.next (s.clock + dt)]) = _
    rw [ranOf_append]; simp [ranOf]
  have hnew : s.next ∉ (ranOf s.log).map (·.1) := fun hm => by
    obtain ⟨⟨n, now⟩, hm, he⟩ := List.mem_map.mp hm
    obtain ⟨due, hd⟩ := h.ranCalled n now hm
    have := h.fresh n due hd
    dsimp only at he
    omega
  have hnum : ∀ y ∈ s.sched, y.num < s.next := fun y hy => h.fresh y.num y.due ((h.wait y.num y.due).mpr ⟨y.task, hy⟩).1
  have hs : (s.callLater dt k).sched = insertEntry ⟨s.clock + dt, s.next, k⟩ s.sched := sortEntries_snoc h.sorted _
  refine ⟨?_, ?_, ?_, by rw [h2]; exact h.ranOnce, ?_, fun n due => ?_, ?_⟩
  · rw [hs]; exact insertEntry_sorted _ _ h.sorted hnum
  · intro n due hm
    rw [h1, List.mem_append] at hm
    show n < s.next + 1
    rcases hm with hm | hm
    · exact Nat.lt_succ_of_lt (h.fresh n due hm)
    · simp at hm; omega
  · rw [h1, List.map_append]
    refine List.nodup_append.mpr ⟨h.once, by simp, ?_⟩
    intro a ha b hb hab
    simp at hb
    obtain ⟨⟨n, due⟩, hm, he⟩ := List.mem_map.mp ha
    have := h.fresh n due hm
    dsimp only at he
    omega
  · intro n now hm
    rw [h2] at hm
    obtain ⟨due, hd⟩ := h.ranCalled n now hm
    exact ⟨due, by rw [h1]; exact List.mem_append_left _ hd⟩
  · unfold Waiting
    rw [h1, h2, hs]
    constructor
    · rintro ⟨hc, hr⟩
      rcases List.mem_append.mp hc with hc | hc
      · obtain ⟨k', hk⟩ := (h.wait n due).mp ⟨hc, hr⟩
        exact ⟨k', (insertEntry_mem _ _ _).mpr (.inr hk)⟩
      · simp at hc
        exact ⟨k, (insertEntry_mem _ _ _).mpr (.inl (by rw [hc.1, hc.2]))⟩
    · rintro ⟨k', hk⟩
      rcases (insertEntry_mem _ _ _).mp hk with hk | hk
      · cases hk
        exact ⟨List.mem_append_right _ (by simp), hnew⟩
      · obtain ⟨hc, hr⟩ := (h.wait n due).mpr ⟨k', hk⟩
        exact ⟨List.mem_append_left _ hc, hr⟩
  · exact ordered_snoc h.ordered fun n now hh => by cases hh

theorem L.pop {σ} {s : St σ} (h : L s) {e : Entry} {rest : List Entry} (hs : s.sched = e :: rest) (hd : e.due ≤ s.clock) : L (s.pop e rest) := by
  have h1 : calledOf (s.pop e rest).log = calledOf s.log := by
    show calledOf (s.log ++ [.ran e.num s.clock]) = _
    rw [calledOf_append]; simp [calledOf]
  have h2 : ranOf (s.pop e rest).log = ranOf s.log ++ [(e.num, s.clock)] := ranOf_append _ _
  have hso : Sorted (e :: rest) := by have := h.sorted; rwa [hs] at this
  have hp := List.pairwise_cons.mp hso
  have hw : Waiting s.log e.num e.due := (h.wait _ _).mpr ⟨e.task, by rw [hs]; exact List.mem_cons_self ..⟩
  refine ⟨hp.2, by rw [h1]; exact h.fresh, by rw [h1]; exact h.once, ?_, ?_, fun n due => ?_, ?_⟩
  · rw [h2, List.map_append]
    refine List.nodup_append.mpr ⟨h.ranOnce, by simp, ?_⟩
    intro a ha b hb hab
    simp at hb
    subst hb; subst hab
    exact hw.2 ha
  · intro n now hm
    rw [h2] at hm
    rw [h1]
    rcases List.mem_append.mp hm with hm | hm
    · exact h.ranCalled n now hm
    · simp at hm
      rw [hm.1]
      exact ⟨_, hw.1⟩
  · unfold Waiting
    rw [h1, h2, List.map_append, List.mem_append]
    show _ ↔ ∃ k, (⟨due, n, k⟩ : Entry) ∈ rest
    constructor
    · rintro ⟨hc, hr⟩
      obtain ⟨k, hk⟩ := (h.wait n due).mp ⟨hc, fun hh => hr (.inl hh)⟩
      rw [hs] at hk
      rcases List.mem_cons.mp hk with hk | hk
      · exact absurd (.inr (by simp [← hk])) hr
      · exact ⟨k, hk⟩
    · rintro ⟨k, hk⟩
      have hb := hp.1 _ hk
      obtain ⟨hc, hr⟩ := (h.wait n due).mpr ⟨k, by rw [hs]; exact List.mem_cons_of_mem _ hk⟩
      refine ⟨hc, fun hh => ?_⟩
      rcases hh with hh | hh
      · exact hr hh
      · simp at hh
        subst hh
        -- the same number twice
        have : due = e.due := by
          have hn := h.once
          have := hw.1
          clear hp hso hw hr hk hb h1 h2
          revert hn this hc
          generalize calledOf s.log = l
          intro hc hn hw
          induction l with
          | nil => cases hc
          | cons x l ih =>
            rw [List.map_cons, List.nodup_cons] at hn
            rcases List.mem_cons.mp hc with hc | hc
            · rcases List.mem_cons.mp hw with hw | hw
              · rw [← hc] at hw; exact (Prod.mk.inj hw).2.symm
              · exact absurd (List.mem_map.mpr ⟨_, hw, by rw [← hc]⟩) hn.1
            · rcases List.mem_cons.mp hw with hw | hw
              · exact absurd (List.mem_map.mpr ⟨_, hc, by rw [← hw]⟩) hn.1
              · exact ih hc hn.2 hw
        rcases hb with hb | hb
        · dsimp only at hb; omega
        · dsimp only at hb; omega
  · refine ordered_snoc h.ordered fun n now hh => ?_
    cases hh
    refine ⟨e.due, hw, hd, fun m due' hm => ?_⟩
    obtain ⟨k, hk⟩ := (h.wait m due').mp hm
    rw [hs] at hk
    rcases List.mem_cons.mp hk with hk | hk
    · rw [← hk]; exact .inr ⟨rfl, Nat.le_refl _⟩
    · rcases hp.1 _ hk with h1 | h1
      · exact .inl h1
      · exact .inr ⟨h1.1, Nat.le_of_lt h1.2⟩

/-! ## Calls -/

/-- A property of states that all steps of the transports and the protocols keep. -/
structure Kept {σ} (P : St σ → Prop) : Prop where
  app : ∀ s a, P s → P { s with app := a }
  setT : ∀ s i x, x.count = (s.t i).count → P s → P (s.setT i x)
  wrote : ∀ s i d, P s → P ((s.setT i { s.t i with count := (s.t i).count + 1 }).add (.wrote i d s.clock))
  add : ∀ s e, e.isLoop = false → (∀ i d now, e ≠ .wrote i d now) → P s → P (s.add e)
  later : ∀ s dt k, P s → P (s.callLater dt k)

theorem kept_runCode {σ} {P : St σ → Prop} (hP : Kept P) {rec : Rec σ} (hrec : ∀ s k, P s → P (rec s k).1) : ∀ (code : Code σ) (s : St σ), P s → P (runCode rec s code).1
  | [], s, h => h
  | ins :: code, s, h => by
    rw [runCode]
    rcases hi : ins s.app with ⟨a, _ | cmd⟩
    · exact kept_runCode hP hrec code _ (hP.app _ _ h)
    · dsimp only
      have h1 := hrec { s with app := a } cmd.call (hP.app _ _ h)
      rcases hr : rec { s with app := a } cmd.call with ⟨s', _ | e⟩
      · rw [hr] at h1
        exact kept_runCode hP hrec code s' h1
      · rw [hr] at h1
        exact h1

theorem kept_schedule {σ} {P : St σ → Prop} (hP : Kept P) (s : St σ) (i : Bool) (k : Task) (h : P s) : P (schedule s i k).1 := by
  unfold schedule
  split
  · exact hP.later _ _ _ h
  · exact h

theorem kept_run {σ} {P : St σ → Prop} (hP : Kept P) (c : Cfg σ) : ∀ (f : Nat) (s : St σ) (k : Call), P s → P (run c f s k).1
  | 0, s, k, h => h
  | f + 1, s, k, h => by
    have hrec := kept_run hP c f
    rw [run]
    cases k with
    | write i d =>
      show P (writeBody _ s i d).1
      unfold writeBody
      have h1 : P ((s.setT i { s.t i with count := (s.t i).count + 1 }).add (.wrote i d s.clock)) := hP.wrote _ _ _ h
      split
      · exact h
      · dsimp only
        split
        · exact kept_schedule hP _ _ _ h1
        · exact hrec _ _ h1
    | rawWrite i inp =>
      show P (rawWriteBody _ s i inp).1
      unfold rawWriteBody
      split
      · exact h
      · split
        · exact hrec _ _ h
        · exact h
      · split
        · exact hP.add _ _ rfl (fun _ _ _ hh => nomatch hh) h
        · exact h
    | close i =>
      show P (closeBody _ s i).1
      unfold closeBody
      have h1 : P ((s.setT i { s.t i with closed := true }).add (.closing i)) := by
        refine hP.add _ _ rfl (fun _ _ _ hh => nomatch hh) (hP.setT _ _ _ ?_ h)
        rfl
      split
      · exact h
      · dsimp only
        split
        · exact kept_schedule hP _ _ _ h1
        · exact hrec _ _ h1
    | rawClose i =>
      show P (rawCloseBody _ s i).1
      unfold rawCloseBody
      split
      · have h1 := hrec s (.close !i) h
        rcases hr : run c f s (.close !i) with ⟨s', _ | e⟩
        · rw [hr] at h1; exact hrec _ _ h1
        · rw [hr] at h1; exact h1
      · exact hrec _ _ h
    | ownClose i =>
      show P (ownCloseBody _ s i).1
      unfold ownCloseBody
      split
      · have h1 := hrec s (.recv i .lost) h
        rcases hr : run c f s (.recv i .lost) with ⟨s', _ | e⟩
        · rw [hr] at h1; exact hP.setT _ _ _ rfl h1
        · rw [hr] at h1; exact h1
      · exact h
    | recv i inp => exact kept_runCode hP hrec _ _ (hP.add _ _ (by cases inp <;> rfl) (by cases inp <;> exact fun _ _ _ hh => nomatch hh) h)
    | later dt k => exact hP.later _ _ _ h
    | raise k => exact h

theorem kept_L {σ} : Kept (σ := σ) L :=
  ⟨fun _ _ h => h.congr rfl rfl rfl, fun _ _ _ _ h => h.congr rfl rfl rfl, fun s i _ h => (h.congr (s' := s.setT i _) rfl rfl rfl).add rfl, fun _ _ he _ h => h.add he, fun _ _ _ h => h.later _ _⟩

theorem kept_runTask {σ} {P : St σ → Prop} (hP : Kept P) (c : Cfg σ) (s : St σ) (k : Task) (h : P s) : P (runTask c s k).1 := by
  cases k with
  | user k => exact kept_runCode hP (kept_run hP c _) _ _ h
  | close i => exact kept_run hP c _ _ _ h
  | write i d =>
    show P (runWrite c s i d).1
    unfold runWrite
    split
    · split
      · exact kept_run hP c _ _ _ h
      · exact h
    · exact kept_run hP c _ _ _ h

/-- What a call keeps and popping keeps, the loop keeps. -/
theorem kept_runOnce {σ} {P : St σ → Prop} (hP : Kept P) (hpop : ∀ s e rest, s.sched = e :: rest → e.due ≤ s.clock → P s → P (s.pop e rest)) (c : Cfg σ) :
    ∀ (n : Nat) (s : St σ), P s → P (runOnce c n s).1
  | 0, s, h => h
  | n + 1, s, h => by
    rw [runOnce]
    rcases hs : s.sched with _ | ⟨e, rest⟩
    · exact h
    · dsimp only
      split
      · next hd =>
        have h1 := kept_runTask hP c (s.pop e rest) e.task (hpop s e rest hs hd h)
        rcases hr : runTask c (s.pop e rest) e.task with ⟨s', _ | x⟩
        · rw [hr] at h1; exact kept_runOnce hP hpop c n s' h1
        · rw [hr] at h1; exact h1
      · exact h

theorem kept_exec {σ} {P : St σ → Prop} (hP : Kept P) (hpop : ∀ s e rest, s.sched = e :: rest → e.due ≤ s.clock → P s → P (s.pop e rest))
    (hclock : ∀ s now, P s → P { s with clock := now }) (c : Cfg σ) : ∀ (h : List Act) (s : St σ), P s → P (exec c s h).1
  | [], s, hs => hs
  | a :: h, s, hs => by
    rw [exec]
    refine kept_exec hP hpop hclock c h _ ?_
    cases a with
    | cmd k => exact kept_run hP c _ _ _ hs
    | advance dt n => exact kept_runOnce hP hpop c n _ (hclock _ _ hs)
    | runOnce n => exact kept_runOnce hP hpop c n _ hs
    | setClock now => exact hclock _ _ hs
    | setDelay i l d => exact hP.setT _ _ _ (by unfold setDelay; split <;> rfl) hs
    | setProto i => exact hP.setT _ _ _ rfl hs

theorem L_exec {σ} (c : Cfg σ) (h : List Act) (s : St σ) (hs : L s) : L (exec c s h).1 :=
  kept_exec kept_L (fun _ _ _ h1 h2 h3 => h3.pop h1 h2) (fun _ _ h => h.congr rfl rfl rfl) c h s hs

theorem L_init {σ} {s : St σ} (h1 : s.sched = []) (h2 : s.log = []) : L s := by
  refine ⟨by rw [h1]; exact List.Pairwise.nil, (by rw [h2]; exact fun n d h => nomatch h),  by rw [h2]; exact List.nodup_nil, by rw [h2]; exact List.nodup_nil,
    (by rw [h2]; exact fun n d h => nomatch h),  fun n due => ?_, ?_⟩
  · rw [h1, h2]
    exact ⟨fun h => (nomatch h.1), fun ⟨_, h⟩ => (nomatch h)⟩
  · rw [h2]
    intro l1 n now l2 h
    simp at h

/-- When the loop is done, nothing is due. -/
theorem runOnce_done {σ} (c : Cfg σ) : ∀ (n : Nat) (s : St σ), (runOnce c n s).2 = .done → L s →
    ∀ e ∈ (runOnce c n s).1.sched, (runOnce c n s).1.clock < e.due
  | 0, s, h, _ => by simp [runOnce] at h
  | n + 1, s, h, hL => by
    rw [runOnce] at h ⊢
    rcases hs : s.sched with _ | ⟨e, rest⟩
    · rw [hs] at h
      intro x hx
      dsimp only at hx
      rw [hs] at hx
      cases hx
    · rw [hs] at h
      dsimp only at h ⊢
      by_cases hd : e.due ≤ s.clock
      · rw [if_pos hd] at h ⊢
        have h1 := kept_runTask kept_L c (s.pop e rest) e.task (hL.pop hs hd)
        rcases hr : runTask c (s.pop e rest) e.task with ⟨s', _ | x⟩
        · rw [hr] at h h1; exact runOnce_done c n s' h h1
        · rw [hr] at h; cases h
      · rw [if_neg hd] at h ⊢
        intro x hx
        dsimp only at hx ⊢
        rw [hs] at hx
        rcases List.mem_cons.mp hx with rfl | hx
        · omega
        · have := (List.pairwise_cons.mp (hs ▸ hL.sorted)).1 x hx
          rcases this with h1 | h1 <;> omega

theorem exec_snoc {σ} (c : Cfg σ) : ∀ (h : List Act) (a : Act) (s : St σ), exec c s (h ++ [a]) =
    ((act c (exec c s h).1 a).1, (exec c s h).2 ++ [(act c (exec c s h).1 a).2])
  | [], a, s => rfl
  | b :: h, a, s => by
    rw [List.cons_append, exec, exec_snoc c h a]
    rfl

end Verif.Mock
