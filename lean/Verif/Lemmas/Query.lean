import Verif.Spec.Query
import Verif.Lemmas.Dict
/-! # Invariants of `query` -/
namespace Verif.Spmp.Ask

variable {env : Env} {depth : Nat} {cls : Cls}

theorem exec_snoc (s : St) (h : List Ev) (e : Ev) : exec env depth cls s (h ++ [e]) = step env depth cls (exec env depth cls s h) e := by
  simp [exec, List.foldl_append]

theorem exec_append (s : St) (h t : List Ev) : exec env depth cls s (h ++ t) = exec env depth cls (exec env depth cls s h) t := by
  simp [exec, List.foldl_append]

theorem sents_append (l m : List Obs) : sents (l ++ m) = sents l ++ sents m := by simp [sents]
theorem cames_append (l m : List Obs) : cames (l ++ m) = cames l ++ cames m := by simp [cames]

theorem mem_cames {l : List Obs} {k : Option Int} : k ∈ cames l ↔ ∃ a, Obs.came k a ∈ l := by
  unfold cames
  rw [List.mem_filterMap]
  constructor
  · rintro ⟨o, ho, he⟩
    cases o with
    | sent i id => cases he
    | came k' a => cases he; exact ⟨a, ho⟩
  · rintro ⟨a, ha⟩
    exact ⟨_, ha, rfl⟩

theorem mem_sents {l : List Obs} {i id : Nat} : (i, id) ∈ sents l ↔ Obs.sent i id ∈ l := by
  unfold sents
  rw [List.mem_filterMap]
  constructor
  · rintro ⟨o, ho, he⟩
    cases o with
    | came k' a => cases he
    | sent i' id' => cases he; exact ho
  · intro h
    exact ⟨_, h, rfl⟩

theorem snocInd {α : Type} {P : List α → Prop} (nil : P []) (snoc : ∀ l a, P l → P (l ++ [a])) (l : List α) : P l := by
  have : ∀ m : List α, P m.reverse := by
    intro m
    induction m with
    | nil => exact nil
    | cons a m ih => rw [List.reverse_cons]; exact snoc _ _ ih
  have h := this l.reverse
  rwa [List.reverse_reverse] at h

/-! ## A chunk of data -/

theorem response_came {e : Event} {o : Obs} (h : response cls e = some o) : ∃ k a, o = .came k a := by
  cases e with
  | error e => cases h
  | packet v =>
    unfold response at h
    dsimp only at h
    cases hv : ofVal cls v with
    | none => rw [hv] at h; cases h
    | some p => rw [hv] at h; cases h; exact ⟨_, _, rfl⟩

theorem responses_came {c : Client} {b : Bytes} : ∀ o ∈ responses env depth cls c b, ∃ k a, o = .came k a := by
  intro o ho
  obtain ⟨e, _, h⟩ := List.mem_filterMap.mp ho
  exact response_came h

theorem sents_nil {m : List Obs} (h : ∀ o ∈ m, ∃ k a, o = Obs.came k a) : sents m = [] := by
  unfold sents
  rw [List.filterMap_eq_nil_iff]
  intro o ho
  obtain ⟨k, a, rfl⟩ := h o ho
  rfl

theorem cames_length {m : List Obs} (h : ∀ o ∈ m, ∃ k a, o = Obs.came k a) : (cames m).length = m.length := by
  induction m with
  | nil => rfl
  | cons o m ih =>
    obtain ⟨k, a, rfl⟩ := h o (by simp)
    have := ih (fun x hx => h x (by simp [hx]))
    unfold cames at this ⊢
    simp [this]

/-- What the responses of the client are after the loop of `data_received`. -/
theorem accept_get : ∀ (evs : List Event) (r : Dict (Option Int) (Option Str × Option Str)),
    (∀ k a, (evs.foldl (Client.accept cls) r).get k = some a → r.get k = some a ∨ Obs.came k a ∈ evs.filterMap (response cls)) ∧
    (∀ k, r.get k ≠ none → (evs.foldl (Client.accept cls) r).get k ≠ none) ∧
    (∀ k a, Obs.came k a ∈ evs.filterMap (response cls) → (evs.foldl (Client.accept cls) r).get k ≠ none)
  | [], r => by simp
  | e :: evs, r => by
    rw [List.foldl_cons]
    obtain ⟨h1, h2, h3⟩ := accept_get evs (Client.accept cls r e)
    cases hr : response cls e with
    | none =>
      have : Client.accept cls r e = r := by
        cases e with
        | error e => rfl
        | packet v =>
          unfold response at hr
          unfold Client.accept
          dsimp only at hr ⊢
          cases hv : ofVal cls v with
          | none => rfl
          | some p => rw [hv] at hr; cases hr
      rw [this] at h1 h2 h3 ⊢
      rw [List.filterMap_cons_none hr]
      exact ⟨h1, h2, h3⟩
    | some o =>
      obtain ⟨k0, a0, rfl⟩ := response_came hr
      have : Client.accept cls r e = r.set k0 a0 := by
        cases e with
        | error e => cases hr
        | packet v =>
          unfold response at hr
          unfold Client.accept
          dsimp only at hr ⊢
          cases hv : ofVal cls v with
          | none => rw [hv] at hr; cases hr
          | some p => rw [hv] at hr; cases hr; rfl
      rw [this] at h1 h2 h3 ⊢
      rw [List.filterMap_cons_some hr]
      have hk : ∀ k, r.get k ≠ none → (r.set k0 a0).get k ≠ none := by
        intro k hk
        rw [Dict.get_set]
        split
        · exact fun h => nomatch h
        · exact hk
      refine ⟨fun k a h => ?_, fun k h => h2 k (hk k h), fun k a h => ?_⟩
      · rcases h1 k a h with h | h
        · rw [Dict.get_set] at h
          split at h
          · next e => cases h; subst e; exact .inr (List.mem_cons_self ..)
          · exact .inl h
        · exact .inr (List.mem_cons_of_mem _ h)
      · rcases List.mem_cons.mp h with h | h
        · cases h
          exact h2 _ (by rw [Dict.get_set_self]; exact fun h => nomatch h)
        · exact h3 k a h

/-! ## The invariant -/

structure Inv (s : St) : Prop where
  from_log : ∀ k a, s.cli.responses.get k = some a → Obs.came k a ∈ s.log
  in_log : ∀ k a, Obs.came k a ∈ s.log → s.cli.responses.get k ≠ none
  key : ∀ i n, Obs.sent i n ∈ s.log → i < s.nCall ∧ s.key i = n
  distinct : ((sents s.log).map (·.1)).Nodup
  waiting : ∀ i, s.stage i = .waiting ↔ i ∈ s.queue ++ s.woken
  nodup : (s.queue ++ s.woken).Nodup
  bound : ∀ i, s.stage i ≠ .raised → i < s.nCall
  own : ∀ i a, s.stage i = .returned a → Obs.came (some (s.key i : Int)) a ∈ s.log
  sent : ∀ i, s.stage i ≠ .raised → Obs.sent i (s.key i) ∈ s.log
  kept : ∀ i n, Obs.sent i n ∈ s.log → s.stage i ≠ .raised

theorem inv_init : Inv (St.init env depth cls) :=
  { from_log := by simp [St.init, Client.init]
    in_log := by simp [St.init]
    key := by simp [St.init]
    distinct := by simp [St.init, sents]
    waiting := by simp [St.init]
    nodup := by simp [St.init]
    bound := by simp [St.init]
    own := by simp [St.init]
    sent := by simp [St.init]
    kept := by simp [St.init] }

theorem answer_iff {s : St} (hi : Inv s) (k : Nat) : s.cli.answer k ≠ none ↔ some (k : Int) ∈ cames s.log := by
  rw [mem_cames]
  constructor
  · intro h
    cases ha : s.cli.answer k with
    | none => exact absurd ha h
    | some a => exact ⟨a, hi.from_log _ _ ha⟩
  · rintro ⟨a, ha⟩
    exact hi.in_log _ _ ha

/-- The invariant while call `i` is about to look for its response. -/
structure InvX (s : St) (i : Nat) : Prop where
  from_log : ∀ k a, s.cli.responses.get k = some a → Obs.came k a ∈ s.log
  in_log : ∀ k a, Obs.came k a ∈ s.log → s.cli.responses.get k ≠ none
  key : ∀ j n, Obs.sent j n ∈ s.log → j < s.nCall ∧ s.key j = n
  distinct : ((sents s.log).map (·.1)).Nodup
  waiting : ∀ j, j ≠ i → (s.stage j = .waiting ↔ j ∈ s.queue ++ s.woken)
  out : i ∉ s.queue ++ s.woken
  nodup : (s.queue ++ s.woken).Nodup
  bound : ∀ j, j ≠ i → s.stage j ≠ .raised → j < s.nCall
  own : ∀ j a, j ≠ i → s.stage j = .returned a → Obs.came (some (s.key j : Int)) a ∈ s.log
  sent : ∀ j, j ≠ i → s.stage j ≠ .raised → Obs.sent j (s.key j) ∈ s.log
  kept : ∀ j n, j ≠ i → Obs.sent j n ∈ s.log → s.stage j ≠ .raised

theorem inv_await {s : St} {i : Nat} (hi : InvX s i) (hl : i < s.nCall) (hs : Obs.sent i (s.key i) ∈ s.log) : Inv (await s i) := by
  unfold await
  cases ha : s.cli.answer (s.key i) with
  | some a =>
    dsimp only
    exact {
      from_log := hi.from_log, in_log := hi.in_log, key := hi.key, distinct := hi.distinct, nodup := hi.nodup
      waiting := by
        intro j
        by_cases hj : j = i
        · subst hj
          simp only [setStage, if_true]
          exact ⟨fun h => (nomatch h), fun h => absurd h hi.out⟩
        · simpa only [setStage, if_neg hj] using hi.waiting j hj
      bound := by
        intro j
        by_cases hj : j = i
        · subst hj; exact fun _ => hl
        · simpa only [setStage, if_neg hj] using hi.bound j hj
      own := by
        intro j b
        by_cases hj : j = i
        · subst hj
          simp only [setStage, if_true]
          intro h; cases h
          exact hi.from_log _ _ ha
        · simpa only [setStage, if_neg hj] using hi.own j b hj
      sent := by
        intro j
        by_cases hj : j = i
        · subst hj; exact fun _ => hs
        · simpa only [setStage, if_neg hj] using hi.sent j hj
      kept := by
        intro j n
        by_cases hj : j = i
        · subst hj
          simp only [setStage, if_true]
          exact fun _ h => (nomatch h)
        · simpa only [setStage, if_neg hj] using hi.kept j n hj }
  | none =>
    dsimp only
    exact {
      from_log := hi.from_log, in_log := hi.in_log, key := hi.key, distinct := hi.distinct
      nodup := by
        show ((s.queue ++ [i]) ++ s.woken).Nodup
        have : ((s.queue ++ [i]) ++ s.woken).Perm (i :: (s.queue ++ s.woken)) := by
          simp only [List.append_assoc, List.singleton_append]
          exact List.perm_middle
        exact this.nodup_iff.mpr (List.nodup_cons.mpr ⟨hi.out, hi.nodup⟩)
      waiting := by
        intro j
        by_cases hj : j = i
        · subst hj
          simp only [setStage, if_true]
          exact ⟨fun _ => by simp, fun _ => trivial⟩
        · have := hi.waiting j hj
          simp only [setStage, if_neg hj]
          rw [this]
          simp [hj]
      bound := by
        intro j
        by_cases hj : j = i
        · subst hj; exact fun _ => hl
        · simpa only [setStage, if_neg hj] using hi.bound j hj
      own := by
        intro j b
        by_cases hj : j = i
        · subst hj
          simp only [setStage, if_true]
          exact fun h => (nomatch h)
        · simpa only [setStage, if_neg hj] using hi.own j b hj
      sent := by
        intro j
        by_cases hj : j = i
        · subst hj; exact fun _ => hs
        · simpa only [setStage, if_neg hj] using hi.sent j hj
      kept := by
        intro j n
        by_cases hj : j = i
        · subst hj
          simp only [setStage, if_true]
          exact fun _ h => (nomatch h)
        · simpa only [setStage, if_neg hj] using hi.kept j n hj }

theorem inv_raise {s : St} {i : Nat} (hi : InvX s i) (hs : ∀ n, Obs.sent i n ∉ s.log) : Inv (setStage s i .raised) :=
  { from_log := hi.from_log, in_log := hi.in_log, key := hi.key, distinct := hi.distinct, nodup := hi.nodup
    waiting := by
      intro j
      by_cases hj : j = i
      · subst hj
        simp only [setStage, if_true]
        exact ⟨fun h => (nomatch h), fun h => absurd h hi.out⟩
      · simpa only [setStage, if_neg hj] using hi.waiting j hj
    bound := by
      intro j
      by_cases hj : j = i
      · subst hj; simp [setStage]
      · simpa only [setStage, if_neg hj] using hi.bound j hj
    own := by
      intro j b
      by_cases hj : j = i
      · subst hj; simp [setStage]
      · simpa only [setStage, if_neg hj] using hi.own j b hj
    sent := by
      intro j
      by_cases hj : j = i
      · subst hj; simp [setStage]
      · simpa only [setStage, if_neg hj] using hi.sent j hj
    kept := by
      intro j n
      by_cases hj : j = i
      · subst hj; exact fun h => absurd h (hs n)
      · simpa only [setStage, if_neg hj] using hi.kept j n hj }

theorem Inv.fresh {s : St} (hi : Inv s) (n : Nat) : Obs.sent s.nCall n ∉ s.log := fun h => Nat.lt_irrefl _ (hi.key _ _ h).1

theorem Inv.fresh_out {s : St} (hi : Inv s) : s.nCall ∉ s.queue ++ s.woken := by
  intro h
  have := (hi.waiting _).mpr h
  exact Nat.lt_irrefl _ (hi.bound s.nCall (by rw [this]; exact fun h => nomatch h))

theorem Inv.queryX {s : St} (hi : Inv s) (n : Nat) : InvX { s with nCall := s.nCall + 1, key := fun j => if j = s.nCall then n else s.key j } s.nCall :=
  { from_log := hi.from_log, in_log := hi.in_log, distinct := hi.distinct, nodup := hi.nodup, out := hi.fresh_out
    key := by
      intro j m hj
      have := hi.key j m hj
      refine ⟨Nat.lt_succ_of_lt this.1, ?_⟩
      dsimp only
      rw [if_neg (Nat.ne_of_lt this.1)]; exact this.2
    waiting := fun j _ => hi.waiting j
    bound := fun j _ h => Nat.lt_succ_of_lt (hi.bound j h)
    own := by
      intro j a hj h
      dsimp only
      rw [if_neg hj]; exact hi.own j a h
    sent := by
      intro j hj h
      dsimp only
      rw [if_neg hj]; exact hi.sent j h
    kept := fun j m _ => hi.kept j m }

theorem Inv.sendX {s : St} (hi : Inv s) (n : Nat) (o : List Bytes) :
    InvX { s with nCall := s.nCall + 1, key := fun j => if j = s.nCall then n else s.key j, out := o, log := s.log ++ [.sent s.nCall n] } s.nCall :=
  { from_log := fun k a h => List.mem_append_left _ (hi.from_log k a h)
    in_log := fun k a h => hi.in_log k a (by simpa using h)
    nodup := hi.nodup, out := hi.fresh_out
    distinct := by
      dsimp only
      rw [sents_append, List.map_append]
      refine List.nodup_append.mpr ⟨hi.distinct, by simp [sents], ?_⟩
      intro a ha b hb e
      obtain ⟨⟨i, m⟩, hm, rfl⟩ := List.mem_map.mp ha
      have hb : b = s.nCall := by simpa [sents] using hb
      have := (hi.key i m (mem_sents.mp hm)).1
      dsimp only at e
      omega
    key := by
      intro j m hj
      dsimp only at hj ⊢
      rcases List.mem_append.mp hj with hj | hj
      · have := hi.key j m hj
        exact ⟨Nat.lt_succ_of_lt this.1, by rw [if_neg (Nat.ne_of_lt this.1)]; exact this.2⟩
      · have : j = s.nCall ∧ m = n := by simpa using hj
        obtain ⟨rfl, rfl⟩ := this
        exact ⟨Nat.lt_succ_self _, if_pos rfl⟩
    waiting := fun j _ => hi.waiting j
    bound := fun j _ h => Nat.lt_succ_of_lt (hi.bound j h)
    own := by
      intro j a hj h
      dsimp only
      rw [if_neg hj]; exact List.mem_append_left _ (hi.own j a h)
    sent := by
      intro j hj h
      dsimp only
      rw [if_neg hj]; exact List.mem_append_left _ (hi.sent j h)
    kept := by
      intro j m hj h
      exact hi.kept j m (by simpa [hj] using h) }

theorem inv_query {s : St} (hi : Inv s) (n : Nat) (cmd : Str) (args : List Str) : Inv (query env cls s n cmd args) := by
  unfold query
  dsimp only
  cases serialize env 0 ((request n cmd args).val cls) with
  | error e => exact inv_raise (hi.queryX n) hi.fresh
  | ok b =>
    dsimp only
    split
    · exact inv_await (hi.sendX n _) (Nat.lt_succ_self _) (by simp)
    · exact inv_raise (hi.queryX n) hi.fresh

theorem inv_data {s : St} (hi : Inv s) (b : Bytes) : Inv (data env depth cls s b) := by
  obtain ⟨h1, h2, h3⟩ := accept_get (cls := cls) ((s.cli.des.update b).next env depth cls).1 s.cli.responses
  have hs : sents (s.log ++ responses env depth cls s.cli b) = sents s.log := by
    rw [sents_append, sents_nil responses_came, List.append_nil]
  have hsent : ∀ j m, Obs.sent j m ∈ s.log ++ responses env depth cls s.cli b → Obs.sent j m ∈ s.log := by
    intro j m h
    have := mem_sents.mpr h
    rw [hs] at this
    exact mem_sents.mp this
  exact {
    from_log := by
      intro k a h
      rcases h1 k a h with h | h
      · exact List.mem_append_left _ (hi.from_log k a h)
      · exact List.mem_append_right _ h
    in_log := by
      intro k a h
      rcases List.mem_append.mp h with h | h
      · exact h2 k (hi.in_log k a h)
      · exact h3 k a h
    key := fun j m h => hi.key j m (hsent j m h)
    distinct := by show ((sents (s.log ++ responses env depth cls s.cli b)).map _).Nodup; rw [hs]; exact hi.distinct
    waiting := hi.waiting, nodup := hi.nodup, bound := hi.bound
    own := fun j a h => List.mem_append_left _ (hi.own j a h)
    sent := fun j h => List.mem_append_left _ (hi.sent j h)
    kept := fun j m h => hi.kept j m (hsent j m h) }

theorem inv_notify {s : St} (hi : Inv s) : Inv (notify s) := by
  unfold notify
  split
  · exact hi
  · exact { hi with }
  · next k i q hn hq =>
    have hp : (q ++ (s.woken ++ [i])).Perm (s.queue ++ s.woken) := by
      rw [hq, ← List.append_assoc]
      exact List.perm_append_singleton i (q ++ s.woken)
    exact { hi with
      waiting := fun j => (hi.waiting j).trans hp.mem_iff.symm
      nodup := hp.nodup_iff.mpr hi.nodup }

theorem Inv.resumeX {s : St} (hi : Inv s) {i : Nat} (h : i ∈ s.woken) : InvX { s with woken := s.woken.erase i } i := by
  have hq : i ∉ s.queue := fun hq => (List.nodup_append.mp hi.nodup).2.2 i hq i h rfl
  have hw := (List.nodup_append.mp hi.nodup).2.1
  have hd := (List.nodup_append.mp hi.nodup).2.2
  exact {
    from_log := hi.from_log, in_log := hi.in_log, key := hi.key, distinct := hi.distinct
    waiting := by
      intro j hj
      rw [hi.waiting j]
      simp only [List.mem_append, List.mem_erase_of_ne hj]
    out := by
      simp only [List.mem_append, not_or]
      exact ⟨hq, fun h => (hw.mem_erase_iff.mp h).1 rfl⟩
    nodup := List.nodup_append.mpr ⟨(List.nodup_append.mp hi.nodup).1, hw.erase i, fun a ha b hb => hd a ha b (List.mem_of_mem_erase hb)⟩
    bound := fun j _ => hi.bound j
    own := fun j a _ => hi.own j a
    sent := fun j _ => hi.sent j
    kept := fun j m _ => hi.kept j m }

theorem Inv.stage_woken {s : St} (hi : Inv s) {i : Nat} (h : i ∈ s.woken) : s.stage i = .waiting := (hi.waiting i).mpr (List.mem_append_right _ h)

theorem inv_resume {s : St} (hi : Inv s) (i : Nat) : Inv (resume s i) := by
  unfold resume
  split
  · next h =>
    have hne : s.stage i ≠ .raised := by rw [hi.stage_woken h]; exact fun h => nomatch h
    exact inv_await (hi.resumeX h) (hi.bound i hne) (hi.sent i hne)
  · exact hi

theorem inv_cancel {s : St} (hi : Inv s) (i : Nat) : Inv (cancel s i) := by
  unfold cancel
  split
  · next hw =>
    have hne : s.stage i ≠ .raised := by rw [hw]; exact fun h => nomatch h
    obtain ⟨n1, n2, n3⟩ := List.nodup_append.mp hi.nodup
    exact {
      from_log := hi.from_log, in_log := hi.in_log, key := hi.key, distinct := hi.distinct
      nodup := List.nodup_append.mpr ⟨n1.erase i, n2.erase i, fun a ha b hb => n3 a (List.mem_of_mem_erase ha) b (List.mem_of_mem_erase hb)⟩
      waiting := by
        intro j
        by_cases hj : j = i
        · subst hj
          simp only [setStage, if_true]
          refine ⟨fun h => (nomatch h), fun h => ?_⟩
          rcases List.mem_append.mp h with h | h
          · exact absurd rfl (n1.mem_erase_iff.mp h).1
          · exact absurd rfl (n2.mem_erase_iff.mp h).1
        · simp only [setStage, if_neg hj, List.mem_append, List.mem_erase_of_ne hj]
          simpa using hi.waiting j
      bound := by
        intro j
        by_cases hj : j = i
        · subst hj; exact fun _ => hi.bound _ hne
        · simpa only [setStage, if_neg hj] using hi.bound j
      own := by
        intro j b
        by_cases hj : j = i
        · subst hj
          simp only [setStage, if_true]
          exact fun h => (nomatch h)
        · simpa only [setStage, if_neg hj] using hi.own j b
      sent := by
        intro j
        by_cases hj : j = i
        · subst hj; exact fun _ => hi.sent _ hne
        · simpa only [setStage, if_neg hj] using hi.sent j
      kept := by
        intro j n
        by_cases hj : j = i
        · subst hj
          simp only [setStage, if_true]
          exact fun _ h => (nomatch h)
        · simpa only [setStage, if_neg hj] using hi.kept j n }
  · exact hi

theorem inv_step {s : St} (hi : Inv s) (e : Ev) : Inv (step env depth cls s e) := by
  cases e with
  | query n cmd args => exact inv_query hi n cmd args
  | data b => exact inv_data hi b
  | notify => exact inv_notify hi
  | resume i => exact inv_resume hi i
  | cancel i => exact inv_cancel hi i
  | lost => exact { hi with }

theorem inv_exec {s : St} (hi : Inv s) : ∀ h, Inv (exec env depth cls s h) := by
  intro h
  induction h generalizing s with
  | nil => exact hi
  | cons e h ih => exact ih (inv_step hi e)

/-! ## The log only grows -/

theorem await_log (s : St) (i : Nat) : (await s i).log = s.log := by
  unfold await; split <;> rfl

theorem await_notes (s : St) (i : Nat) : (await s i).notes = s.notes := by
  unfold await; split <;> rfl

theorem await_woken (s : St) (i : Nat) : (await s i).woken = s.woken := by
  unfold await; split <;> rfl

theorem await_cli (s : St) (i : Nat) : (await s i).cli = s.cli := by
  unfold await; split <;> rfl

theorem await_key (s : St) (i : Nat) : (await s i).key = s.key := by
  unfold await; split <;> rfl

theorem notify_log (s : St) : (notify s).log = s.log := by
  unfold notify; split <;> rfl

theorem step_log (s : St) (e : Ev) : s.log <+: (step env depth cls s e).log := by
  cases e with
  | query n cmd args =>
    show s.log <+: (query env cls s n cmd args).log
    unfold query
    dsimp only
    split
    · exact List.prefix_rfl
    · split
      · rw [await_log]; exact List.prefix_append ..
      · exact List.prefix_rfl
  | data b => exact List.prefix_append ..
  | notify => rw [show (step env depth cls s .notify).log = s.log from notify_log s]; exact List.prefix_rfl
  | resume i =>
    show s.log <+: (resume s i).log
    unfold resume
    split
    · rw [await_log]; exact List.prefix_rfl
    · exact List.prefix_rfl
  | cancel i =>
    show s.log <+: (cancel s i).log
    unfold cancel
    split <;> exact List.prefix_rfl
  | lost => exact List.prefix_rfl

theorem exec_log (s : St) (t r : List Ev) : (exec env depth cls s t).log <+: (exec env depth cls s (t ++ r)).log := by
  induction r using snocInd with
  | nil => rw [List.append_nil]; exact List.prefix_rfl
  | snoc r e ih => rw [← List.append_assoc, exec_snoc]; exact ih.trans (step_log _ _)

theorem exec_sents {s : St} {t h : List Ev} (ht : t <+: h) {x : Nat × Nat} (hx : x ∈ sents (exec env depth cls s t).log) :
    x ∈ sents (exec env depth cls s h).log := by
  obtain ⟨r, rfl⟩ := ht
  obtain ⟨m, hm⟩ := exec_log (env := env) (depth := depth) (cls := cls) s t r
  rw [← hm, sents_append]
  exact List.mem_append_left _ hx

theorem InOrder.mono {l m : List Obs} (h : InOrder m) (hp : l <+: m) : InOrder l := by
  obtain ⟨r, rfl⟩ := hp
  refine ⟨?_, fun l1 l2 e => h.order l1 (l2 ++ r) (by rw [e, List.append_assoc])⟩
  have := h.different
  rw [sents_append, List.map_append] at this
  exact (List.nodup_append.mp this).1

end Verif.Spmp.Ask
