import Verif.Lemmas.Query
import Verif.Props.Spmp
/-! # C88: a management query returns its own answer once it has arrived -/
namespace Verif.Spmp.Ask

variable {env : Env} {depth : Nat} {cls : Cls}

/-! ## What a call returns -/

/-- C88: whatever a call of `query` returns came over the connection, as the result and error of a response with the id of this call. -/
theorem C88_own (env : Env) (depth : Nat) (cls : Cls) (h : List Ev) (i : Nat) (a : Option Str × Option Str)
    (hr : (exec env depth cls (.init env depth cls) h).stage i = .returned a) :
    let s := exec env depth cls (.init env depth cls) h
    Obs.sent i (s.key i) ∈ s.log ∧ Obs.came (some (s.key i : Int)) a ∈ s.log := by
  have hi := inv_exec (inv_init (env := env) (depth := depth) (cls := cls)) (env := env) (depth := depth) (cls := cls) h
  exact ⟨hi.sent i (by rw [hr]; exact fun h => nomatch h), hi.own i a hr⟩

/-! ## Calls that were not cancelled -/

theorem await_stage (s : St) (i j : Nat) (h : (await s i).stage j = .cancelled) : j ≠ i ∧ s.stage j = .cancelled := by
  unfold await at h
  split at h
  all_goals
    simp only [setStage] at h
    split at h
    · cases h
    · next hj => exact ⟨hj, h⟩

theorem step_cancelled (s : St) (e : Ev) (j : Nat) (h : (step env depth cls s e).stage j = .cancelled) : s.stage j = .cancelled ∨ e = .cancel j := by
  cases e with
  | query n cmd args =>
    left
    change (query env cls s n cmd args).stage j = _ at h
    unfold query at h
    dsimp only at h
    split at h
    · simp only [setStage] at h
      split at h
      · cases h
      · exact h
    · split at h
      · exact (await_stage _ _ _ h).2
      · simp only [setStage] at h
        split at h
        · cases h
        · exact h
  | data b => exact .inl h
  | notify =>
    left
    change (notify s).stage j = _ at h
    unfold notify at h
    split at h <;> exact h
  | resume i =>
    left
    change (resume s i).stage j = _ at h
    unfold resume at h
    split at h
    · exact (await_stage _ _ _ h).2
    · exact h
  | cancel i =>
    change (cancel s i).stage j = _ at h
    unfold cancel at h
    split at h
    · simp only [setStage] at h
      split at h
      · next e => subst e; exact .inr rfl
      · exact .inl h
    · exact .inl h
  | lost => exact .inl h

theorem exec_cancelled (h : List Ev) (s : St) (j : Nat) (hs : s.stage j ≠ .cancelled) (hc : Ev.cancel j ∉ h) :
    (exec env depth cls s h).stage j ≠ .cancelled := by
  induction h generalizing s with
  | nil => exact hs
  | cons e h ih =>
    refine ih (step env depth cls s e) (fun hx => ?_) (fun hm => hc (List.mem_cons_of_mem _ hm))
    rcases step_cancelled s e j hx with hx | hx
    · exact hs hx
    · exact hc (by rw [hx]; exact List.mem_cons_self ..)

/-- A call whose request was written and that nobody cancelled is waiting or has returned. -/
theorem sent_stage (h : List Ev) (i n : Nat) (hs : Obs.sent i n ∈ (exec env depth cls (.init env depth cls) h).log) (hc : Ev.cancel i ∉ h) :
    (exec env depth cls (.init env depth cls) h).stage i = .waiting ∨ ∃ a, (exec env depth cls (.init env depth cls) h).stage i = .returned a := by
  have hi := inv_exec (inv_init (env := env) (depth := depth) (cls := cls)) (env := env) (depth := depth) (cls := cls) h
  have h1 := hi.kept i n hs
  have h2 := exec_cancelled (env := env) (depth := depth) (cls := cls) h (.init env depth cls) i (by simp [St.init]) hc
  cases hst : (exec env depth cls (.init env depth cls) h).stage i with
  | waiting => exact .inl rfl
  | returned a => exact .inr ⟨a, rfl⟩
  | raised => exact absurd hst h1
  | cancelled => exact absurd hst h2

/-! ## The event loop settles -/

/-- The step does something. -/
def Enabled (s : St) : Ev → Prop
  | .notify => s.notes ≠ 0
  | .resume i => i ∈ s.woken
  | _ => True

/-- Every step of the list does something, when they are done in order. -/
def AllEnabled (env : Env) (depth : Nat) (cls : Cls) : St → List Ev → Prop
  | _, [] => True
  | s, e :: t => Enabled s e ∧ AllEnabled env depth cls (step env depth cls s e) t

theorem own_dec (s : St) (e : Ev) (ho : e.own) (he : Enabled s e) :
    2 * (step env depth cls s e).notes + (step env depth cls s e).woken.length + 1 ≤ 2 * s.notes + s.woken.length := by
  cases e with
  | notify =>
    show 2 * (notify s).notes + (notify s).woken.length + 1 ≤ _
    unfold notify
    split
    · next h => exact absurd h he
    · next k h _ => rw [h]; dsimp only; omega
    · next k i q h hq => rw [h]; simp only [List.length_append, List.length_singleton]; omega
  | resume i =>
    show 2 * (resume s i).notes + (resume s i).woken.length + 1 ≤ _
    have hm : i ∈ s.woken := he
    unfold resume
    rw [if_pos hm, await_notes, await_woken]
    dsimp only
    rw [List.length_erase_of_mem hm]
    have := List.length_pos_of_mem hm
    omega
  | query _ _ _ => exact absurd ho id
  | data _ => exact absurd ho id
  | cancel _ => exact absurd ho id
  | lost => exact absurd ho id

/-- C88: after any history the event loop has only finitely many steps left to do. -/
theorem C88_settles (env : Env) (depth : Nat) (cls : Cls) (s : St) (t : List Ev) (ho : ∀ e ∈ t, e.own) (he : AllEnabled env depth cls s t) :
    t.length ≤ 2 * s.notes + s.woken.length := by
  induction t generalizing s with
  | nil => exact Nat.zero_le _
  | cons e t ih =>
    have h1 := own_dec (env := env) (depth := depth) (cls := cls) s e (ho e (List.mem_cons_self ..)) he.1
    have h2 := ih _ (fun x hx => ho x (List.mem_cons_of_mem _ hx)) he.2
    rw [List.length_cons]
    omega

/-- ... and if none is left, it is idle. -/
theorem C88_idle (s : St) (h : ∀ e : Ev, e.own → ¬ Enabled s e) : Idle s := by
  refine ⟨Decidable.byContradiction fun hn => h .notify trivial hn, ?_⟩
  cases hw : s.woken with
  | nil => rfl
  | cons i w => exact absurd (by rw [hw]; exact List.mem_cons_self .. : i ∈ s.woken) (h (.resume i) trivial)

/-! ## Responses in the order of the requests -/

/-- The waiters are: as many answered calls as there are notifications to come, and then the calls that are not answered. -/
structure Ord (s : St) : Prop where
  shape : ∃ A, s.queue = A ++ ((sents s.log).map (·.1)).drop (cames s.log).length ∧ A.length = s.notes ∧ ∀ i ∈ A, i ∈ ((sents s.log).map (·.1)).take (cames s.log).length
  woken : ∀ i ∈ s.woken, i ∈ ((sents s.log).map (·.1)).take (cames s.log).length

theorem InOrder.cames_eq {l : List Obs} (h : InOrder l) : cames l = ((sents l).map fun x => some (x.2 : Int)).take (cames l).length := by
  obtain ⟨r, hr⟩ := h.order l [] (by simp)
  rw [← hr]
  simp

/-- A call among the first `n`, whose id is then among the first `n` ids. -/
theorem took {s : St} (hi : Inv s) {i n : Nat} (h : i ∈ ((sents s.log).map (·.1)).take n) : some (s.key i : Int) ∈ ((sents s.log).map fun x => some (x.2 : Int)).take n := by
  rw [← List.map_take] at h ⊢
  obtain ⟨⟨j, m⟩, hm, rfl⟩ := List.mem_map.mp h
  refine List.mem_map.mpr ⟨(j, m), hm, ?_⟩
  have := (hi.key j m (mem_sents.mp (List.mem_of_mem_take hm))).2
  dsimp only
  rw [this]

theorem dropped {s : St} (hi : Inv s) {i n : Nat} (h : i ∈ ((sents s.log).map (·.1)).drop n) : some (s.key i : Int) ∈ ((sents s.log).map fun x => some (x.2 : Int)).drop n := by
  rw [← List.map_drop] at h ⊢
  obtain ⟨⟨j, m⟩, hm, rfl⟩ := List.mem_map.mp h
  refine List.mem_map.mpr ⟨(j, m), hm, ?_⟩
  have := (hi.key j m (mem_sents.mp (List.mem_of_mem_drop hm))).2
  dsimp only
  rw [this]

theorem InOrder.nodup {l : List Obs} (h : InOrder l) : ((sents l).map fun x => some (x.2 : Int)).Nodup := by
  have := h.different
  generalize sents l = m at this
  induction m with
  | nil => exact List.nodup_nil
  | cons x m ih =>
    rw [List.map_cons, List.nodup_cons] at this ⊢
    refine ⟨fun hx => this.1 ?_, ih this.2⟩
    obtain ⟨y, hy, e⟩ := List.mem_map.mp hx
    have e : (y.2 : Int) = x.2 := by injection e
    exact List.mem_map.mpr ⟨y, hy, by omega⟩

theorem ord_answered {s : St} (hi : Inv s) (ho : InOrder s.log) {i : Nat} (h : i ∈ ((sents s.log).map (·.1)).take (cames s.log).length) : Answered s i := by
  unfold Answered
  rw [answer_iff hi, ho.cames_eq]
  exact took hi h

theorem ord_unanswered {s : St} (hi : Inv s) (ho : InOrder s.log) {i : Nat} (h : i ∈ ((sents s.log).map (·.1)).drop (cames s.log).length) : ¬ Answered s i := by
  unfold Answered
  rw [answer_iff hi, ho.cames_eq]
  intro hm
  have hn := ho.nodup
  rw [← List.take_append_drop (cames s.log).length ((sents s.log).map fun x => some (x.2 : Int))] at hn
  exact (List.nodup_append.mp hn).2.2 _ hm _ (dropped hi h) rfl

theorem InOrder.length_le {l : List Obs} (h : InOrder l) : (cames l).length ≤ (sents l).length := by
  have := (h.order l [] (by simp)).length_le
  simpa using this

theorem ord_step {s : St} (hi : Inv s) (hd : Ord s) (e : Ev) (hc : ∀ i, e ≠ .cancel i) (ho : InOrder (step env depth cls s e).log) :
    Ord (step env depth cls s e) := by
  have ho0 := ho.mono (step_log (env := env) (depth := depth) (cls := cls) s e)
  cases e with
  | query n cmd args =>
    change InOrder (query env cls s n cmd args).log at ho
    show Ord (query env cls s n cmd args)
    unfold query at ho ⊢
    dsimp only at ho ⊢
    split
    · exact ⟨hd.shape, hd.woken⟩
    · next b hb =>
      rw [hb] at ho
      dsimp only at ho
      split
      · next hup =>
        rw [if_pos hup, await_log] at ho
        dsimp only at ho
        have hcam : cames (s.log ++ [Obs.sent s.nCall n]) = cames s.log := by rw [cames_append]; simp [cames]
        have hsen : (sents (s.log ++ [Obs.sent s.nCall n])).map (·.1) = (sents s.log).map (·.1) ++ [s.nCall] := by rw [sents_append]; simp [sents]
        have hlen : (cames s.log).length ≤ ((sents s.log).map (·.1)).length := by rw [List.length_map]; exact ho0.length_le
        have hnone : s.cli.answer n = none := by
          cases ha : s.cli.answer n with
          | none => rfl
          | some a =>
            exfalso
            have hm : some (n : Int) ∈ cames s.log := (answer_iff hi n).mp (by rw [ha]; exact fun h => nomatch h)
            rw [ho0.cames_eq] at hm
            obtain ⟨y, hy, e⟩ := List.mem_map.mp (List.mem_of_mem_take hm)
            have e : (y.2 : Int) = n := by injection e
            have hdif := ho.different
            rw [sents_append, List.map_append] at hdif
            exact (List.nodup_append.mp hdif).2.2 y.2 (List.mem_map.mpr ⟨y, hy, rfl⟩) n (by simp [sents]) (by omega)
        unfold await
        dsimp only
        rw [if_pos rfl, hnone]
        dsimp only
        obtain ⟨A, h1, h2, h3⟩ := hd.shape
        constructor
        · refine ⟨A, ?_, h2, ?_⟩
          · show s.queue ++ [s.nCall] = A ++ ((sents (s.log ++ [Obs.sent s.nCall n])).map (·.1)).drop (cames (s.log ++ [Obs.sent s.nCall n])).length
            rw [hcam, hsen, List.drop_append_of_le_length hlen, h1, List.append_assoc]
          · intro i hA
            show i ∈ ((sents (s.log ++ [Obs.sent s.nCall n])).map (·.1)).take (cames (s.log ++ [Obs.sent s.nCall n])).length
            rw [hcam, hsen, List.take_append_of_le_length hlen]
            exact h3 i hA
        · intro i hA
          show i ∈ ((sents (s.log ++ [Obs.sent s.nCall n])).map (·.1)).take (cames (s.log ++ [Obs.sent s.nCall n])).length
          rw [hcam, hsen, List.take_append_of_le_length hlen]
          exact hd.woken i hA
      · exact ⟨hd.shape, hd.woken⟩
  | data b =>
    change InOrder (s.log ++ responses env depth cls s.cli b) at ho
    have hs : sents (s.log ++ responses env depth cls s.cli b) = sents s.log := by rw [sents_append, sents_nil responses_came, List.append_nil]
    have hcl : (cames (s.log ++ responses env depth cls s.cli b)).length = (cames s.log).length + (responses env depth cls s.cli b).length := by
      rw [cames_append, List.length_append, cames_length responses_came]
    have hle := ho.length_le
    rw [hs, hcl] at hle
    obtain ⟨A, h1, h2, h3⟩ := hd.shape
    generalize hm : (responses env depth cls s.cli b).length = m at hcl hle
    have hsub : ∀ i, i ∈ ((sents s.log).map (·.1)).take (cames s.log).length → i ∈ ((sents s.log).map (·.1)).take ((cames s.log).length + m) := by
      intro i h
      rw [List.take_add]
      exact List.mem_append_left _ h
    constructor
    · refine ⟨A ++ (((sents s.log).map (·.1)).drop (cames s.log).length).take m, ?_, ?_, ?_⟩
      · show s.queue = _ ++ ((sents (s.log ++ responses env depth cls s.cli b)).map (·.1)).drop (cames (s.log ++ responses env depth cls s.cli b)).length
        rw [hs, hcl, h1, List.append_assoc, ← List.drop_drop, List.take_append_drop]
      · show _ = s.notes + (responses env depth cls s.cli b).length
        rw [hm, List.length_append, h2, List.length_take, List.length_drop, List.length_map]
        omega
      · intro i hi
        show i ∈ ((sents (s.log ++ responses env depth cls s.cli b)).map (·.1)).take (cames (s.log ++ responses env depth cls s.cli b)).length
        rw [hs, hcl]
        rcases List.mem_append.mp hi with hi | hi
        · exact hsub i (h3 i hi)
        · rw [List.take_add]
          exact List.mem_append_right _ hi
    · intro i hi
      show i ∈ ((sents (s.log ++ responses env depth cls s.cli b)).map (·.1)).take (cames (s.log ++ responses env depth cls s.cli b)).length
      rw [hs, hcl]
      exact hsub i (hd.woken i hi)
  | notify =>
    show Ord (notify s)
    obtain ⟨A, h1, h2, h3⟩ := hd.shape
    unfold notify
    split
    · exact hd
    · next k hk hq =>
      rw [hk] at h2
      cases A with
      | nil => cases h2
      | cons a A => rw [hq] at h1; cases h1
    · next k i q hk hq =>
      rw [hk] at h2
      cases A with
      | nil => cases h2
      | cons a A =>
        rw [hq] at h1
        injection h1 with h1 h1'
        subst h1
        refine ⟨⟨A, h1', by simpa using h2, fun j hj => h3 j (List.mem_cons_of_mem _ hj)⟩, ?_⟩
        intro j hj
        rcases List.mem_append.mp hj with hj | hj
        · exact hd.woken j hj
        · rw [List.mem_singleton] at hj
          subst hj
          exact h3 _ (List.mem_cons_self ..)
  | resume i =>
    show Ord (resume s i)
    unfold resume
    split
    · next hw =>
      have ha := ord_answered hi ho0 (hd.woken i hw)
      unfold await
      cases hx : s.cli.answer (s.key i) with
      | none => exact absurd hx ha
      | some a =>
        dsimp only
        exact ⟨hd.shape, fun j hj => hd.woken j (List.mem_of_mem_erase hj)⟩
    · exact hd
  | cancel i => exact absurd rfl (hc i)
  | lost => exact ⟨hd.shape, hd.woken⟩

theorem ord_exec (h : List Ev) (hc : ∀ i, Ev.cancel i ∉ h) (ho : InOrder (exec env depth cls (.init env depth cls) h).log) :
    Ord (exec env depth cls (.init env depth cls) h) := by
  induction h using snocInd with
  | nil => exact ⟨⟨[], by simp [exec, St.init, sents, cames]⟩, by simp [exec, St.init]⟩
  | snoc h e ih =>
    rw [exec_snoc] at ho ⊢
    exact ord_step (inv_exec inv_init h) (ih (fun i hm => hc i (List.mem_append_left _ hm)) (ho.mono (step_log _ _))) e
      (fun i he => hc i (by rw [he]; simp)) ho

/-- C88, the part that holds for calls at the same time: if the peer answers in the order of the requests and nobody cancels a call, then no call is
left waiting for a response that is there, once the event loop has nothing to do. -/
theorem C88_in_order_partial (env : Env) (depth : Nat) (cls : Cls) (h : List Ev) (hc : ∀ i, Ev.cancel i ∉ h)
    (ho : InOrder (exec env depth cls (.init env depth cls) h).log) (hidle : Idle (exec env depth cls (.init env depth cls) h))
    (i : Nat) (hw : (exec env depth cls (.init env depth cls) h).stage i = .waiting) : ¬ Answered (exec env depth cls (.init env depth cls) h) i := by
  have hi := inv_exec (inv_init (env := env) (depth := depth) (cls := cls)) (env := env) (depth := depth) (cls := cls) h
  obtain ⟨⟨A, h1, h2, h3⟩, -⟩ := ord_exec h hc ho
  rw [hidle.1] at h2
  have hA : A = [] := List.length_eq_zero_iff.mp h2
  subst hA
  have hq := (hi.waiting i).mp hw
  rw [hidle.2, List.append_nil, h1] at hq
  exact ord_unanswered hi ho hq

/-! ## One call at a time -/

theorem alone_step {s : St} (hi : Inv s) (e : Ev) (halone : ∀ i j, s.stage i = .waiting → s.stage j = .waiting → i = j)
    (hd : ∀ i, s.stage i = .waiting → Answered s i → i ∈ s.woken ∨ s.notes ≠ 0) :
    ∀ i, (step env depth cls s e).stage i = .waiting → Answered (step env depth cls s e) i → i ∈ (step env depth cls s e).woken ∨ (step env depth cls s e).notes ≠ 0 := by
  have hawait : ∀ (s : St) (i j : Nat), (await s i).stage j = .waiting → Answered (await s i) j → j ≠ i ∧ s.stage j = .waiting ∧ Answered s j := by
    intro s i j h1 h2
    unfold Answered at h2 ⊢
    rw [await_cli, await_key] at h2
    unfold await at h1
    split at h1
    · simp only [setStage] at h1
      split at h1
      · cases h1
      · next hj => exact ⟨hj, h1, h2⟩
    · next hn =>
      simp only [setStage] at h1
      split at h1
      · next hj => subst hj; exact absurd hn h2
      · next hj => exact ⟨hj, h1, h2⟩
  intro i hw ha
  cases e with
  | query n cmd args =>
    change (query env cls s n cmd args).stage i = _ at hw
    change Answered (query env cls s n cmd args) i at ha
    show i ∈ (query env cls s n cmd args).woken ∨ (query env cls s n cmd args).notes ≠ 0
    have hkey : i ≠ s.nCall → (if i = s.nCall then n else s.key i) = s.key i := fun h => if_neg h
    unfold query at hw ha ⊢
    dsimp only at hw ha ⊢
    generalize serialize env 0 ((request n cmd args).val cls) = r at hw ha ⊢
    cases r with
    | error e =>
      dsimp only [setStage] at hw ha ⊢
      by_cases hj : i = s.nCall
      · rw [if_pos hj] at hw; cases hw
      · rw [if_neg hj] at hw
        unfold Answered at ha
        simp only [hkey hj] at ha
        exact hd i hw ha
    | ok b =>
      dsimp only at hw ha ⊢
      by_cases hup : s.up = true
      · rw [if_pos hup] at hw ha ⊢
        obtain ⟨hj, hw, ha⟩ := hawait _ _ _ hw ha
        rw [await_woken, await_notes]
        unfold Answered at ha
        simp only [hkey hj] at ha
        exact hd i hw ha
      · rw [if_neg hup] at hw ha ⊢
        dsimp only [setStage] at hw ha ⊢
        by_cases hj : i = s.nCall
        · rw [if_pos hj] at hw; cases hw
        · rw [if_neg hj] at hw
          unfold Answered at ha
          simp only [hkey hj] at ha
          exact hd i hw ha
  | data b =>
    show i ∈ s.woken ∨ s.notes + (responses env depth cls s.cli b).length ≠ 0
    by_cases hl : (responses env depth cls s.cli b) = []
    · have hx : Answered s i := by
        have h1 := (answer_iff (inv_data (env := env) (depth := depth) (cls := cls) hi b) (s.key i)).mp ha
        refine (answer_iff hi (s.key i)).mpr ?_
        have e : (data env depth cls s b).log = s.log := by simp [data, hl]
        rw [e] at h1; exact h1
      rcases hd i hw hx with h | h
      · exact .inl h
      · exact .inr (by omega)
    · right
      have := List.length_pos_iff.mpr hl
      omega
  | notify =>
    change (notify s).stage i = _ at hw
    change Answered (notify s) i at ha
    show i ∈ (notify s).woken ∨ (notify s).notes ≠ 0
    have e1 : (notify s).stage = s.stage := by unfold notify; split <;> rfl
    have e2 : (notify s).cli = s.cli := by unfold notify; split <;> rfl
    have e3 : (notify s).key = s.key := by unfold notify; split <;> rfl
    unfold Answered at ha
    rw [e1] at hw
    rw [e2, e3] at ha
    unfold notify
    split
    · exact hd i hw ha
    · next k hn hq =>
      have := (hi.waiting i).mp hw
      rw [hq] at this
      exact .inl this
    · next k j q hn hq =>
      have hj : s.stage j = .waiting := (hi.waiting j).mpr (by rw [hq]; simp)
      have := halone i j hw hj
      subst this
      exact .inl (by simp)
  | resume j =>
    change (resume s j).stage i = _ at hw
    change Answered (resume s j) i at ha
    show i ∈ (resume s j).woken ∨ (resume s j).notes ≠ 0
    unfold resume at hw ha ⊢
    split at hw
    · next hj =>
      rw [if_pos hj] at ha ⊢
      obtain ⟨hne, hw, ha⟩ := hawait _ _ _ hw ha
      exact absurd (halone i j hw (hi.stage_woken hj)) hne
    · next hj =>
      rw [if_neg hj] at ha ⊢
      exact hd i hw ha
  | cancel j =>
    change (cancel s j).stage i = _ at hw
    change Answered (cancel s j) i at ha
    show i ∈ (cancel s j).woken ∨ (cancel s j).notes ≠ 0
    unfold cancel at hw ha ⊢
    split at hw
    · next hj =>
      rw [if_pos hj] at ha ⊢
      simp only [setStage] at hw
      split at hw
      · cases hw
      · next hne => exact absurd (halone i j hw hj) hne
    · next hj =>
      rw [if_neg hj] at ha ⊢
      exact hd i hw ha
  | lost => exact hd i hw ha

/-- C88, the part that holds for one call at a time, as the tools make them: if never two calls wait at the same time, then the call is not left
waiting for a response that is there, whatever other responses came, once the event loop has nothing to do. -/
theorem C88_alone_partial (env : Env) (depth : Nat) (cls : Cls) (h : List Ev)
    (halone : ∀ t, t <+: h → ∀ i j, (exec env depth cls (.init env depth cls) t).stage i = .waiting →
      (exec env depth cls (.init env depth cls) t).stage j = .waiting → i = j)
    (hidle : Idle (exec env depth cls (.init env depth cls) h))
    (i : Nat) (hw : (exec env depth cls (.init env depth cls) h).stage i = .waiting) : ¬ Answered (exec env depth cls (.init env depth cls) h) i := by
  have key : ∀ i, (exec env depth cls (.init env depth cls) h).stage i = .waiting → Answered (exec env depth cls (.init env depth cls) h) i →
      i ∈ (exec env depth cls (.init env depth cls) h).woken ∨ (exec env depth cls (.init env depth cls) h).notes ≠ 0 := by
    clear hidle hw
    induction h using snocInd with
    | nil => intro i hw; cases hw
    | snoc h e ih =>
      rw [exec_snoc]
      exact alone_step (inv_exec inv_init h) e (halone h (List.prefix_append ..)) (ih fun t ht => halone t (ht.trans (List.prefix_append ..)))
  intro ha
  rcases key i hw ha with hk | hk
  · rw [hidle.2] at hk; cases hk
  · exact hk hidle.1

/-- The two together with `sent_stage`: what was sent and answered has returned. -/
theorem C88_returns_in_order_partial (env : Env) (depth : Nat) (cls : Cls) (h : List Ev) (hc : ∀ i, Ev.cancel i ∉ h)
    (ho : InOrder (exec env depth cls (.init env depth cls) h).log) (hidle : Idle (exec env depth cls (.init env depth cls) h))
    (i n : Nat) (hs : Obs.sent i n ∈ (exec env depth cls (.init env depth cls) h).log) (a : Option Str × Option Str)
    (ha : Obs.came (some (n : Int)) a ∈ (exec env depth cls (.init env depth cls) h).log) :
    ∃ b, (exec env depth cls (.init env depth cls) h).stage i = .returned b := by
  have hi := inv_exec (inv_init (env := env) (depth := depth) (cls := cls)) (env := env) (depth := depth) (cls := cls) h
  rcases sent_stage h i n hs (hc i) with hw | hr
  · refine absurd ?_ (C88_in_order_partial env depth cls h hc ho hidle i hw)
    unfold Answered
    rw [(hi.key i n hs).2]
    exact hi.in_log _ _ ha
  · exact hr

/-! ## From the bytes -/

/-- The chunks that came. -/
def chunks (h : List Ev) : List Bytes := h.filterMap fun e => match e with | .data b => some b | _ => none

theorem chunks_append (h t : List Ev) : chunks (h ++ t) = chunks h ++ chunks t := by simp [chunks]

/-- The responses of a log. -/
def isCame : Obs → Bool
  | .came _ _ => true
  | .sent _ _ => false

theorem filter_responses {m : List Obs} (h : ∀ o ∈ m, ∃ k a, o = Obs.came k a) : m.filter isCame = m := by
  rw [List.filter_eq_self]
  intro o ho
  obtain ⟨k, a, rfl⟩ := h o ho
  rfl

theorem step_quiet (s : St) (e : Ev) (he : ∀ b, e ≠ .data b) :
    (step env depth cls s e).cli = s.cli ∧ (step env depth cls s e).log.filter isCame = s.log.filter isCame := by
  cases e with
  | query n cmd args =>
    show (query env cls s n cmd args).cli = _ ∧ (query env cls s n cmd args).log.filter isCame = _
    unfold query
    dsimp only
    split
    · exact ⟨rfl, rfl⟩
    · split
      · rw [await_cli, await_log]
        exact ⟨rfl, by simp [isCame]⟩
      · exact ⟨rfl, rfl⟩
  | data b => exact absurd rfl (he b)
  | notify =>
    refine ⟨?_, congrArg _ (notify_log s)⟩
    show (notify s).cli = _
    unfold notify
    split <;> rfl
  | resume i =>
    show (resume s i).cli = _ ∧ (resume s i).log.filter isCame = _
    unfold resume
    split
    · rw [await_cli, await_log]; exact ⟨rfl, rfl⟩
    · exact ⟨rfl, rfl⟩
  | cancel i =>
    show (cancel s i).cli = _ ∧ (cancel s i).log.filter isCame = _
    unfold cancel
    split <;> exact ⟨rfl, rfl⟩
  | lost => exact ⟨rfl, rfl⟩

/-- The responses of the log are the packets that the deserializer makes of the chunks. -/
theorem log_events (h : List Ev) : (exec env depth cls (.init env depth cls) h).cli.des = (runOps env depth cls (.init env depth cls) (opsOf (chunks h))).2 ∧
    (exec env depth cls (.init env depth cls) h).log.filter isCame = (runOps env depth cls (.init env depth cls) (opsOf (chunks h))).1.filterMap (response cls) := by
  induction h using snocInd with
  | nil => exact ⟨rfl, rfl⟩
  | snoc h e ih =>
    rw [exec_snoc, chunks_append]
    by_cases he : ∃ b, e = .data b
    · obtain ⟨b, rfl⟩ := he
      have e1 : opsOf (chunks h ++ chunks [.data b]) = opsOf (chunks h) ++ [.update b, .next] := by simp [opsOf, chunks]
      rw [e1, runOps_append]
      dsimp only [step, data, Client.data]
      rw [← ih.1]
      refine ⟨rfl, ?_⟩
      rw [List.filter_append, filter_responses responses_came, List.filterMap_append, ← ih.2]
      unfold responses
      simp only [runOps, List.append_nil]
    · have he' : ∀ b, e ≠ .data b := fun b hb => he ⟨b, hb⟩
      obtain ⟨h1, h2⟩ := step_quiet (env := env) (depth := depth) (cls := cls) (exec env depth cls (.init env depth cls) h) e he'
      have e1 : chunks [e] = [] := by
        cases e with
        | data b => exact absurd rfl (he' b)
        | _ => rfl
      rw [e1, List.append_nil, h1, h2]
      exact ih

theorem cames_filter (l : List Obs) : cames l = cames (l.filter isCame) := by
  induction l with
  | nil => rfl
  | cons o l ih =>
    cases o with
    | sent i n => simpa [cames, isCame] using ih
    | came k a =>
      rw [List.filter_cons_of_pos (by rfl)]
      simpa [cames] using ih

/-- It is enough that the responses are in order after every event. -/
theorem order_of_steps (h : List Ev)
    (ho : ∀ t, t <+: h → cames (exec env depth cls (.init env depth cls) t).log <+: (sents (exec env depth cls (.init env depth cls) t).log).map fun x => some (x.2 : Int)) :
    ∀ l1 l2, (exec env depth cls (.init env depth cls) h).log = l1 ++ l2 → cames l1 <+: (sents l1).map fun x => some (x.2 : Int) := by
  induction h using snocInd with
  | nil =>
    intro l1 l2 e
    have : l1 = [] := (List.append_eq_nil_iff.mp e.symm).1
    subst this
    exact List.nil_prefix
  | snoc h e ih =>
    have ih := ih fun t ht => ho t (ht.trans (List.prefix_append ..))
    have hlast := ho (h ++ [e]) (List.prefix_refl _)
    rw [exec_snoc] at hlast ⊢
    intro l1 l2 el
    obtain ⟨m, hm⟩ := step_log (env := env) (depth := depth) (cls := cls) (exec env depth cls (.init env depth cls) h) e
    rw [← hm] at el
    rcases List.append_eq_append_iff.mp el with ⟨a, h1, h2⟩ | ⟨a, h1, h2⟩
    · -- `l1` goes into what the event added
      by_cases he : ∃ b, e = .data b
      · obtain ⟨b, rfl⟩ := he
        have hm' : m = responses env depth cls (exec env depth cls (.init env depth cls) h).cli b :=
          List.append_cancel_left (hm.trans (rfl : _ = (exec env depth cls (.init env depth cls) h).log ++ responses env depth cls _ b))
        have hcame : ∀ o ∈ m, ∃ k a, o = Obs.came k a := by rw [hm']; exact responses_came
        have hs1 : sents l1 = sents (step env depth cls (exec env depth cls (.init env depth cls) h) (.data b)).log := by
          rw [← hm, h1, sents_append, sents_append, sents_nil hcame, sents_nil (m := a) (fun o ho => hcame o (by rw [h2]; exact List.mem_append_left _ ho))]
        rw [hs1]
        refine List.IsPrefix.trans ?_ hlast
        rw [← hm, el, cames_append]
        exact List.prefix_append ..
      · have he' : ∀ b, e ≠ .data b := fun b hb => he ⟨b, hb⟩
        have hq := (step_quiet (env := env) (depth := depth) (cls := cls) (exec env depth cls (.init env depth cls) h) e he').2
        rw [← hm, List.filter_append] at hq
        have hf : m.filter isCame = [] := List.append_cancel_left (hq.trans (List.append_nil _).symm)
        have ha : a.filter isCame = [] := by
          rw [h2, List.filter_append] at hf
          exact (List.append_eq_nil_iff.mp hf).1
        have h0 := ih (exec env depth cls (.init env depth cls) h).log [] (List.append_nil _).symm
        have hca : cames a = [] := by rw [cames_filter a, ha]; rfl
        rw [h1, cames_append, hca, List.append_nil]
        simp only [sents_append, List.map_append]
        exact h0.trans (List.prefix_append ..)
    · exact ih l1 a h1

theorem ser_pos {p : Packet} (h : Plain env cls p) : 0 < (ser env (p.val cls)).length := by
  obtain ⟨c, fs, bb, e1, e2, e3, e4⟩ := sendable_cases h.1
  obtain ⟨d, tags, n, h, body, hdr, hcls, ht, hn, hh, hbd, hhdr, rfl⟩ := encPacket_inv e4
  rw [e3]
  have := packU_len hh
  simp only [List.length_append]
  omega

/-- C88, from the bytes: the peer writes the responses to the requests in order, each response is for a request that was written, and they arrive in any
chunks, at any time. Then, once the event loop has nothing to do, every call whose response has arrived completely has returned the result and the error of
this response. `replies` are the responses, by the number of the call. -/
theorem C88_stream_partial {env : Env} (hr : env.Registered) {depth : Nat} {cls : Cls} (h : List Ev) (hc : ∀ i, Ev.cancel i ∉ h)
    (hid : ((sents (exec env (depth + 1) cls (.init env (depth + 1) cls) h).log).map (·.2)).Nodup)
    (replies : Nat → Packet)
    (hrep : ∀ x ∈ sents (exec env (depth + 1) cls (.init env (depth + 1) cls) h).log, Plain env cls (replies x.1) ∧ (replies x.1).requestId = some (x.2 : Int))
    (hstream : ∀ t, t <+: h → (chunks t).flatten <+: (sents (exec env (depth + 1) cls (.init env (depth + 1) cls) t).log).flatMap fun x => ser env ((replies x.1).val cls))
    (hidle : Idle (exec env (depth + 1) cls (.init env (depth + 1) cls) h))
    (k : Nat) (hk : (((sents (exec env (depth + 1) cls (.init env (depth + 1) cls) h).log).take k).flatMap fun x => ser env ((replies x.1).val cls)).length
      ≤ (chunks h).flatten.length) :
    ∀ x ∈ (sents (exec env (depth + 1) cls (.init env (depth + 1) cls) h).log).take k,
      (exec env (depth + 1) cls (.init env (depth + 1) cls) h).stage x.1 = .returned ((replies x.1).result, (replies x.1).error) := by
  have hi := inv_exec (inv_init (env := env) (depth := depth + 1) (cls := cls)) (env := env) (depth := depth + 1) (cls := cls) h
  -- what the deserializer made of the chunks, after any part of the history
  have hvals : ∀ t, t <+: h → ∀ v ∈ (sents (exec env (depth + 1) cls (.init env (depth + 1) cls) t).log).map (fun x => (replies x.1).val cls),
      Sendable env cls v ∧ Decodes env (depth + 1) cls (ser env v) v := by
    intro t ht v hv
    obtain ⟨x, hx, rfl⟩ := List.mem_map.mp hv
    have hx := exec_sents ht hx
    exact ⟨(hrep x hx).1.1, plain_decodes hr (hrep x hx).1⟩
  have hcame : ∀ l : List (Nat × Nat), (l.map (fun x => Event.packet ((replies x.1).val cls))).filterMap (response cls) =
      l.map fun x => Obs.came (replies x.1).requestId ((replies x.1).result, (replies x.1).error) := by
    intro l
    induction l with
    | nil => rfl
    | cons x l ih =>
      rw [List.map_cons, List.filterMap_cons_some (b := Obs.came (replies x.1).requestId ((replies x.1).result, (replies x.1).error))
        (by simp only [response, ofVal_val, Option.map_some]), ih, List.map_cons]
  have hlog : ∀ t, t <+: h → ∃ n, (exec env (depth + 1) cls (.init env (depth + 1) cls) t).log.filter isCame =
      ((sents (exec env (depth + 1) cls (.init env (depth + 1) cls) t).log).take n).map fun x => .came (replies x.1).requestId ((replies x.1).result, (replies x.1).error) := by
    intro t ht
    obtain ⟨fut, hfut⟩ := hstream t ht
    obtain ⟨⟨n, _, hn⟩, -⟩ := C02_C03_prefix hr _ (hvals t ht) (opsOf (chunks t)) fut (by rw [received_opsOf, hfut, List.flatMap_map])
    refine ⟨n, ?_⟩
    rw [(log_events t).2, hn, ← List.map_take, List.map_map]
    exact hcame _
  have ho : InOrder (exec env (depth + 1) cls (.init env (depth + 1) cls) h).log := by
    refine ⟨hid, order_of_steps h fun t ht => ?_⟩
    obtain ⟨n, hn⟩ := hlog t ht
    rw [cames_filter, hn]
    have hsub : ∀ x ∈ sents (exec env (depth + 1) cls (.init env (depth + 1) cls) t).log, (replies x.1).requestId = some (x.2 : Int) :=
      fun x hx => (hrep x (exec_sents ht hx)).2
    generalize sents (exec env (depth + 1) cls (.init env (depth + 1) cls) t).log = l at hsub
    have e : cames ((l.take n).map fun x => Obs.came (replies x.1).requestId ((replies x.1).result, (replies x.1).error)) = (l.take n).map fun x => some (x.2 : Int) := by
      have hsub : ∀ x ∈ l.take n, (replies x.1).requestId = some (x.2 : Int) := fun x hx => hsub x (List.mem_of_mem_take hx)
      generalize l.take n = m at hsub
      induction m with
      | nil => rfl
      | cons x m ih =>
        have := ih fun y hy => hsub y (List.mem_cons_of_mem _ hy)
        unfold cames at this ⊢
        simp only [List.map_cons, List.filterMap_cons]
        rw [hsub x (List.mem_cons_self ..), this]
    rw [e, List.map_take]
    exact List.take_prefix ..
  intro x hx
  have hxs := List.mem_of_mem_take hx
  have hsent : Obs.sent x.1 x.2 ∈ (exec env (depth + 1) cls (.init env (depth + 1) cls) h).log := mem_sents.mp hxs
  -- the response came
  have hgot : Obs.came (some (x.2 : Int)) ((replies x.1).result, (replies x.1).error) ∈ (exec env (depth + 1) cls (.init env (depth + 1) cls) h).log := by
    rcases List.eq_nil_or_concat (chunks h) with hnil | ⟨bs, b, hbs⟩
    · exfalso
      rw [hnil] at hk
      obtain ⟨l1, l2, hl⟩ := List.append_of_mem hx
      rw [hl, List.flatMap_append, List.flatMap_cons, List.length_append, List.length_append] at hk
      have := ser_pos (hrep x hxs).1
      simp only [List.flatten_nil, List.length_nil] at hk
      omega
    · rw [List.concat_eq_append] at hbs
      obtain ⟨fut, hfut⟩ := hstream h (List.prefix_refl _)
      have hre : received (opsOf bs ++ [.update b]) = (chunks h).flatten := by
        have h1 := received_opsOf (chunks h)
        rw [hbs, opsOf_snoc] at h1
        have h2 : ∀ (o : List DOp), received (o ++ [.next]) = received o := by
          intro o; induction o with
          | nil => rfl
          | cons x o ih => cases x <;> simp [received, ih]
        rw [← h2, h1, hbs]
      obtain ⟨-, n, hn, hev, hlt⟩ := C02_C03_prefix hr _ (hvals h (List.prefix_refl _)) (opsOf bs ++ [.update b]) fut (by rw [hre, hfut, List.flatMap_map])
      rw [← opsOf_snoc, ← hbs] at hev
      have hf := (log_events (env := env) (depth := depth + 1) (cls := cls) h).2
      rw [hev, ← List.map_take, List.map_map] at hf
      have hf := hf.trans (hcame _)
      have hxn : x ∈ (sents (exec env (depth + 1) cls (.init env (depth + 1) cls) h).log).take n := by
        by_cases hkn : k ≤ n
        · rw [show n = k + (n - k) by omega, List.take_add]
          exact List.mem_append_left _ hx
        · by_cases hnl : n < (sents (exec env (depth + 1) cls (.init env (depth + 1) cls) h).log).length
          · exfalso
            have hb := hlt (by rw [List.length_map]; exact hnl)
            rw [hre, ← List.map_take, List.flatMap_map] at hb
            rw [show k = (n + 1) + (k - (n + 1)) by omega, List.take_add, List.flatMap_append, List.length_append] at hk
            omega
          · rw [List.take_of_length_le (by omega)]
            exact hxs
      have hm : Obs.came (replies x.1).requestId ((replies x.1).result, (replies x.1).error) ∈
          (exec env (depth + 1) cls (.init env (depth + 1) cls) h).log.filter isCame := by
        rw [hf]
        exact List.mem_map.mpr ⟨x, hxn, rfl⟩
      rw [(hrep x hxs).2] at hm
      exact (List.mem_filter.mp hm).1
  obtain ⟨b, hb⟩ := C88_returns_in_order_partial env (depth + 1) cls h hc ho hidle x.1 x.2 hsent _ hgot
  have hown := (C88_own env (depth + 1) cls h x.1 b hb).2
  rw [(hi.key _ _ hsent).2] at hown
  obtain ⟨n, hn⟩ := hlog h (List.prefix_refl _)
  have hm : Obs.came (some (x.2 : Int)) b ∈ (exec env (depth + 1) cls (.init env (depth + 1) cls) h).log.filter isCame := List.mem_filter.mpr ⟨hown, rfl⟩
  rw [hn] at hm
  obtain ⟨y, hy, e⟩ := List.mem_map.mp hm
  have hys := List.mem_of_mem_take hy
  rw [(hrep y hys).2] at e
  injection e with e1 e2
  have hyx : y.2 = x.2 := by
    have : (y.2 : Int) = x.2 := by injection e1
    omega
  have : y = x := nodup_map_inj hid hys hxs hyx
  rw [hb, ← e2, this]

/-! ## Calls that are stuck -/

/-- A call that waits is stuck if there is no task to notify and it is not woken: nothing but new data, or a cancellation, lets it go on; not even the
loss of the connection. -/
theorem C88_stuck (env : Env) (depth : Nat) (cls : Cls) (s : St) (hs : Inv s) (i : Nat) (hw : s.stage i = .waiting) (hn : s.notes = 0) (hk : i ∉ s.woken)
    (t : List Ev) (hd : ∀ b, Ev.data b ∉ t) (hc : Ev.cancel i ∉ t) : (exec env depth cls s t).stage i = .waiting := by
  have haw : ∀ (s : St) (j : Nat), j ≠ i → (await s j).stage i = s.stage i := by
    intro s j hj
    unfold await
    split <;> exact if_neg (Ne.symm hj)
  induction t generalizing s with
  | nil => exact hw
  | cons e t ih =>
    have hd' : ∀ b, Ev.data b ∉ t := fun b hb => hd b (List.mem_cons_of_mem _ hb)
    have hc' : Ev.cancel i ∉ t := fun hb => hc (List.mem_cons_of_mem _ hb)
    have hlt : i < s.nCall := hs.bound i (by rw [hw]; exact fun h => nomatch h)
    have hne : s.nCall ≠ i := Nat.ne_of_gt hlt
    have go : (step env depth cls s e).stage i = .waiting ∧ (step env depth cls s e).notes = 0 ∧ i ∉ (step env depth cls s e).woken := by
      cases e with
      | query n cmd args =>
        show (query env cls s n cmd args).stage i = _ ∧ (query env cls s n cmd args).notes = 0 ∧ i ∉ (query env cls s n cmd args).woken
        unfold query
        dsimp only
        split
        · exact ⟨(if_neg (Ne.symm hne)).trans hw, hn, hk⟩
        · split
          · rw [haw _ _ hne, await_notes, await_woken]
            exact ⟨hw, hn, hk⟩
          · exact ⟨(if_neg (Ne.symm hne)).trans hw, hn, hk⟩
      | data b => exact absurd (List.mem_cons_self ..) (hd b)
      | notify =>
        show (notify s).stage i = _ ∧ (notify s).notes = 0 ∧ i ∉ (notify s).woken
        unfold notify
        rw [hn]
        exact ⟨hw, hn, hk⟩
      | resume j =>
        show (resume s j).stage i = _ ∧ (resume s j).notes = 0 ∧ i ∉ (resume s j).woken
        unfold resume
        split
        · next hj =>
          have : j ≠ i := fun e => hk (e ▸ hj)
          rw [haw _ _ this, await_notes, await_woken]
          exact ⟨hw, hn, fun h => hk (List.mem_of_mem_erase h)⟩
        · exact ⟨hw, hn, hk⟩
      | cancel j =>
        have : j ≠ i := fun e => hc (by rw [e]; exact List.mem_cons_self ..)
        show (cancel s j).stage i = _ ∧ (cancel s j).notes = 0 ∧ i ∉ (cancel s j).woken
        unfold cancel
        split
        · exact ⟨(if_neg (Ne.symm this)).trans hw, hn, fun h => hk (List.mem_of_mem_erase h)⟩
        · exact ⟨hw, hn, hk⟩
      | lost => exact ⟨hw, hn, hk⟩
    exact ih _ (inv_step hs e) go.1 go.2.1 go.2.2 hd' hc'

/-! ## Witnesses -/

/-- The bytes of a response. -/
def resp (q : Query) (result : Str) (error : Option Str) : Bytes := ser exEnv ((q.response result error).val 1)
/-- A call of `query`. -/
def Ev.ask (q : Query) : Ev := .query q.id q.cmd q.args
def run (h : List Ev) : St := exec exEnv (1 + 1) 1 (.init exEnv (1 + 1) 1) h

/-- Two calls, answered in order, the response of the first in two chunks. -/
def exGood : List Ev := [.ask q1, .ask q2, .data ((resp q1 ['r'] none).take 9), .data ((resp q1 ['r'] none).drop 9 ++ resp q2 [] (some ['n', 'o'])),
  .notify, .notify, .resume 1, .resume 0]

theorem exGood_log : (run exGood).log = [.sent 0 7, .sent 1 65535, .came (some 7) (some ['r'], none), .came (some 65535) (some [], some ['n', 'o'])] := by
  decide +kernel

theorem exGood_order : InOrder (run exGood).log := by
  rw [exGood_log]
  refine ⟨by decide, ?_⟩
  intro l1 l2 h
  match l1, h with
  | [], _ => exact List.nil_prefix
  | [a], h => injection h with h _; subst h; exact List.nil_prefix
  | [a, b], h => injection h with h h'; injection h' with h' _; subst h h'; exact List.nil_prefix
  | [a, b, c], h => injection h with h h'; injection h' with h' h2; injection h2 with h2 _; subst h h' h2; exact ⟨[some 65535], rfl⟩
  | [a, b, c, d], h =>
    injection h with h h'; injection h' with h' h2; injection h2 with h2 h3; injection h3 with h3 _; subst h h' h2 h3; exact ⟨[], rfl⟩
  | a :: b :: c :: d :: e :: l, h =>
    injection h with _ h; injection h with _ h; injection h with _ h; injection h with _ h; cases h

example : (run exGood).stage 0 = .returned (some ['r'], none) ∧ (run exGood).stage 1 = .returned (some [], some ['n', 'o']) ∧
    (run exGood).notes = 0 ∧ (run exGood).woken = [] := by decide +kernel

def exReplies (i : Nat) : Packet := if i = 0 then q1.response ['r'] none else q2.response [] (some ['n', 'o'])

theorem exGood_stream : ∀ n, n < 9 → (chunks (exGood.take n)).flatten.isPrefixOf ((sents (run (exGood.take n)).log).flatMap fun x => ser exEnv ((exReplies x.1).val 1)) = true := by
  decide +kernel

example : ∀ x ∈ (sents (run exGood).log).take 2, (run exGood).stage x.1 = .returned ((exReplies x.1).result, (exReplies x.1).error) := by
  have hk : (((sents (run exGood).log).take 2).flatMap fun x => ser exEnv ((exReplies x.1).val 1)).length ≤ (chunks exGood).flatten.length := by decide +kernel
  have hidle : Idle (run exGood) := ⟨by decide +kernel, by decide +kernel⟩
  have hc : ∀ i, Ev.cancel i ∉ exGood := by simp [exGood, Ev.ask]
  have ho := exGood_order.different
  unfold run at hk hidle ho ⊢
  refine C88_stream_partial exRegistered exGood hc ho exReplies ?_ ?_ hidle 2 hk
  · intro x hx
    have hx : x ∈ sents (run exGood).log := hx
    rw [exGood_log] at hx
    have hx : x ∈ [(0, 7), (1, 65535)] := hx
    simp only [List.mem_cons, List.not_mem_nil, or_false] at hx
    rcases hx with rfl | rfl
    · exact ⟨exPlain (fits_response q1 (exFits q1 (by simp)) (result := ['r']) (error := none) (by unfold OkStr; decide) (by simp)), rfl⟩
    · exact ⟨exPlain (fits_response q2 (exFits q2 (by simp)) (result := []) (error := some ['n', 'o']) (by unfold OkStr; decide) (by unfold OkStr; decide)), rfl⟩
  · intro t ht
    have e : t = exGood.take t.length := List.prefix_iff_eq_take.mp ht
    have h1 := exGood_stream t.length (Nat.lt_succ_of_le ht.length_le)
    rw [← e] at h1
    exact List.isPrefixOf_iff_prefix.mp h1

/-- The theorem applies while the second response is still on its way: the second call waits, and is not answered. -/
def exHalf : List Ev := [.ask q1, .ask q2, .data (resp q1 ['r'] none), .notify, .resume 0]

theorem exHalf_log : (run exHalf).log = [.sent 0 7, .sent 1 65535, .came (some 7) (some ['r'], none)] := by decide +kernel

example : ¬ Answered (run exHalf) 1 := by
  have hg := exGood_order.mono (l := (run exHalf).log) (by
    rw [exHalf_log, exGood_log]; exact ⟨[.came (some 65535) (some [], some ['n', 'o'])], rfl⟩)
  exact C88_in_order_partial exEnv (1 + 1) 1 exHalf (by simp [exHalf, Ev.ask]) hg ⟨by decide +kernel, by decide +kernel⟩ 1 (by decide +kernel)

/-- The second request is answered first (the server works on both, or the answer to the first is on its way). The notification of the first response
wakes the first call, which finds nothing and waits at the end of the queue. -/
def exOvertaken : List Ev := [.ask q1, .ask q2, .data (resp q2 ['r'] none), .notify, .resume 0, .data (resp q1 ['r'] none), .notify, .resume 1]

/-- C88 is false for responses in another order: both responses came, the second call returned, and the first waits for ever, whatever happens, if no
more responses come; not even the loss of the connection ends it. -/
theorem C88_false_overtaken : Answered (run exOvertaken) 0 ∧ (run exOvertaken).stage 1 = .returned (some ['r'], none) ∧
    ∀ t, (∀ b, Ev.data b ∉ t) → Ev.cancel 0 ∉ t → (run (exOvertaken ++ t)).stage 0 = .waiting := by
  refine ⟨by unfold Answered; decide +kernel, by decide +kernel, fun t hd hc => ?_⟩
  unfold run
  rw [exec_append]
  exact C88_stuck exEnv (1 + 1) 1 _ (inv_exec inv_init exOvertaken) 0 (by decide +kernel) (by decide +kernel) (by decide +kernel) t hd hc

/-- The first request is never answered (as in `C44_false_long`). -/
def exUnanswered : List Ev := [.ask q1, .ask q2, .data (resp q2 ['r'] none), .notify, .resume 0]

/-- C88 is false after a request that the server does not answer: the answer of the second call is there, and it waits for ever. -/
theorem C88_false_unanswered : Answered (run exUnanswered) 1 ∧ Idle (run exUnanswered) ∧
    ∀ t, (∀ b, Ev.data b ∉ t) → Ev.cancel 1 ∉ t → (run (exUnanswered ++ t)).stage 1 = .waiting := by
  refine ⟨by unfold Answered; decide +kernel, ⟨by decide +kernel, by decide +kernel⟩, fun t hd hc => ?_⟩
  unfold run
  rw [exec_append]
  exact C88_stuck exEnv (1 + 1) 1 _ (inv_exec inv_init exUnanswered) 1 (by decide +kernel) (by decide +kernel) (by decide +kernel) t hd hc

/-- The first call is cancelled (a timeout of the caller) after the notification for the second has woken it. -/
def exCancelled : List Ev := [.ask q1, .ask q2, .data (resp q2 ['r'] none), .notify, .cancel 0]

/-- C88 is false when another call is cancelled: the notification is lost with it. -/
theorem C88_false_cancelled : Answered (run exCancelled) 1 ∧ Idle (run exCancelled) ∧
    ∀ t, (∀ b, Ev.data b ∉ t) → Ev.cancel 1 ∉ t → (run (exCancelled ++ t)).stage 1 = .waiting := by
  refine ⟨by unfold Answered; decide +kernel, ⟨by decide +kernel, by decide +kernel⟩, fun t hd hc => ?_⟩
  unfold run
  rw [exec_append]
  exact C88_stuck exEnv (1 + 1) 1 _ (inv_exec inv_init exCancelled) 1 (by decide +kernel) (by decide +kernel) (by decide +kernel) t hd hc

/-- The connection is lost while a call waits. -/
def exLost : List Ev := [.ask q1, .lost]

/-- The loss of the connection wakes no call: a call that waits then waits for ever; a new one raises. -/
theorem C88_false_lost : (∀ t, (∀ b, Ev.data b ∉ t) → Ev.cancel 0 ∉ t → (run (exLost ++ t)).stage 0 = .waiting) ∧ (run (exLost ++ [.ask q2])).stage 1 = .raised := by
  refine ⟨fun t hd hc => ?_, by decide +kernel⟩
  unfold run
  rw [exec_append]
  exact C88_stuck exEnv (1 + 1) 1 _ (inv_exec inv_init exLost) 0 (by decide +kernel) (by decide +kernel) (by decide +kernel) t hd hc

/-- One call at a time: a stale response comes first, then the own one. -/
def exAlone : List Ev := [.ask q1, .data (resp q2 ['s'] none), .notify, .resume 0, .data (resp q1 ['r'] none), .notify, .resume 0, .ask q3]

theorem exAlone_one : ∀ n, n < 9 → ((run (exAlone.take n)).queue ++ (run (exAlone.take n)).woken).length ≤ 1 := by decide +kernel

example : (run exAlone).stage 0 = .returned (some ['r'], none) ∧ ¬ Answered (run exAlone) 1 := by
  refine ⟨by decide +kernel, ?_⟩
  refine C88_alone_partial exEnv (1 + 1) 1 exAlone ?_ ⟨by decide +kernel, by decide +kernel⟩ 1 (by decide +kernel)
  intro t ht i j hi hj
  have hinv : Inv (run t) := inv_exec inv_init t
  have e : t = exAlone.take t.length := List.prefix_iff_eq_take.mp ht
  have hl : t.length < 9 := Nat.lt_succ_of_le ht.length_le
  have h1 := exAlone_one t.length hl
  rw [← e] at h1
  have hi := (hinv.waiting i).mp hi
  have hj := (hinv.waiting j).mp hj
  match hq : (run t).queue ++ (run t).woken, h1, hi, hj with
  | [], _, hi, _ => cases hi
  | [x], _, hi, hj =>
    rw [List.mem_singleton] at hi hj
    rw [hi, hj]
  | _ :: _ :: _, h1, _, _ => exact absurd h1 (by simp)

end Verif.Spmp.Ask
