import Verif.Spec.SwitchApi
import Verif.Lemmas.Switch
/-! # A switch under its management API: the state after a history -/
namespace Verif.SwitchApi
open Verif.Spmp (Res)

theorem getLastD_append {α : Type} (l m : List α) (a : α) : (l ++ m).getLastD a = m.getLastD (l.getLastD a) := by
  cases m with
  | nil => simp
  | cons b m => rw [List.getLastD_eq_getLast?, List.getLastD_eq_getLast?, List.getLast?_append]; simp [List.getLast?_cons]

theorem exec_append (c : Cfg) (h1 h2 : List Ev) (s : St) : exec c s (h1 ++ h2) = exec c (exec c s h1) h2 := by
  induction h1 generalizing s with
  | nil => rfl
  | cons e h1 ih => exact ih _

theorem opsFrom_append (c : Cfg) (x y : List Ev) : ∀ h, opsFrom c h (x ++ y) = opsFrom c h x ++ opsFrom c (h ++ x) y := by
  induction x with
  | nil => intro h; simp [opsFrom]
  | cons e x ih => intro h; simp [opsFrom, ih]

theorem packetsFrom_append (c : Cfg) (j : Nat) (x y : List Ev) : ∀ h, packetsFrom c j h (x ++ y) = packetsFrom c j h x ++ packetsFrom c j (h ++ x) y := by
  induction x with
  | nil => intro h; simp [packetsFrom]
  | cons e x ih => intro h; simp [packetsFrom, ih]

theorem ops_snoc (c : Cfg) (h : List Ev) (e : Ev) : ops c (h ++ [e]) = ops c h ++ opsOf c h e := by
  unfold ops; rw [opsFrom_append]; simp [opsFrom]

theorem phase_snoc (h : List Ev) (e : Ev) (i : Nat) : phase (h ++ [e]) i =
    if e = .connect i ∧ phase h i = .fresh then .up else if e = .lost i ∧ phase h i = .up then .gone else phase h i := by
  unfold phase; rw [List.foldl_append]; rfl

theorem errorRate_snoc (c : Cfg) (h : List Ev) (e : Ev) : errorRate c (h ++ [e]) = (errorsSet c [e]).getLastD (errorRate c h) := by
  unfold errorRate; rw [show errorsSet c (h ++ [e]) = errorsSet c h ++ errorsSet c [e] from List.flatMap_append .., getLastD_append]

theorem delayRate_snoc (c : Cfg) (h : List Ev) (e : Ev) : delayRate c (h ++ [e]) = (delaysSet c [e]).getLastD (delayRate c h) := by
  unfold delayRate; rw [show delaysSet c (h ++ [e]) = delaysSet c h ++ delaysSet c [e] from List.flatMap_append .., getLastD_append]

theorem logLevel_snoc (c : Cfg) (h : List Ev) (e : Ev) : logLevel c (h ++ [e]) = (levelsSet c [e]).getLastD (logLevel c h) := by
  unfold logLevel; rw [show levelsSet c (h ++ [e]) = levelsSet c h ++ levelsSet c [e] from List.flatMap_append .., getLastD_append]

/-! ## Requests -/

/-- The settings that a request leaves. -/
def setBy (c : Cfg) (s : St) (e : Ev) : St :=
  ⟨s.switch, s.link, ⟨((errorsSet c [e]).getLastD (s.set.errors, s.set.horizon)).1, ((errorsSet c [e]).getLastD (s.set.errors, s.set.horizon)).2,
      ((delaysSet c [e]).getLastD (s.set.rate, s.set.delay)).1, ((delaysSet c [e]).getLastD (s.set.rate, s.set.delay)).2⟩,
    (levelsSet c [e]).getLastD s.level⟩

theorem setBy_none {c : Cfg} {s : St} {e : Ev} (h1 : errorsSet c [e] = []) (h2 : delaysSet c [e] = []) (h3 : levelsSet c [e] = []) : setBy c s e = s := by
  unfold setBy; rw [h1, h2, h3]; rfl

theorem es_one (c : Cfg) (v : Str) (args : List Str) : errorsSet c [.request v args] = match args with
  | [a, b] => if c.unreliable ∧ v = "set-error-rate".toList then
      (match pyInt a, pyInt b with
        | some e, some n => [(e, n)]
        | _, _ => []) else []
  | _ => [] := by
  unfold errorsSet
  rw [List.flatMap_cons, List.flatMap_nil, List.append_nil]
  rcases args with _ | ⟨a, _ | ⟨b, _ | ⟨d, as⟩⟩⟩ <;> rfl

theorem ds_one (c : Cfg) (v : Str) (args : List Str) : delaysSet c [.request v args] = match args with
  | [a, b] => if c.unreliable ∧ v = "set-delay-rate".toList then
      (match pyInt a, c.float b with
        | some r, some d => [(.int r, d)]
        | _, _ => []) else []
  | _ => [] := by
  unfold delaysSet
  rw [List.flatMap_cons, List.flatMap_nil, List.append_nil]
  rcases args with _ | ⟨a, _ | ⟨b, _ | ⟨d, as⟩⟩⟩ <;> rfl

theorem ls_one (c : Cfg) (v : Str) (args : List Str) : levelsSet c [.request v args] = match args with
  | [a] => if v = "set-log-level".toList ∧ c.levelOk a then [a] else []
  | _ => [] := by
  unfold levelsSet
  rw [List.flatMap_cons, List.flatMap_nil, List.append_nil]
  rcases args with _ | ⟨a, _ | ⟨b, _ | ⟨d, as⟩⟩⟩ <;> rfl

theorem es_nil {c : Cfg} {v : Str} (args : List Str) (h : ¬ (c.unreliable = true ∧ v = "set-error-rate".toList)) : errorsSet c [.request v args] = [] := by
  rw [es_one]; split
  · rw [if_neg h]
  · rfl

theorem ds_nil {c : Cfg} {v : Str} (args : List Str) (h : ¬ (c.unreliable = true ∧ v = "set-delay-rate".toList)) : delaysSet c [.request v args] = [] := by
  rw [ds_one]; split
  · rw [if_neg h]
  · rfl

theorem ls_nil {c : Cfg} {v : Str} (args : List Str) (h : v ≠ "set-log-level".toList) : levelsSet c [.request v args] = [] := by
  rw [ls_one]; split
  · rw [if_neg fun x => h x.1]
  · rfl

theorem call_some {c : Cfg} {s : St} {v : Str} {args : List Str} {f} (h : (api c).get v = some f) : call c s v args = ((f args s).1, some (f args s).2) := by
  unfold call; rw [h]

theorem call_none {c : Cfg} {s : St} {v : Str} {args : List Str} (h : (api c).get v = none) : call c s v args = (s, none) := by
  unfold call; rw [h]

theorem ask_fst (c : Cfg) (v : Str) (f : St → Str) (args : List Str) (s : St) : (ask c v f args s).1 = s := by
  unfold ask; split <;> rfl

theorem get_skip {α β : Type} [DecidableEq α] {a k : α} (b : β) (t : Dict α β) (h : k ≠ a) : Dict.get ((a, b) :: t) k = t.get k := by
  rw [Dict.get, if_neg (Ne.symm h)]

/-- The entries of the API. -/
theorem api_cases (c : Cfg) (v : Str) : (∃ g, (api c).get v = some (ask c v g) ∧ v ≠ "set-log-level".toList ∧ v ≠ "set-error-rate".toList ∧ v ≠ "set-delay-rate".toList) ∨
    (v = "set-log-level".toList ∧ (api c).get v = some (setLogLevel c v)) ∨
    (c.unreliable = true ∧ v = "set-error-rate".toList ∧ (api c).get v = some (setErrors c v)) ∨
    (c.unreliable = true ∧ v = "set-delay-rate".toList ∧ (api c).get v = some (setDelay c v)) ∨
    ((api c).get v = none ∧ v ≠ "set-log-level".toList ∧ (c.unreliable = true → v ≠ "set-error-rate".toList ∧ v ≠ "set-delay-rate".toList)) := by
  by_cases h1 : v = "verbs".toList
  · subst h1; exact .inl ⟨_, rfl, by decide, by decide, by decide⟩
  by_cases h2 : v = "all-log-levels".toList
  · subst h2; exact .inl ⟨_, rfl, by decide, by decide, by decide⟩
  by_cases h3 : v = "get-log-level".toList
  · subst h3; exact .inl ⟨_, rfl, by decide, by decide, by decide⟩
  by_cases h4 : v = "set-log-level".toList
  · subst h4; exact .inr (.inl ⟨rfl, rfl⟩)
  cases hu : c.unreliable with
  | false =>
    refine .inr (.inr (.inr (.inr ⟨?_, h4, by simp⟩)))
    unfold api; rw [get_skip _ _ h1, get_skip _ _ h2, get_skip _ _ h3, get_skip _ _ h4, if_neg (by rw [hu]; decide)]; rfl
  | true =>
    by_cases h5 : v = "get-error-rate".toList
    · subst h5; refine .inl ⟨errorsText, ?_, by decide, by decide, by decide⟩
      unfold api; rw [hu]; rfl
    by_cases h6 : v = "set-error-rate".toList
    · subst h6; refine .inr (.inr (.inl ⟨rfl, rfl, ?_⟩)); unfold api; rw [hu]; rfl
    by_cases h7 : v = "get-delay-rate".toList
    · subst h7; refine .inl ⟨delayText, ?_, by decide, by decide, by decide⟩
      unfold api; rw [hu]; rfl
    by_cases h8 : v = "set-delay-rate".toList
    · subst h8; refine .inr (.inr (.inr (.inl ⟨rfl, rfl, ?_⟩))); unfold api; rw [hu]; rfl
    refine .inr (.inr (.inr (.inr ⟨?_, h4, fun _ => ⟨h6, h8⟩⟩)))
    unfold api
    rw [get_skip _ _ h1, get_skip _ _ h2, get_skip _ _ h3, get_skip _ _ h4, if_pos hu, get_skip _ _ h5, get_skip _ _ h6, get_skip _ _ h7, get_skip _ _ h8]; rfl

/-- What a request does to the switch. -/
theorem call_set (c : Cfg) (s : St) (v : Str) (args : List Str) : (call c s v args).1 = setBy c s (.request v args) := by
  rcases api_cases c v with ⟨g, hg, h1, h2, h3⟩ | ⟨rfl, hg⟩ | ⟨hu, rfl, hg⟩ | ⟨hu, rfl, hg⟩ | ⟨hg, h1, h2⟩
  · rw [call_some hg]; dsimp only; rw [ask_fst, setBy_none (es_nil _ fun x => h2 x.2) (ds_nil _ fun x => h3 x.2) (ls_nil _ h1)]
  · rw [call_some hg]
    unfold setBy
    rw [es_nil _ (fun x => absurd x.2 (by decide)), ds_nil _ (fun x => absurd x.2 (by decide)), ls_one]
    unfold setLogLevel
    cases args with
    | nil => rfl
    | cons a as => cases as with
      | cons b bs => rfl
      | nil =>
        dsimp only
        cases ho : c.levelOk a <;> simp
  · rw [call_some hg]
    unfold setBy
    rw [ds_nil _ (fun x => absurd x.2 (by decide)), ls_nil _ (by decide), es_one]
    unfold setErrors
    split
    · next a b =>
      dsimp only
      rw [if_pos ⟨hu, rfl⟩]
      cases pyInt a with
      | none => rfl
      | some e => cases pyInt b <;> rfl
    · next hne => split
                  · next a b => exact absurd rfl (hne a b)
                  · rfl
  · rw [call_some hg]
    unfold setBy
    rw [es_nil _ (fun x => absurd x.2 (by decide)), ls_nil _ (by decide), ds_one]
    unfold setDelay
    split
    · next a b =>
      dsimp only
      rw [if_pos ⟨hu, rfl⟩]
      cases pyInt a with
      | none => rfl
      | some e => cases c.float b <;> rfl
    · next hne => split
                  · next a b => exact absurd rfl (hne a b)
                  · rfl
  · rw [call_none hg]; dsimp only; rw [setBy_none (es_nil _ fun x => (h2 x.1).1 x.2) (ds_nil _ fun x => (h2 x.1).2 x.2) (ls_nil _ h1)]

/-! ## Sending -/

theorem foldl_put (c : Cfg) (data : Bytes) : ∀ (ls : List Nat) (s : St), ls.Nodup →
    (ls.foldl (St.put c data) s).switch = s.switch ∧ (ls.foldl (St.put c data) s).set = s.set ∧ (ls.foldl (St.put c data) s).level = s.level ∧
    ∀ j, (ls.foldl (St.put c data) s).link j = if j ∈ ls then (s.link j).put (write c s.set j (s.link j).stack data) else s.link j
  | [], s, _ => by simp
  | i :: ls, s, hn => by
    have hn' := List.nodup_cons.mp hn
    obtain ⟨h1, h2, h3, h4⟩ := foldl_put c data ls (St.put c data s i) hn'.2
    refine ⟨h1, h2, h3, fun j => ?_⟩
    rw [List.foldl_cons, h4]
    have hp : (St.put c data s i).link j = if j = i then (s.link j).put (write c s.set i (s.link j).stack data) else s.link j := rfl
    have hs : (St.put c data s i).set = s.set := rfl
    by_cases hj : j = i
    · subst hj
      rw [if_neg hn'.1, hp, if_pos rfl, if_pos (List.mem_cons_self ..)]
    · rw [hp, if_neg hj, hs]
      by_cases hm : j ∈ ls
      · rw [if_pos hm, if_pos (List.mem_cons_of_mem _ hm)]
      · rw [if_neg hm, if_neg (by simp [hj, hm])]

theorem put_phase (l : Link) (w : List Layer × Option Bytes) : (l.put w).phase = l.phase := by
  unfold Link.put; split <;> rfl

theorem outbound_nodup {s : Switch} {d : Str} {ls : List Nat} (h : s.getOutboundLinks d = .ok ls) : ls.Nodup := by
  unfold Switch.getOutboundLinks at h
  split at h
  · split at h
    · cases h
    · cases h; exact Switch.outLoop_nodup _ _ _ _ List.nodup_nil
  · cases h; exact List.nodup_nil

theorem receivers_ok {r : List Switch.Op} {s : Switch} {d : Str} {ls : List Nat} (h : Switch.new.exec r = .ok s) (hl : s.getOutboundLinks d = .ok ls) :
    receivers r d = ls := by unfold receivers; rw [h]; dsimp only; rw [hl]

theorem receivers_error {r : List Switch.Op} {s : Switch} {d : Str} {e} (h : Switch.new.exec r = .ok s) (hl : s.getOutboundLinks d = .error e) :
    receivers r d = [] := by unfold receivers; rw [h]; dsimp only; rw [hl]

theorem receivers_nodup (r : List Switch.Op) (d : Str) : (receivers r d).Nodup := by
  unfold receivers
  split
  · exact List.nodup_nil
  · split
    · exact List.nodup_nil
    · next h => exact outbound_nodup h

/-- Sending, in terms of the receivers. -/
theorem send_spec {c : Cfg} {s : St} {r : List Switch.Op} (h : Switch.new.exec r = .ok s.switch) (i : Nat) (d : Str) (data : Bytes) :
    (s.send c i d data).switch = s.switch ∧ (s.send c i d data).set = s.set ∧ (s.send c i d data).level = s.level ∧
    ∀ j, (s.send c i d data).link j = if (s.link i).phase = .up ∧ j ∈ receivers r d then (s.link j).put (write c s.set j (s.link j).stack data) else s.link j := by
  unfold St.send
  by_cases hu : (s.link i).phase = .up
  · rw [if_pos hu]
    cases hl : s.switch.getOutboundLinks d with
    | error e =>
      rw [receivers_error h hl]; simp
    | ok ls =>
      dsimp only
      rw [receivers_ok h hl]
      obtain ⟨h1, h2, h3, h4⟩ := foldl_put c data ls s (outbound_nodup hl)
      refine ⟨h1, h2, h3, fun j => ?_⟩
      rw [h4]
      simp [hu]
  · rw [if_neg hu]; simp [hu]

/-! ## The run -/

theorem switch_snoc {r : List Switch.Op} {s : Switch} (h : Switch.new.exec r = .ok s) (o : Switch.Op) : ∃ s', s.step o = .ok s' ∧ Switch.new.exec (r ++ [o]) = .ok s' := by
  obtain ⟨s1, e1, i1, _⟩ := Switch.exec_spec r
  rw [h] at e1; cases e1
  obtain ⟨s', e2, _⟩ := Switch.step_spec i1 o
  refine ⟨s', e2, ?_⟩
  rw [Switch.exec_append, h]
  dsimp only
  rw [Switch.exec, e2]; rfl

structure Run (c : Cfg) (h : List Ev) (s : St) : Prop where
  phase : ∀ i, (s.link i).phase = phase h i
  set : s.set = ⟨(errorRate c h).1, (errorRate c h).2, (delayRate c h).1, (delayRate c h).2⟩
  level : s.level = logLevel c h
  switch : Switch.new.exec (ops c h) = .ok s.switch

theorem Run.init (c : Cfg) : Run c [] .init := ⟨fun _ => rfl, rfl, rfl, rfl⟩

theorem run_quiet {c : Cfg} {h : List Ev} {s s' : St} {e : Ev} (hr : Run c h s) (he : ∀ v args, e ≠ .request v args)
    (hp : ∀ i, (s'.link i).phase = SwitchApi.phase (h ++ [e]) i) (h1 : s'.set = s.set) (h2 : s'.level = s.level)
    (h3 : Switch.new.exec (ops c h ++ opsOf c h e) = .ok s'.switch) : Run c (h ++ [e]) s' := by
  have e1 : errorsSet c [e] = [] := by cases e <;> first | rfl | exact absurd rfl (he _ _)
  have e2 : delaysSet c [e] = [] := by cases e <;> first | rfl | exact absurd rfl (he _ _)
  have e3 : levelsSet c [e] = [] := by cases e <;> first | rfl | exact absurd rfl (he _ _)
  refine ⟨hp, ?_, ?_, ?_⟩
  · rw [h1, hr.set, errorRate_snoc, delayRate_snoc, e1, e2]; rfl
  · rw [h2, hr.level, logLevel_snoc, e3]; rfl
  · rw [ops_snoc]; exact h3

theorem make_none {c : Cfg} {h : List Ev} {s : St} (hr : Run c h s) (hu : c.unreliable = true) (rnd : Nat → Nat → Nat) : Err.make rnd s.set = none ↔ Spoiled c h := by
  unfold Err.make Err.reset Spoiled
  rw [hr.set]
  dsimp only
  by_cases hx : (errorRate c h).1 > 0 ∧ (errorRate c h).2 < 0
  · rw [if_pos hx]; simp [hu, hx]
  · rw [if_neg hx]
    simp only [reduceCtorEq, false_iff]
    exact fun y => hx ⟨y.2.1, y.2.2⟩

theorem register_set (s : St) (a : Str) (i : Nat) : (s.register a i).link = s.link ∧ (s.register a i).set = s.set ∧ (s.register a i).level = s.level := by
  unfold St.register; split <;> exact ⟨rfl, rfl, rfl⟩

theorem register_switch {r : List Switch.Op} {s : St} (h : Switch.new.exec r = .ok s.switch) (a : Str) (i : Nat) :
    Switch.new.exec (r ++ [.register a i]) = .ok (s.register a i).switch := by
  obtain ⟨s', h1, h2⟩ := switch_snoc h (.register a i)
  rw [h2]
  unfold St.register
  rw [show s.switch.registerLink a i = .ok s' from h1]

theorem Run.step {c : Cfg} {h : List Ev} {s : St} (hr : Run c h s) (e : Ev) : Run c (h ++ [e]) (step c s e) := by
  cases e with
  | connect i =>
    refine run_quiet hr (by simp) (fun j => ?_) rfl rfl (by rw [show opsOf c h (.connect i) = [] from rfl, List.append_nil]; exact hr.switch)
    rw [phase_snoc]
    show (if j = i then _ else _ : Link).phase = _
    by_cases hj : j = i
    · subst hj
      rw [if_pos rfl, ← hr.phase]
      by_cases hf : (s.link j).phase = .fresh
      · rw [if_pos hf, if_pos ⟨rfl, hf⟩]
      · rw [if_neg hf, if_neg (fun x => hf x.2), if_neg (by simp)]
    · rw [if_neg hj, if_neg (by simp [Ne.symm hj]), if_neg (by simp), hr.phase]
  | lost i =>
    have hph : ∀ j, SwitchApi.phase (h ++ [.lost i]) j = if j = i ∧ SwitchApi.phase h i = .up then .gone else SwitchApi.phase h j := by
      intro j
      rw [phase_snoc, if_neg (by simp)]
      by_cases hj : j = i
      · subst hj; simp
      · rw [if_neg (by simp [Ne.symm hj]), if_neg (by simp [hj])]
    show Run c _ (s.lost i)
    unfold St.lost
    by_cases hu : (s.link i).phase = .up
    · rw [if_pos hu]
      have hu' : SwitchApi.phase h i = .up := by rw [← hr.phase]; exact hu
      obtain ⟨s', h1, h2⟩ := switch_snoc hr.switch (.unregister i)
      rw [show s.switch.unregisterLink i = .ok s' from h1]
      refine run_quiet hr (by simp) (fun j => ?_) rfl rfl (by simpa [opsOf, hu'] using h2)
      rw [hph]
      show (if j = i then _ else _ : Link).phase = _
      by_cases hj : j = i
      · rw [if_pos hj, if_pos ⟨hj, hu'⟩]
      · rw [if_neg hj, if_neg (fun x => hj x.1), hr.phase]
    · rw [if_neg hu]
      have hu' : SwitchApi.phase h i ≠ .up := by rw [← hr.phase]; exact hu
      refine run_quiet hr (by simp) (fun j => ?_) rfl rfl (by simpa [opsOf, hu'] using hr.switch)
      rw [hph, if_neg (fun x => hu' x.2), hr.phase]
  | announce i a =>
    have hph : ∀ j, SwitchApi.phase (h ++ [.announce i a]) j = SwitchApi.phase h j := by
      intro j; rw [phase_snoc, if_neg (by simp), if_neg (by simp)]
    show Run c _ (s.announce c i a)
    unfold St.announce
    by_cases hu : (s.link i).phase = .up
    · have hu' : SwitchApi.phase h i = .up := by rw [← hr.phase]; exact hu
      rw [if_pos hu]
      cases hun : c.unreliable with
      | false =>
        rw [if_neg (by simp)]
        have hsp : ¬ Spoiled c h := fun x => by rw [x.1] at hun; cases hun
        obtain ⟨r1, r2, r3⟩ := register_set s a i
        refine run_quiet hr (by simp) (fun j => by rw [r1, hph, hr.phase]) r2 r3 ?_
        rw [opsOf, if_pos ⟨hu', hsp⟩]; exact register_switch hr.switch a i
      | true =>
        rw [if_pos rfl]
        cases hm : Err.make (c.rnd i (s.link i).stack.length) s.set with
        | none =>
          have hsp := (make_none hr hun _).mp hm
          refine run_quiet hr (by simp) (fun j => by rw [hph, hr.phase]) rfl rfl ?_
          rw [opsOf, if_neg (fun x => x.2 hsp), List.append_nil]; exact hr.switch
        | some e =>
          have hsp : ¬ Spoiled c h := fun x => by rw [(make_none hr hun _).mpr x] at hm; cases hm
          obtain ⟨r1, r2, r3⟩ := register_set (s.upd i fun l => { l with stack := ⟨e, 0, [], 0⟩ :: l.stack }) a i
          refine run_quiet hr (by simp) (fun j => ?_) r2 r3 ?_
          · rw [r1, hph, ← hr.phase]
            show (if j = i then _ else _ : Link).phase = _
            split <;> rfl
          · rw [opsOf, if_pos ⟨hu', hsp⟩]
            exact register_switch (s := s.upd i fun l => { l with stack := ⟨e, 0, [], 0⟩ :: l.stack }) hr.switch a i
    · have hu' : SwitchApi.phase h i ≠ .up := by rw [← hr.phase]; exact hu
      rw [if_neg hu]
      refine run_quiet hr (by simp) (fun j => by rw [hph, hr.phase]) rfl rfl ?_
      rw [opsOf, if_neg (fun x => hu' x.1), List.append_nil]; exact hr.switch
  | send i d data =>
    obtain ⟨h1, h2, h3, h4⟩ := send_spec (c := c) hr.switch i d data
    refine run_quiet hr (by simp) (fun j => ?_) h2 h3 (by
      show _ = Except.ok (s.send c i d data).switch
      rw [h1]; simpa [opsOf] using hr.switch)
    show ((s.send c i d data).link j).phase = _
    rw [phase_snoc, if_neg (by simp), if_neg (by simp), h4, ← hr.phase]
    split
    · exact put_phase _ _
    · rfl
  | timer i k n =>
    refine run_quiet hr (by simp) (fun j => ?_) rfl rfl (by rw [show opsOf c h (.timer i k n) = [] from rfl, List.append_nil]; exact hr.switch)
    rw [phase_snoc, if_neg (by simp), if_neg (by simp), ← hr.phase]
    show (if j = i then _ else _ : Link).phase = _
    split
    · exact put_phase _ _
    · rfl
  | request v args =>
    show Run c _ (call c s v args).1
    rw [call_set]
    refine ⟨fun i => ?_, ?_, ?_, ?_⟩
    · rw [phase_snoc, if_neg (by simp), if_neg (by simp)]; exact hr.phase i
    · show Settings.mk _ _ _ _ = _
      rw [errorRate_snoc, delayRate_snoc, hr.set]
    · show (levelsSet c _).getLastD s.level = _
      rw [logLevel_snoc, hr.level]
    · rw [ops_snoc, show opsOf c h (.request v args) = [] from rfl, List.append_nil]; exact hr.switch

theorem Run.exec {c : Cfg} : ∀ (es : List Ev) {h : List Ev} {s : St}, Run c h s → Run c (h ++ es) (exec c s es)
  | [], h, s, hr => by rw [List.append_nil]; exact hr
  | e :: es, h, s, hr => by
    have := Run.exec es (hr.step e)
    rw [List.append_assoc] at this
    exact this

theorem run (c : Cfg) (h : List Ev) : Run c h (SwitchApi.exec c .init h) := Run.exec h (Run.init c)

end Verif.SwitchApi
