import Verif.Lemmas.SwitchLayers
import Verif.Props.SpmpFramed
/-! # C75: management of a switch -/
namespace Verif.SwitchApi
open Verif.Spmp (Res)
open Verif.WanApi (noneText)

/-! ## Settings -/

/-- C75. What `get-log-level`, and on an unreliable switch `get-error-rate` and `get-delay-rate` answer is what was set last. -/
theorem C75_settings (c : Cfg) (h : List Ev) :
    call c (exec c .init h) "get-log-level".toList [] = (exec c .init h, some (.value (logLevel c h))) ∧
    (c.unreliable = true → call c (exec c .init h) "get-error-rate".toList [] = (exec c .init h, some (.value
      ("Errors per Bytes = (".toList ++ intStr (errorRate c h).1 ++ ", ".toList ++ intStr (errorRate c h).2 ++ ")".toList)))) ∧
    (c.unreliable = true → call c (exec c .init h) "get-delay-rate".toList [] = (exec c .init h, some (.value
      ("Every ".toList ++ (delayRate c h).1.text ++ " packets, delay ".toList ++ (delayRate c h).2 ++ " second".toList)))) := by
  have hr := run c h
  refine ⟨?_, fun hu => ?_, fun hu => ?_⟩
  · rw [call_some (f := ask c "get-log-level".toList (·.level)) rfl]
    unfold ask
    dsimp only
    rw [hr.level]
  · rw [call_some (f := ask c "get-error-rate".toList errorsText) (by unfold api; rw [hu]; rfl)]
    unfold ask errorsText
    dsimp only
    rw [hr.set]
  · rw [call_some (f := ask c "get-delay-rate".toList delayText) (by unfold api; rw [hu]; rfl)]
    unfold ask delayText
    dsimp only
    rw [hr.set]

theorem setLogLevel_spec (c : Cfg) (s : St) (args : List Str) :
    (levelsSet c [.request "set-log-level".toList args] = [] ∧ ∃ e, (setLogLevel c "set-log-level".toList args s).2 = .raised e) ∨
    (levelsSet c [.request "set-log-level".toList args] ≠ [] ∧ (setLogLevel c "set-log-level".toList args s).2 = .value "None".toList) := by
  rw [ls_one]
  rcases args with _ | ⟨a, _ | ⟨b, as⟩⟩
  · exact .inl ⟨rfl, _, rfl⟩
  · unfold setLogLevel
    dsimp only
    cases hl : c.levelOk a with
    | false => exact .inl ⟨by simp, _, rfl⟩
    | true => exact .inr ⟨by simp, rfl⟩
  · exact .inl ⟨rfl, _, rfl⟩

theorem setErrors_spec (c : Cfg) (hu : c.unreliable = true) (s : St) (args : List Str) :
    (errorsSet c [.request "set-error-rate".toList args] = [] ∧ ∃ e, (setErrors c "set-error-rate".toList args s).2 = .raised e) ∨
    (errorsSet c [.request "set-error-rate".toList args] ≠ [] ∧ (setErrors c "set-error-rate".toList args s).2 = .value "None".toList) := by
  rw [es_one]
  rcases args with _ | ⟨a, _ | ⟨b, _ | ⟨x, as⟩⟩⟩
  · exact .inl ⟨rfl, _, rfl⟩
  · exact .inl ⟨rfl, _, rfl⟩
  · unfold setErrors
    dsimp only
    rw [if_pos ⟨hu, rfl⟩]
    cases ha : pyInt a with
    | none => exact .inl ⟨rfl, _, rfl⟩
    | some x => cases hb : pyInt b with
      | none => exact .inl ⟨rfl, _, rfl⟩
      | some y => exact .inr ⟨by simp, rfl⟩
  · exact .inl ⟨rfl, _, rfl⟩

theorem setDelay_spec (c : Cfg) (hu : c.unreliable = true) (s : St) (args : List Str) :
    (delaysSet c [.request "set-delay-rate".toList args] = [] ∧ ∃ e, (setDelay c "set-delay-rate".toList args s).2 = .raised e) ∨
    (delaysSet c [.request "set-delay-rate".toList args] ≠ [] ∧ (setDelay c "set-delay-rate".toList args s).2 = .value "None".toList) := by
  rw [ds_one]
  rcases args with _ | ⟨a, _ | ⟨b, _ | ⟨x, as⟩⟩⟩
  · exact .inl ⟨rfl, _, rfl⟩
  · exact .inl ⟨rfl, _, rfl⟩
  · unfold setDelay
    dsimp only
    rw [if_pos ⟨hu, rfl⟩]
    cases ha : pyInt a with
    | none => exact .inl ⟨rfl, _, rfl⟩
    | some x => cases hb : c.float b with
      | none => exact .inl ⟨rfl, _, rfl⟩
      | some y => exact .inr ⟨by simp, rfl⟩
  · exact .inl ⟨rfl, _, rfl⟩

/-- C75. A request that shall set something answers `None` if it has done so, and otherwise with an error, and then nothing has changed. -/
theorem C75_set (c : Cfg) (s : St) (v : Str) (args : List Str) (hv : v = "set-log-level".toList ∨ c.unreliable = true ∧ (v = "set-error-rate".toList ∨ v = "set-delay-rate".toList)) :
    if errorsSet c [.request v args] = [] ∧ delaysSet c [.request v args] = [] ∧ levelsSet c [.request v args] = [] then
      ∃ e, call c s v args = (s, some (.raised e))
    else (call c s v args).2 = some (.value "None".toList) := by
  have key : (errorsSet c [.request v args] = [] ∧ delaysSet c [.request v args] = [] ∧ levelsSet c [.request v args] = []) ∧ (∃ e, (call c s v args).2 = some (.raised e)) ∨
      ¬ (errorsSet c [.request v args] = [] ∧ delaysSet c [.request v args] = [] ∧ levelsSet c [.request v args] = []) ∧ (call c s v args).2 = some (.value "None".toList) := by
    rcases hv with rfl | ⟨hu, rfl | rfl⟩
    · rw [call_some (f := setLogLevel c "set-log-level".toList) rfl]
      rcases setLogLevel_spec c s args with ⟨h1, e, h2⟩ | ⟨h1, h2⟩
      · exact .inl ⟨⟨es_nil _ (fun x => absurd x.2 (by decide)), ds_nil _ (fun x => absurd x.2 (by decide)), h1⟩, e, congrArg some h2⟩
      · exact .inr ⟨fun x => h1 x.2.2, congrArg some h2⟩
    · rw [call_some (f := setErrors c "set-error-rate".toList) (by unfold api; rw [hu]; rfl)]
      rcases setErrors_spec c hu s args with ⟨h1, e, h2⟩ | ⟨h1, h2⟩
      · exact .inl ⟨⟨h1, ds_nil _ (fun x => absurd x.2 (by decide)), ls_nil _ (by decide)⟩, e, congrArg some h2⟩
      · exact .inr ⟨fun x => h1 x.1, congrArg some h2⟩
    · rw [call_some (f := setDelay c "set-delay-rate".toList) (by unfold api; rw [hu]; rfl)]
      rcases setDelay_spec c hu s args with ⟨h1, e, h2⟩ | ⟨h1, h2⟩
      · exact .inl ⟨⟨es_nil _ (fun x => absurd x.2 (by decide)), h1, ls_nil _ (by decide)⟩, e, congrArg some h2⟩
      · exact .inr ⟨fun x => h1 x.2.1, congrArg some h2⟩
  rcases key with ⟨h, e, he⟩ | ⟨h, he⟩
  · rw [if_pos h]
    exact ⟨e, Prod.ext (by rw [call_set, setBy_none h.1 h.2.1 h.2.2]) he⟩
  · rw [if_neg h]; exact he

/-- C75. Other requests change nothing, whatever their arguments; on a switch that is not unreliable there are no verbs about errors and delays. -/
theorem C75_reads (c : Cfg) (s : St) (v : Str) (args : List Str) (hv : v ∉ ["set-log-level".toList, "set-error-rate".toList, "set-delay-rate".toList]) :
    (call c s v args).1 = s := by
  simp only [List.mem_cons, List.not_mem_nil, or_false, not_or] at hv
  rw [call_set, setBy_none (es_nil _ fun x => hv.2.1 x.2) (ds_nil _ fun x => hv.2.2 x.2) (ls_nil _ hv.1)]

theorem C75_reliable_verbs (c : Cfg) (hu : c.unreliable = false) (s : St) (v : Str) (args : List Str) (hv : v ∈ moreVerbs) : call c s v args = (s, none) := by
  refine call_none ?_
  unfold moreVerbs at hv
  simp only [List.mem_cons, List.not_mem_nil, or_false] at hv
  unfold api
  rw [hu]
  rcases hv with rfl | rfl | rfl | rfl <;> rfl

/-- C75. Management does not touch the table of the switch, nor any link or packet. -/
theorem C75_frame (c : Cfg) (s : St) (v : Str) (args : List Str) : (call c s v args).1.switch = s.switch ∧ (call c s v args).1.link = s.link := by
  rw [call_set]; exact ⟨rfl, rfl⟩

/-! ## Where packets go -/

/-- C75. The links a packet goes to are those whose announcement covers its destination, as `C27` says; only announcements made while an impossible error
rate is set do not count. -/
theorem C75_receivers (c : Cfg) (h : List Ev) (dst : Str) (z n d i : Nat)
    (hd : ∃ a b c e, dst = dotted a b c e ∧ DenotesNum a (.num z) ∧ DenotesNum b (.num n) ∧ DenotesNum c (.num d) ∧ DenotesNum e (.num i)) :
    (exec c .init h).switch.getOutboundLinks dst = .ok (receivers (ops c h) dst) ∧ (receivers (ops c h) dst).Nodup ∧
    ∀ l, l ∈ receivers (ops c h) dst ↔ ∃ a ∈ enclosing z n d i, RegisteredAs (ops c h) l a := by
  obtain ⟨ls, h1, h2, h3⟩ := C27_links (ops c h) _ (run c h).switch dst z n d i hd
  rw [receivers_ok (run c h).switch h1]
  exact ⟨h1, h2, h3⟩

/-- C75. Only links that are connected receive packets. -/
theorem C75_connected (c : Cfg) (h : List Ev) (d : Str) (j : Nat) (hj : j ∈ receivers (ops c h) d) : phase h j = .up := receivers_up hj

/-! ## What arrives -/

theorem write_clear {c : Cfg} {s : Settings} (hs : s.errors ≤ 0) {k : Int} (hk : s.rate = .int k) (h0 : k ≤ 0) (i : Nat) : ∀ (ls : List Layer) (data : Bytes),
    (∀ l ∈ ls, Calm l.err) → ∃ ls', write c s i ls data = (ls', some data) ∧ ∀ l ∈ ls', Calm l.err
  | [], data, _ => ⟨[], rfl, by simp⟩
  | l :: ls, data, hl => by
    unfold write
    rw [hk, if_neg (by simp [delays]; omega)]
    unfold pass
    obtain ⟨e', h1, h2⟩ := write_calm (rnd := c.rnd i ls.length) hs (hl l (List.mem_cons_self ..)) data
    obtain ⟨ls', h3, h4⟩ := write_clear hs hk h0 i ls data (fun x hx => hl x (List.mem_cons_of_mem _ hx))
    dsimp only
    rw [h1]
    dsimp only
    rw [h3]
    exact ⟨_, rfl, fun x hx => by
      rcases List.mem_cons.mp hx with rfl | hx
      · exact h2
      · exact h4 x hx⟩

/-- `Err.write` keeps `Calm`, with all settings. -/
theorem err_calm (rnd : Nat → Nat → Nat) (s : Settings) (e : Err) (data : Bytes) (he : Calm e) : Calm (Err.write rnd s e data).1 := by
  have hfin : ∀ (x : Err) (d : Bytes), Calm x → Calm (Err.finish rnd s x d).1 := by
    intro x d hx
    unfold Err.finish
    split
    · have := reset_calm rnd s { x with byteIndex := 0 }
      cases hy : Err.reset rnd s { x with byteIndex := 0 } with
      | mk e' b => rw [hy] at this; cases b <;> exact this
    · exact hx
  have hcor : ∀ (a b : Nat) (d : Bytes), (Unrel.corrupt a b [] d) = ([], some d) := fun _ _ _ => rfl
  have hbody : ∀ (x : Err), Calm x → Calm (Err.body rnd s x data).1 := by
    intro x hx
    unfold Err.body
    cases hc : Unrel.corrupt x.byteIndex (data.length + x.byteIndex) x.bad data with
    | mk l o =>
      have hl : Calm { x with bad := l } := by
        intro h
        have := hx h
        rw [this, hcor] at hc
        cases hc; rfl
      cases o with
      | none => exact hl
      | some d => exact hfin _ d hl
  unfold Err.write
  split
  · have := reset_calm rnd s e
    cases hy : Err.reset rnd s e with
    | mk e' b =>
      rw [hy] at this
      cases b
      · exact hbody e' this
      · exact this
  · exact hbody e he

theorem pass_calm {rnd : Nat → Nat → Nat} {s : Settings} {below : Bytes → List Layer × Option Bytes} {ls : List Layer} (hls : ∀ x ∈ ls, Calm x.err)
    (hb : ∀ d, ∀ x ∈ (below d).1, Calm x.err) {l : Layer} (hl : Calm l.err) (data : Bytes) : ∀ x ∈ (pass rnd s below l ls data).1, Calm x.err := by
  intro x hx
  unfold pass at hx
  have h1 := err_calm rnd s l.err data hl
  cases hw : Err.write rnd s l.err data with
  | mk e o =>
    rw [hw] at hx h1
    cases o with
    | none =>
      rcases List.mem_cons.mp hx with rfl | hx
      · exact h1
      · exact hls x hx
    | some d =>
      rcases List.mem_cons.mp hx with rfl | hx
      · exact h1
      · exact hb d x hx

theorem stack_calm (c : Cfg) (s : Settings) (i : Nat) : ∀ (ls : List Layer) (data : Bytes), (∀ l ∈ ls, Calm l.err) → ∀ l ∈ (write c s i ls data).1, Calm l.err
  | [], _, _ => by simp [write]
  | l :: ls, data, hl => by
    have ht : ∀ x ∈ ls, Calm x.err := fun x hx => hl x (List.mem_cons_of_mem _ hx)
    unfold write
    split
    · intro x hx
      rcases List.mem_cons.mp hx with rfl | hx
      · exact hl l (List.mem_cons_self ..)
      · exact ht x hx
    · exact pass_calm ht (fun d => stack_calm c s i ls d ht) (l := { l with coins := l.coins + 1 }) (hl l (List.mem_cons_self ..)) data

theorem fire_calm (c : Cfg) (s : Settings) (i k n : Nat) : ∀ (ls : List Layer), (∀ l ∈ ls, Calm l.err) → ∀ l ∈ (fire c s i k n ls).1, Calm l.err
  | [], _ => by simp [fire]
  | l :: ls, hl => by
    have ht : ∀ x ∈ ls, Calm x.err := fun x hx => hl x (List.mem_cons_of_mem _ hx)
    unfold fire
    split
    · split
      · exact hl
      · next e he => exact pass_calm ht (fun d => stack_calm c s i ls d ht) (l := { l with pending := l.pending.filter (fun e => decide (e.1 ≠ n)) }) (hl l (List.mem_cons_self ..)) e.2
    · intro x hx
      rcases List.mem_cons.mp hx with rfl | hx
      · exact hl x (List.mem_cons_self ..)
      · exact fire_calm c s i k n ls ht x hx

theorem all_calm (c : Cfg) : ∀ (es h : List Ev) (s : St), Run c h s → (∀ j, ∀ l ∈ (s.link j).stack, Calm l.err) → ∀ j, ∀ l ∈ ((exec c s es).link j).stack, Calm l.err
  | [], _, _, _, hs => hs
  | e :: es, h, s, hr, hs => all_calm c es (h ++ [e]) (step c s e) (hr.step e) (fun j l hl => by
      cases e with
      | connect i => rw [link_connect] at hl; split at hl <;> exact hs j l hl
      | lost i => rw [link_lost] at hl; split at hl <;> exact hs j l hl
      | announce i a =>
        rw [link_announce] at hl
        split at hl
        · split at hl
          · exact hs j l hl
          · next e he =>
            rcases List.mem_cons.mp hl with rfl | hl
            · exact make_calm he
            · exact hs j l hl
        · exact hs j l hl
      | send i d b =>
        rw [link_send hr] at hl
        split at hl
        · rw [put_stack] at hl; exact stack_calm c s.set j _ b (hs j) l hl
        · exact hs j l hl
      | timer i k n =>
        rw [link_timer] at hl
        split at hl
        · rw [put_stack] at hl; exact fire_calm c s.set j k n _ (hs j) l hl
        · exact hs j l hl
      | request v args => rw [link_request] at hl; exact hs j l hl)

theorem snoc (c : Cfg) (h : List Ev) (e : Ev) : exec c .init (h ++ [e]) = step c (exec c .init h) e := exec_append c h [e] .init

/-- C75. With no errors and no delays set, a packet is written at once and unchanged on every link it is for, whatever has been set before and however many
layers there are. -/
theorem C75_unchanged (c : Cfg) (h : List Ev) (he : (errorRate c h).1 ≤ 0) (k : Int) (hd : (delayRate c h).1 = .int k) (hk : k ≤ 0) (i : Nat) (d : Str) (data : Bytes) (j : Nat) :
    ((exec c .init (h ++ [.send i d data])).link j).out = ((exec c .init h).link j).out ++ forLink c h j (.send i d data) := by
  rw [snoc]
  have hr := run c h
  rw [link_send hr, forLink]
  split
  · next hx =>
    obtain ⟨ls', h1, _⟩ := write_clear (c := c) (s := (exec c .init h).set) (by rw [hr.set]; exact he) (by rw [hr.set]; exact hd) hk j ((exec c .init h).link j).stack data
      (all_calm c h [] .init (Run.init c) (by intro j l hl; cases hl) j)
    rw [h1]
    show (if _ then _ else _) = _
    rw [if_pos (by rw [hr.phase]; exact receivers_up hx.2)]
  · exact (List.append_nil _).symm

theorem layers_all (c : Cfg) (h : List Ev) (j : Nat) : ((exec c .init h).link j).stack.length = if c.unreliable then announcements (ops c h) j else 0 := by
  have := layers c h [] .init (Run.init c) (by intro j; show 0 = _; split <;> rfl) j
  exact this

/-- C75. On a switch that is not unreliable a packet is always written at once and unchanged on every link it is for. -/
theorem C75_reliable (c : Cfg) (hu : c.unreliable = false) (h : List Ev) (i : Nat) (d : Str) (data : Bytes) (j : Nat) :
    ((exec c .init (h ++ [.send i d data])).link j).out = ((exec c .init h).link j).out ++ forLink c h j (.send i d data) := by
  rw [snoc]
  have hr := run c h
  rw [link_send hr, forLink]
  split
  · next hx =>
    have hl := layers_all c h j
    rw [hu, if_neg (by simp)] at hl
    rw [List.length_eq_zero_iff.mp hl]
    show (if _ then _ else _) = _
    rw [if_pos (by rw [hr.phase]; exact receivers_up hx.2)]
  · exact (List.append_nil _).symm

/-- C75. With an integer rate of one or more every packet is delayed: nothing is written at once. -/
theorem C75_delayed (c : Cfg) (hu : c.unreliable = true) (h : List Ev) (k : Int) (hd : (delayRate c h).1 = .int k) (hk : 1 ≤ k) (i : Nat) (d : Str) (data : Bytes) (j : Nat) :
    ((exec c .init (h ++ [.send i d data])).link j).out = ((exec c .init h).link j).out ∧
    (waiting ((exec c .init (h ++ [.send i d data])).link j)).Perm (waiting ((exec c .init h).link j) ++ forLink c h j (.send i d data)) := by
  rw [snoc]
  have hr := run c h
  rw [link_send hr, forLink]
  split
  · next hx =>
    have hl := layers_all c h j
    rw [hu, if_pos rfl] at hl
    obtain ⟨a, ha⟩ := receivers_registered hx.2
    have hpos : 0 < announcements (ops c h) j := by
      unfold announcements
      exact List.length_pos_of_mem (List.mem_filter.mpr ⟨registered_mem ha, by simp⟩)
    cases hst : ((exec c .init h).link j).stack with
    | nil => rw [hst] at hl; simp at hl; omega
    | cons l ls =>
      unfold write
      rw [if_pos (by rw [hr.set]; show delays _ _ (delayRate c h).1 = true; rw [hd]; simp [delays]; exact hk)]
      refine ⟨rfl, ?_⟩
      unfold waiting
      rw [put_stack, hst]
      simp only [List.flatMap_cons, List.map_append, List.map_cons, List.map_nil, List.append_assoc]
      exact List.perm_append_comm.append_left _
  · exact ⟨rfl, by rw [List.append_nil]⟩

/-- C75. While no errors are set, no packet is lost, changed or doubled, whatever delays are set: on a link that is connected, what was written and what waits
for a timer are together exactly the packets for the link. -/
theorem C75_exactly (c : Cfg) (h : List Ev) (j : Nat) (hj : phase h j = .up) (he : ∀ p q, h = p ++ q → phase p j = .up → (errorRate c p).1 ≤ 0) :
    (((exec c .init h).link j).out ++ waiting ((exec c .init h).link j)).Perm (packets c j h) := by
  have := ((kept (P := Calm) (g := fun b => b) (c := c) (j := j) h (fun p q hpq hu => by
    refine ⟨works_calm ?_, fun rnd e hm => make_calm hm⟩
    rw [(run c p).set]
    exact he p q hpq hu)).up hj).2
  rw [List.map_id', List.map_id'] at this
  exact this

/-- C75. While the error rate remains the same, no packet is lost or doubled, and none changes its length. -/
theorem C75_lengths (c : Cfg) (h : List Ev) (j : Nat) (hj : phase h j = .up) (e n : Int) (hen : e ≤ 0 ∨ 0 ≤ n)
    (he : ∀ p q, h = p ++ q → phase p j = .up → errorRate c p = (e, n)) :
    ((((exec c .init h).link j).out ++ waiting ((exec c .init h).link j)).map List.length).Perm ((packets c j h).map List.length) := by
  refine ((kept (P := Steady (e, n)) (g := List.length) (c := c) (j := j) h (fun p q hpq hu => ?_)).up hj).2
  have hp := he p q hpq hu
  have hset := (run c p).set
  rw [hp] at hset
  rw [hset]
  exact ⟨works_steady (s := ⟨e, n, (delayRate c p).1, (delayRate c p).2⟩) hen, fun rnd x hm => make_steady hm⟩

theorem pass_le {rnd : Nat → Nat → Nat} {s : Settings} {below : Bytes → List Layer × Option Bytes} {ls : List Layer}
    (hb : ∀ d, (below d).2.toList.length + (waits (below d).1).length ≤ (waits ls).length + 1) (l : Layer) (data : Bytes) :
    (pass rnd s below l ls data).2.toList.length + (waits (pass rnd s below l ls data).1).length ≤ (waits (l :: ls)).length + 1 := by
  unfold pass
  split
  · simp [waits]
  · next e d he =>
    have := hb d
    cases hx : below d with
    | mk ls' o =>
      rw [hx] at this
      dsimp only at this ⊢
      simp only [waits, List.flatMap_cons, List.length_append] at this ⊢
      omega

theorem write_le (c : Cfg) (s : Settings) (i : Nat) : ∀ (ls : List Layer) (data : Bytes),
    (write c s i ls data).2.toList.length + (waits (write c s i ls data).1).length ≤ (waits ls).length + 1
  | [], _ => by simp [write, waits]
  | l :: ls, data => by
    unfold write
    split
    · simp only [waits, List.flatMap_cons, List.length_append, List.map_append, Option.toList_none, List.length_nil, List.map_cons, List.map_nil, List.length_cons]
      omega
    · exact pass_le (fun d => write_le c s i ls d) _ data

theorem fire_le (c : Cfg) (s : Settings) (i k n : Nat) : ∀ (ls : List Layer),
    (fire c s i k n ls).2.toList.length + (waits (fire c s i k n ls).1).length ≤ (waits ls).length
  | [] => by simp [fire, waits]
  | l :: ls => by
    unfold fire
    split
    · cases hf : l.pending.find? (fun e => decide (e.1 = n)) with
      | none => simp
      | some e =>
        dsimp only
        refine Nat.le_trans (pass_le (fun d => write_le c s i ls d) _ _) ?_
        have hlt : (l.pending.filter (fun x => decide (x.1 ≠ n))).length < l.pending.length := by
          rw [List.length_filter_lt_length_iff_exists]
          exact ⟨e, List.mem_of_find?_eq_some hf, by simpa using List.find?_some hf⟩
        simp only [waits, List.flatMap_cons, List.length_append, List.length_map]
        omega
    · have := fire_le c s i k n ls
      cases hx : fire c s i k n ls with
      | mk ls' o =>
        rw [hx] at this
        dsimp only at this ⊢
        simp only [waits, List.flatMap_cons, List.length_append] at this ⊢
        omega

theorem put_le (l : Link) (w : List Layer × Option Bytes) : (l.put w).out.length ≤ l.out.length + w.2.toList.length := by
  cases w with
  | mk st o =>
    cases o with
    | none => exact Nat.le_refl _
    | some d =>
      show (if _ then _ else _ : List Bytes).length ≤ l.out.length + 1
      split <;> simp

theorem once (c : Cfg) (j : Nat) : ∀ (es h : List Ev) (s : St), Run c h s → (s.link j).out.length + (waits (s.link j).stack).length ≤ (packets c j h).length →
    ((exec c s es).link j).out.length + (waits ((exec c s es).link j).stack).length ≤ (packets c j (h ++ es)).length
  | [], h, s, _, hs => by rw [List.append_nil]; exact hs
  | e :: es, h, s, hr, hs => by
    have := once c j es (h ++ [e]) (step c s e) (hr.step e) (by
      rw [packets_snoc]
      cases e with
      | connect i =>
        rw [link_connect, show forLink c h j (.connect i) = [] from rfl, List.append_nil]
        split <;> exact hs
      | lost i =>
        rw [link_lost, show forLink c h j (.lost i) = [] from rfl, List.append_nil]
        split <;> exact hs
      | announce i a =>
        rw [link_announce, show forLink c h j (.announce i a) = [] from rfl, List.append_nil]
        split
        · split
          · exact hs
          · exact hs
        · exact hs
      | send i d b =>
        rw [link_send hr, forLink]
        split
        · have h1 := put_le (s.link j) (write c s.set j (s.link j).stack b)
          have h2 := write_le c s.set j (s.link j).stack b
          rw [put_stack, List.length_append, List.length_singleton]
          omega
        · rw [List.append_nil]; exact hs
      | timer i k n =>
        rw [link_timer, show forLink c h j (.timer i k n) = [] from rfl, List.append_nil]
        split
        · have h1 := put_le (s.link j) (fire c s.set j k n (s.link j).stack)
          have h2 := fire_le c s.set j k n (s.link j).stack
          rw [put_stack]
          omega
        · exact hs
      | request v args =>
        rw [link_request, show forLink c h j (.request v args) = [] from rfl, List.append_nil]
        exact hs)
    rw [List.append_assoc] at this
    exact this

/-- C75. Whatever is set and however often, no packet is doubled: there are never more writes on a link than packets for it. -/
theorem C75_once (c : Cfg) (h : List Ev) (j : Nat) :
    ((exec c .init h).link j).out.length + (waiting ((exec c .init h).link j)).length ≤ (packets c j h).length :=
  once c j h [] .init (Run.init c) (Nat.le_refl _)

/-! ## Errors -/

/-- The transport of `C48` as one of this model. -/
def toErr (u : Unrel.St) : Err := ⟨u.byteIndex, u.bytesToCorrupt, (u.cur.errors, u.cur.horizon), u.draws⟩

theorem make_toErr (rnd : Nat → Nat → Nat) {s : Settings} {cfg : Unrel.Settings} (h1 : s.errors = cfg.errors) (h2 : s.horizon = cfg.horizon) :
    Err.make rnd s = some (toErr (Unrel.init rnd cfg)) := by
  unfold Err.make Err.reset
  rw [h1, h2, if_neg (by omega)]
  simp only [Int.toNat_natCast]
  rfl

theorem write_toErr (rnd : Nat → Nat → Nat) {s : Settings} {cfg : Unrel.Settings} (h1 : s.errors = cfg.errors) (h2 : s.horizon = cfg.horizon) {k : Nat} {u : Unrel.St}
    (hu : Unrel.Inv rnd cfg k u) (w : Bytes) : ∃ d, Err.write rnd s (toErr u) w = (toErr (Unrel.write rnd cfg u w), some d) ∧ (Unrel.write rnd cfg u w).out = u.out ++ [d] := by
  have hc := Unrel.corrupt_spec u.byteIndex w.length u.bytesToCorrupt w rfl hu.inc (fun p hp => ((hu.mem p).mp hp).2)
  unfold Err.write Unrel.write
  rw [if_neg (by show ¬ (((u.cur.errors : Int), (u.cur.horizon : Int)) ≠ (s.errors, s.horizon)); rw [hu.cur, h1, h2]; simp), if_neg (by simp [hu.cur])]
  unfold Err.body
  dsimp only [toErr]
  rw [hc]
  dsimp only
  unfold Err.finish Unrel.finish
  dsimp only
  by_cases hh : u.byteIndex + (Unrel.flip (· ∈ u.bytesToCorrupt) u.byteIndex w).length > cfg.horizon
  · rw [if_pos (by rw [h2]; omega), if_pos hh]
    unfold Err.reset
    rw [h1, h2, if_neg (by omega)]
    refine ⟨_, ?_, rfl⟩
    simp only [Int.toNat_natCast, Unrel.reset]
  · rw [if_neg (by rw [h2]; omega), if_neg hh]
    exact ⟨_, rfl, rfl⟩

theorem inv_write {rnd : Nat → Nat → Nat} {cfg : Unrel.Settings} {k : Nat} {u : Unrel.St} (hu : Unrel.Inv rnd cfg k u) (w : Bytes) : ∃ k', Unrel.Inv rnd cfg k' (Unrel.write rnd cfg u w) := by
  have := (Unrel.write_spec hu w).2
  split at this
  · exact ⟨_, this.2⟩
  · exact ⟨_, this.2⟩

theorem writes_snoc (rnd : Nat → Nat → Nat) (cfg : Unrel.Settings) (w : Bytes) : ∀ (ws : List Bytes) (u : Unrel.St),
    Unrel.writes rnd cfg u (ws ++ [w]) = Unrel.write rnd cfg (Unrel.writes rnd cfg u ws) w
  | [], _ => rfl
  | x :: ws, u => writes_snoc rnd cfg w ws (Unrel.write rnd cfg u x)

theorem inv_writes {rnd : Nat → Nat → Nat} {cfg : Unrel.Settings} : ∀ (ws : List Bytes) {k : Nat} {u : Unrel.St}, Unrel.Inv rnd cfg k u → ∃ k', Unrel.Inv rnd cfg k' (Unrel.writes rnd cfg u ws)
  | [], k, _, h => ⟨k, h⟩
  | w :: ws, _, _, h => by
    obtain ⟨k', hk⟩ := inv_write h w
    exact inv_writes ws hk

/-- A link that has announced nothing yet. -/
theorem silent (c : Cfg) (hu : c.unreliable = true) (h : List Ev) (j : Nat) (hn : ∀ a, .announce j a ∉ h) : announcements (ops c h) j = 0 := by
  have : ∀ (es b : List Ev), (∀ a, .announce j a ∉ es) → announcements (ops c b) j = 0 → announcements (ops c (b ++ es)) j = 0 := by
    intro es
    induction es with
    | nil => intro b _ h0; rw [List.append_nil]; exact h0
    | cons e es ih =>
      intro b hes h0
      have := ih (b ++ [e]) (fun a hm => hes a (List.mem_cons_of_mem _ hm)) (by
        rw [ops_snoc, announcements_append, h0, Nat.zero_add]
        cases e with
        | announce i a =>
          have hne : i ≠ j := fun x => hes a (by rw [x]; exact List.mem_cons_self ..)
          rw [opsOf]
          split
          · simp [announcements, hne]
          · rfl
        | lost i => rw [opsOf]; split <;> rfl
        | _ => rfl)
      rw [List.append_assoc] at this
      exact this
  exact this h [] hn rfl

theorem not_receiver {c : Cfg} {h : List Ev} {j : Nat} (h0 : announcements (ops c h) j = 0) (d : Str) : j ∉ receivers (ops c h) d := by
  intro hm
  obtain ⟨a, ha⟩ := receivers_registered hm
  have : 0 < announcements (ops c h) j := by
    unfold announcements
    exact List.length_pos_of_mem (List.mem_filter.mpr ⟨registered_mem ha, by simp⟩)
  omega

theorem no_packets (c : Cfg) (j : Nat) (h : List Ev) (hu : c.unreliable = true) (hn : ∀ a, .announce j a ∉ h) : packets c j h = [] := by
  have : ∀ (es b : List Ev), (∀ a, .announce j a ∉ b ++ es) → packetsFrom c j b es = [] := by
    intro es
    induction es with
    | nil => intro b _; rfl
    | cons e es ih =>
      intro b hb
      have hb' : ∀ a, .announce j a ∉ b := fun a hm => hb a (List.mem_append_left _ hm)
      rw [packetsFrom, ih (b ++ [e]) (by rw [List.append_assoc]; exact hb), List.append_nil]
      cases e with
      | send i d x => rw [forLink, if_neg fun y => not_receiver (silent c hu b j hb') d y.2]
      | _ => rfl
  exact this h [] hn

theorem out_le (c : Cfg) (h : List Ev) (j : Nat) (hp : packets c j h = []) : ((exec c .init h).link j).out = [] := by
  have := C75_once c h j
  rw [hp] at this
  exact List.length_eq_zero_iff.mp (by simp at this; exact this.1 ▸ rfl)

/-- One layer, without delays, that has carried `ws`. -/
structure OneLayer (rnd : Nat → Nat → Nat) (cfg : Unrel.Settings) (ws : List Bytes) (l : Link) : Prop where
  stack : ∃ n m, l.stack = [⟨toErr (Unrel.writes rnd cfg (Unrel.init rnd cfg) ws), n, [], m⟩]
  out : l.out = (Unrel.writes rnd cfg (Unrel.init rnd cfg) ws).out

theorem OneLayer.step {c : Cfg} {h : List Ev} {s : St} {j : Nat} (hr : Run c h s) {cfg : Unrel.Settings} (ho : OneLayer (c.rnd j 0) cfg (packets c j h) (s.link j))
    (he : errorRate c h = ((cfg.errors : Int), (cfg.horizon : Int))) {k : Int} (hd : (delayRate c h).1 = .int k) (hk : k ≤ 0) (e : Ev) (hna : ∀ a, e ≠ .announce j a) :
    OneLayer (c.rnd j 0) cfg (packets c j (h ++ [e])) ((SwitchApi.step c s e).link j) := by
  rw [packets_snoc]
  cases e with
  | connect i =>
    rw [show forLink c h j (.connect i) = [] from rfl, List.append_nil, link_connect]
    split
    · exact ⟨ho.stack, ho.out⟩
    · exact ho
  | lost i =>
    rw [show forLink c h j (.lost i) = [] from rfl, List.append_nil, link_lost]
    split
    · exact ⟨ho.stack, ho.out⟩
    · exact ho
  | announce i a =>
    rw [show forLink c h j (.announce i a) = [] from rfl, List.append_nil, link_announce, if_neg (fun x => hna a (by rw [x.1]))]
    exact ho
  | send i d data =>
    rw [link_send hr, forLink]
    split
    · next hx =>
      obtain ⟨n, m, hs⟩ := ho.stack
      obtain ⟨k', hinv⟩ := inv_writes (packets c j h) (Unrel.Inv.init (c.rnd j 0) cfg)
      obtain ⟨d', h1, h2⟩ := write_toErr (c.rnd j 0) (s := s.set) (by rw [hr.set, he]) (by rw [hr.set, he]) hinv data
      have hw : write c s.set j (s.link j).stack data = ([⟨toErr (Unrel.write (c.rnd j 0) cfg (Unrel.writes (c.rnd j 0) cfg (Unrel.init (c.rnd j 0) cfg) (packets c j h)) data), n + 1, [], m⟩], some d') := by
        rw [hs]
        unfold write
        rw [if_neg (by rw [hr.set]; show ¬ delays _ _ (delayRate c h).1 = true; rw [hd]; simp [delays]; omega)]
        unfold pass
        dsimp only [List.length_nil]
        rw [h1]
        rfl
      rw [hw]
      refine ⟨⟨n + 1, m, by rw [put_stack, writes_snoc]⟩, ?_⟩
      show (if _ then _ else _ : List Bytes) = _
      rw [if_pos (by rw [hr.phase]; exact receivers_up hx.2), writes_snoc, h2, ho.out]
    · rw [List.append_nil]; exact ho
  | timer i k n =>
    rw [show forLink c h j (.timer i k n) = [] from rfl, List.append_nil, link_timer]
    split
    · obtain ⟨a, b, hs⟩ := ho.stack
      have hf : fire c s.set j k n (s.link j).stack = ((s.link j).stack, none) := by
        rw [hs]
        unfold fire
        split
        · rfl
        · rfl
      rw [hf]
      exact ⟨ho.stack, ho.out⟩
    · exact ho
  | request v args =>
    rw [show forLink c h j (.request v args) = [] from rfl, List.append_nil, link_request]
    exact ho

theorem OneLayer.exec {c : Cfg} {j : Nat} {cfg : Unrel.Settings} : ∀ (es h : List Ev) (s : St), Run c h s → OneLayer (c.rnd j 0) cfg (packets c j h) (s.link j) →
    (∀ a, .announce j a ∉ es) → (∀ p q, es = p ++ q → errorRate c (h ++ p) = ((cfg.errors : Int), (cfg.horizon : Int)) ∧ ∃ k : Int, (delayRate c (h ++ p)).1 = .int k ∧ k ≤ 0) →
    OneLayer (c.rnd j 0) cfg (packets c j (h ++ es)) ((SwitchApi.exec c s es).link j)
  | [], h, s, _, ho, _, _ => by rw [List.append_nil]; exact ho
  | e :: es, h, s, hr, ho, hna, hset => by
    obtain ⟨h1, k, h2, h3⟩ := hset [] (e :: es) rfl
    rw [List.append_nil] at h1 h2
    have := OneLayer.exec es (h ++ [e]) (SwitchApi.step c s e) (hr.step e) (ho.step hr h1 h2 h3 e (fun a hx => hna a (by rw [hx]; exact List.mem_cons_self ..)))
      (fun a hm => hna a (List.mem_cons_of_mem _ hm)) (fun p q hpq => by
        have := hset (e :: p) q (by rw [hpq]; rfl)
        rw [List.append_assoc]; exact this)
    rw [List.append_assoc] at this
    exact this

/-- C75. A link that has announced itself once, an error rate that was not changed since, and no delays: what arrives is what `C48` says. Exactly the bytes at the drawn
offsets are inverted. -/
theorem C75_errors_partial (c : Cfg) (hu : c.unreliable = true) (j : Nat) (h1 h2 : List Ev) (a : Str) (hup : phase h1 j = .up)
    (hn1 : ∀ a, .announce j a ∉ h1) (hn2 : ∀ a, .announce j a ∉ h2) (cfg : Unrel.Settings)
    (hset : ∀ p q, .announce j a :: h2 = p ++ q → errorRate c (h1 ++ p) = ((cfg.errors : Int), (cfg.horizon : Int)) ∧ ∃ k : Int, (delayRate c (h1 ++ p)).1 = .int k ∧ k ≤ 0) :
    ((exec c .init (h1 ++ .announce j a :: h2)).link j).out = Unrel.expected (c.rnd j 0) cfg 0 0 (packets c j (h1 ++ .announce j a :: h2)) := by
  have hp1 : packets c j h1 = [] := no_packets c j h1 hu hn1
  have hr := run c h1
  obtain ⟨he, _⟩ := hset [] _ rfl
  rw [List.append_nil] at he
  have hp2 : packets c j (h1 ++ [.announce j a]) = [] := by rw [packets_snoc, hp1]; rfl
  have hst : ((exec c .init h1).link j).stack = [] := by
    have := layers_all c h1 j
    rw [if_pos hu, silent c hu h1 j hn1] at this
    exact List.length_eq_zero_iff.mp this
  have h0 : OneLayer (c.rnd j 0) cfg (packets c j (h1 ++ [.announce j a])) ((step c (exec c .init h1) (.announce j a)).link j) := by
    rw [hp2, link_announce, if_pos ⟨rfl, by rw [hr.phase]; exact hup, hu⟩, hst,
      show ([] : List Layer).length = 0 from rfl, make_toErr (c.rnd j 0) (s := (exec c .init h1).set) (cfg := cfg) (by rw [hr.set, he]) (by rw [hr.set, he])]
    exact ⟨⟨0, 0, rfl⟩, out_le c h1 j hp1⟩
  have := (OneLayer.exec h2 (h1 ++ [.announce j a]) _ (hr.step _) h0 hn2 (fun p q hpq => by
    have := hset (.announce j a :: p) q (by rw [hpq]; rfl)
    rw [List.append_assoc]; exact this)).out
  rw [List.append_assoc] at this
  rw [exec_append]
  exact this.trans (Unrel.C48_exact _ _ _)

end Verif.SwitchApi
