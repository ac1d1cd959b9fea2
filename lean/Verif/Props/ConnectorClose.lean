import Verif.Props.ConnectorEnd
/-! # C61, C62, C63: closing servers, witnesses and examples -/
namespace Verif.Connect
open Verif.Cli (Kind)

/-! ## C61: witnesses against the unrestricted statement -/

/-- C61 is false. A client connects over two VNICs at the same time. Both use connection id 1; the second call returns the
application that the factory of the first call made. -/
theorem C61_false_two_vnics :
    let s := exec .init [.call .connect (some 1), .serviceOk 0, .dialOk 0, .call .connect (some 2), .dialOk 1,
      .spawned 0 1 500 2000, .spawned 1 1 501 2000, .callback 500, .opened 1, .made 0, .madeResume 1]
    Returned s 1 0 ∧ RunsFor s 0 0 ∧ ¬ RunsFor s 0 1 := by
  refine ⟨by unfold Returned; decide +kernel, ⟨.connect, by decide +kernel⟩, ?_⟩
  rintro ⟨k, hk⟩
  revert hk
  cases k <;> decide +kernel

/-- C61 is false. A server and a client are started at the same time, before there is a control connection to their one VNIC: both
make one. The client call returns the application of a connection that came in at the server. -/
theorem C61_false_concurrent :
    let s := exec .init [.call .listen (some 1), .serviceOk 0, .call .connect (some 1), .dialOk 0, .dialOk 1,
      .response 0 1 (.port 80), .opened 0, .spawned 0 1 500 80, .callback 500, .spawned 1 1 501 2000, .opened 1, .made 0, .madeResume 1]
    Returned s 1 0 ∧ RunsFor s 0 0 ∧ ¬ RunsFor s 0 1 ∧ (s.call 0).stage = .serving 0 1 false := by
  refine ⟨by unfold Returned; decide +kernel, ⟨.listen, by decide +kernel⟩, ?_, by decide +kernel⟩
  rintro ⟨k, hk⟩
  revert hk
  cases k <;> decide +kernel

/-- C61. After a `create_connection` that timed out the connection can still come up: the application is made and runs, nothing
closes it, and nobody has it. -/
theorem C61_false_late :
    let s := exec .init [.call .connect (some 1), .serviceOk 0, .dialOk 0, .timeout 0, .spawned 0 1 500 2000, .callback 500, .made 0]
    (s.call 0).stage = .raised .timeout ∧ RunsFor s 0 0 ∧ s.obs.get 0 = some true ∧ s.out = [] := by
  exact ⟨by decide +kernel, ⟨.connect, by decide +kernel⟩, by decide +kernel, by decide +kernel⟩

/-- One client. -/
def oneClient : List Ev := [.call .connect (some 1), .serviceOk 0, .dialOk 0, .spawned 0 1 500 2000, .opened 0, .callback 500]

example : Returned (exec .init (oneClient ++ [.notify, .resume 0, .made 0, .madeResume 0])) 0 0 ∧
    dials (oneClient ++ [.notify, .resume 0, .made 0, .madeResume 0]) ≤ 1 := by
  unfold Returned; decide +kernel

/-- Two clients over one VNIC return their own connections. -/
example : let s := exec .init [.call .connect (some 1), .serviceOk 0, .dialOk 0, .call .connect (some 1), .spawned 0 2 501 2001,
      .callback 501, .opened 1, .made 0, .madeResume 1, .spawned 0 1 500 2000, .callback 500, .opened 0, .made 1, .madeResume 0]
    Returned s 1 0 ∧ Returned s 0 1 := by
  unfold Returned; decide +kernel

/-- Two VNICs whose ids differ: the hypothesis of `C61_own_partial` holds. -/
example : let s := exec .init [.call .connect (some 1), .serviceOk 0, .dialOk 0, .call .connect (some 1), .call .connect (some 2), .dialOk 2,
      .spawned 0 2 501 2001, .callback 501, .opened 1, .made 0, .madeResume 1]
    Returned s 1 0 ∧ OwnId s 1 := by
  refine ⟨by unfold Returned; decide +kernel, ?_⟩
  rintro c id j c' ⟨_, h1⟩ ⟨h2, h3⟩
  have e : (some (0, 2) : Option (Nat × Nat)) = some (c, id) := by rw [← h1]; decide +kernel
  cases e
  have hn : j < 3 := h2
  have h4 : j = 0 ∨ j = 1 ∨ j = 2 := by omega
  rcases h4 with rfl | rfl | rfl
  · have e : (some (0, 1) : Option (Nat × Nat)) = some (c', 2) := by rw [← h3]; decide +kernel
    simp at e
  · have e : (some (0, 2) : Option (Nat × Nat)) = some (c', 2) := by rw [← h3]; decide +kernel
    simp only [Option.some.injEq, Prod.mk.injEq] at e; exact e.1.symm
  · have e : (some (1, 1) : Option (Nat × Nat)) = some (c', 2) := by rw [← h3]; decide +kernel
    simp at e

/-! ## C62: the hypotheses -/

/-- With one call, never two calls wait. -/
theorem alone_one {h : List Ev} (hn : ∀ a b, h = a ++ b → (exec .init a).nCall ≤ 1) : Alone h := by
  rintro a b rfl i j id id' ⟨h1, _⟩ ⟨h2, _⟩
  have := hn a b rfl
  omega

theorem prefixes {α : Type} : ∀ (h a b : List α), h = a ++ b → ∃ n, n ≤ h.length ∧ a = h.take n := by
  intro h a b e
  exact ⟨a.length, by rw [e]; simp, by rw [e]; simp⟩

/-- The hypotheses of `C62_completes_partial`. -/
example : Alone oneClient ∧ Waits (exec .init oneClient) 0 1 ∧ Callback.conns (exec .init oneClient).cb 1 = [0] ∧
    OwnId (exec .init oneClient) 0 := by
  refine ⟨?_, by unfold Waits; decide +kernel, by decide +kernel, own_single _ (by decide) _⟩
  refine alone_one ?_
  intro a b e
  obtain ⟨n, h1, rfl⟩ := prefixes _ a b e
  have h2 : n ≤ 6 := h1
  clear e h1
  revert n
  decide +kernel

/-- A failed dial, then a second call that polls forever. -/
example : ((exec .init ([.call .connect (some 1), .serviceOk 0, .dialFail 0] ++ [.call .connect (some 1), .poll 1, .poll 1])).call 1).stage = .polling := by
  decide +kernel

/-- A lost control connection: the next call times out. -/
example : ((exec .init (oneClient ++ .ctlLost 0 :: .call .connect (some 1) :: [.timeout 1])).call 1).stage = .raised .timeout := by
  decide +kernel

example : (exec .init oneClient).ctl.get 1 = some (some 0) ∧ (exec .init oneClient).ready = true := by decide +kernel

/-! ## C62: a callback connection that is there before the answer -/

theorem finish {s : St} {i n : Nat} (hi : i < s.nCall) (hs : (s.call i).stage = .making n) (ho : s.obs.get n ≠ none) :
    Returned (exec s [.made n, .madeResume i]) i n := by
  have h3 : ∃ v, step s (.made n) = v ∧ v.obs.get n = some true ∧ v.call = s.call ∧ v.nCall = s.nCall := by
    refine ⟨_, rfl, ?_⟩
    show (made s n).obs.get n = some true ∧ (made s n).call = s.call ∧ (made s n).nCall = s.nCall
    unfold made
    split
    · exact ⟨Dict.get_set_self _ _ _, rfl, rfl⟩
    · next hx =>
      refine ⟨?_, rfl, rfl⟩
      cases hg : s.obs.get n with
      | none => exact absurd hg ho
      | some b =>
        cases b with
        | true => rfl
        | false => exact absurd hg hx
  obtain ⟨v, hv, v1, v2, v3⟩ := h3
  simp only [exec]
  rw [hv]
  have hi : i < v.nCall := by rw [v3]; exact hi
  simp only [step, Ev.subject, if_pos hi, act, madeResume]
  rw [v2, hs]
  dsimp only
  rw [v1]
  exact ⟨hi, by simp [setStage, setCall]⟩

/-- C62. A client call whose request was answered, and whose one callback connection came before it looks, returns that connection
as soon as the application has had its `connection_made`, however many other calls there are. -/
theorem C62_direct_partial (h : List Ev) (i c f id p n : Nat) (hi : i < (exec .init h).nCall) (hk : ((exec .init h).call i).kind = .connect)
    (hs : ((exec .init h).call i).stage = .opening c f) (hf : ((exec .init h).cli c).fut f = .result id p)
    (hn : Callback.conns (exec .init h).cb id = [n]) (ho : OwnId (exec .init h) i) :
    Returned (exec (exec .init h) [.opened i, .made n, .madeResume i]) i n := by
  have hc := Core.reachable h
  have hW := Watched.reachable h
  generalize exec .init h = s at *
  have hv := hc.opening hi hs hf
  obtain ⟨g, c', h1, h2⟩ := hc.spawn id n (by rw [hn]; simp)
  have hmine := (own_of_mine hc hi ⟨c, id, g, c', hv, h1, h2⟩ ho).2
  have hobs : s.obs.get n ≠ none := by
    rcases hW n g h1 with hx | ⟨j, hj⟩
    · exact hx
    · have hst := hc.stage j hj.1
      unfold StageOk at hst
      rw [hj.2] at hst
      have := hmine j hj.1 hst.1
      subst this
      have := hj.2
      rw [hs] at this
      cases this
  have e : step s (.opened i) = proceed { s with cb := { s.cb with spawn := if s.cb.spawn.has id then s.cb.spawn else s.cb.spawn.set id [] } } i id := by
    simp only [step, Ev.subject, if_pos hi, act, opened]
    rw [hs]
    dsimp only
    rw [hf, hk]
    dsimp only
    unfold arrive
    dsimp only
    rw [hn, if_neg (by simp)]
  have hcs : Callback.conns { s.cb with spawn := if s.cb.spawn.has id then s.cb.spawn else s.cb.spawn.set id [] } id = [n] := by
    have hh : s.cb.spawn.has id = true := by
      unfold Callback.conns at hn
      cases hg : s.cb.spawn.get id with
      | none => rw [hg] at hn; cases hn
      | some _ => simp [Dict.has, hg]
    rw [if_pos hh]; exact hn
  have e2 : step s (.opened i) = setStage { s with cb := { s.cb with spawn := if s.cb.spawn.has id then s.cb.spawn else s.cb.spawn.set id [] } } i (.making n) := by
    rw [e]; unfold proceed; dsimp only; rw [hcs]
  show Returned (exec (step s (.opened i)) [.made n, .madeResume i]) i n
  rw [e2]
  refine finish hi ?_ hobs
  simp [setStage, setCall]

/-- The hypotheses of `C62_direct_partial`. -/
example : let s := exec .init [.call .connect (some 1), .serviceOk 0, .dialOk 0, .spawned 0 1 500 2000, .callback 500]
    (s.call 0).stage = .opening 0 0 ∧ (s.cli 0).fut 0 = .result 1 2000 ∧ Callback.conns s.cb 1 = [0] := by
  decide +kernel

/-! ## C63: closing a server -/

/-- C63. Closing a server tells its VNIC to close the server's own connection id, and closes the connections of this server: all
those whose application its factory made, that are not lost, and no other one — provided that no call over another control
connection used the same connection id. -/
theorem C63_close_partial (h : List Ev) (i c id : Nat) (hi : i < (exec .init h).nCall)
    (hs : ((exec .init h).call i).stage = .serving c id false) (ho : OwnId (exec .init h) i) :
    Asked (exec .init h) i c id ∧ ∃ ns : List Nat,
      (exec .init (h ++ [.closeServer i])).out = (exec .init h).out ++ .closePacket c id :: ns.map .close ∧
      (∀ n ∈ ns, RunsFor (exec .init h) n i) ∧
      ∀ n, RunsFor (exec .init h) n i → ((exec .init h).cb.proto n).lost = false → n ∈ ns := by
  have hc := Core.reachable h
  rw [exec_append]
  generalize exec .init h = s at *
  have hst := hc.stage i hi
  unfold StageOk at hst
  rw [hs] at hst
  have ha : Asked s i c id := ⟨hi, hst⟩
  refine ⟨ha, Callback.conns s.cb id, ?_, ?_, ?_⟩
  · show (step s (.closeServer i)).out = _
    simp only [step, Ev.subject, if_pos hi, act, closeServer]
    rw [hs]
  · intro n hn
    obtain ⟨f, c', h1, h2⟩ := hc.spawn id n hn
    have := ho c id f c' ha h2
    subst this
    have := asked_inj hc h2 ha
    subst this
    exact h1
  · intro n hn hl
    obtain ⟨c', id', h1, h2⟩ := hc.live n i hn
    have hv := h1.2
    rw [hst] at hv
    cases hv
    rcases h2 with h2 | h2
    · exact h2
    · rw [hl] at h2; cases h2

/-- C63, with one control connection. -/
theorem C63_one_vnic (h : List Ev) (hd : dials h ≤ 1) (i c id : Nat) (hi : i < (exec .init h).nCall)
    (hs : ((exec .init h).call i).stage = .serving c id false) : ∃ ns : List Nat,
      (exec .init (h ++ [.closeServer i])).out = (exec .init h).out ++ .closePacket c id :: ns.map .close ∧
      (∀ n ∈ ns, RunsFor (exec .init h) n i) ∧
      ∀ n, RunsFor (exec .init h) n i → ((exec .init h).cb.proto n).lost = false → n ∈ ns :=
  (C63_close_partial h i c id hi hs (own_single h hd i)).2

theorem closed_micro {e : Ev} {s t : St} (hm : Micro e s t) {i c id : Nat} (hi : i < s.nCall) (hs : (s.call i).stage = .serving c id true) :
    i < t.nCall ∧ (t.call i).stage = .serving c id true := by
  have set : ∀ (u : St) j g x, u.call = s.call → u.nCall = s.nCall → (s.call j).stage = x → (x ≠ .serving c id true) →
      i < (setStage u j g).nCall ∧ ((setStage u j g).call i).stage = .serving c id true := by
    intro u j g x h1 h2 h3 h4
    unfold setStage setCall
    dsimp only
    rw [h1, h2]
    by_cases hj : i = j
    · subst hj; exact absurd (h3.symm.trans hs) h4
    · rw [if_neg hj]; exact ⟨hi, hs⟩
  have ne : ∀ {j}, Early (s.call j).stage → (s.call j).stage ≠ .serving c id true := by
    intro j h1 h2; rw [h2] at h1; exact h1
  cases hm with
  | fresh k loc =>
    refine ⟨Nat.lt_succ_of_lt hi, ?_⟩
    show (if i = s.nCall then (⟨k, loc, .service, none⟩ : Call) else s.call i).stage = _
    rw [if_neg (Nat.ne_of_lt hi)]; exact hs
  | early _ _ j g hi' hs' hg => exact set s j g _ rfl rfl rfl (ne hs')
  | dial _ _ j l' hi' hs' hl hctl => exact set _ j _ _ rfl rfl hs' (fun h => nomatch h)
  | ask _ _ j l' c' hi' hs' hl hg =>
    refine ⟨hi, ?_⟩
    show (if i = j then ({ s.call j with stage := .opening c' (s.cli c').nFut, via := some (c', (s.cli c').count + 1) } : Call)
      else s.call i).stage = _
    rw [if_neg]
    · exact hs
    · rintro rfl; exact ne hs' hs
  | enqueue _ j c' f id' p hi' hs' hf hcs => exact set s j (.waiting id') _ rfl rfl hs' (fun h => nomatch h)
  | proceed _ j c' f id' p g hi' hs' hf hg => exact set s j _ _ rfl rfl hs' (fun h => nomatch h)
  | serve _ j c' f id' p hi' hs' hf hk => exact set s j _ _ rfl rfl hs' (fun h => nomatch h)
  | refuse _ j c' f hi' hs' hf => exact set s j _ _ rfl rfl hs' (fun h => nomatch h)
  | cancel _ j c' f hi' hs' hf => exact set _ j _ _ rfl rfl hs' (fun h => nomatch h)
  | giveUp _ j n hi' hs' => exact set s j (.raised .timeout) _ rfl rfl hs' (fun h => nomatch h)
  | go _ j id' g hi' hs' hw hg => exact set _ j _ _ rfl rfl hs' (fun h => nomatch h)
  | returns _ j n hi' hs' ho => exact set _ j _ _ rfl rfl hs' (fun h => nomatch h)
  | key _ j n hi' hs' => exact set s j _ _ rfl rfl hs' (fun h => nomatch h)
  | close _ j c' id' hi' hs' => exact set s j (.serving c' id' true) _ rfl rfl hs' (fun h => by cases h)
  | _ => exact ⟨hi, hs⟩

theorem closed_exec : ∀ (t : List Ev) (s : St) (i c id : Nat), i < s.nCall → (s.call i).stage = .serving c id true →
    i < (exec s t).nCall ∧ ((exec s t).call i).stage = .serving c id true
  | [], _, _, _, _, hi, hs => ⟨hi, hs⟩
  | e :: t, s, i, c, id, hi, hs => by
    have hm := step_micro s e
    have : i < (step s e).nCall ∧ ((step s e).call i).stage = .serving c id true := by
      generalize step s e = u at hm
      induction hm with
      | refl => exact ⟨hi, hs⟩
      | tail _ hx ih => exact closed_micro hx ih.1 ih.2
    exact closed_exec t (step s e) i c id this.1 this.2

/-- C63. After a server is closed, closing it again does nothing, whenever that happens. -/
theorem C63_once (h t : List Ev) (i c id : Nat) (hi : i < (exec .init h).nCall)
    (hs : ((exec .init h).call i).stage = .serving c id false) :
    exec .init (h ++ .closeServer i :: t ++ [.closeServer i]) = exec .init (h ++ .closeServer i :: t) := by
  rw [exec_append _ _ [_]]
  have key : i < (exec .init (h ++ .closeServer i :: t)).nCall ∧ ((exec .init (h ++ .closeServer i :: t)).call i).stage = .serving c id true := by
    rw [exec_append]
    refine closed_exec t _ i c id ?_ ?_
    · simp only [step, Ev.subject, if_pos hi, act, closeServer]
      rw [hs]; exact hi
    · simp only [step, Ev.subject, if_pos hi, act, closeServer]
      rw [hs]; simp [setStage, setCall]
  generalize exec .init (h ++ .closeServer i :: t) = s at *
  simp only [exec, step, Ev.subject, if_pos key.1, act, closeServer]
  rw [key.2]

/-- A server with two connections, one of which is lost. -/
def oneServer : List Ev := [.call .listen (some 1), .serviceOk 0, .dialOk 0, .response 0 1 (.port 80), .opened 0,
  .spawned 0 1 500 80, .callback 500, .callback 501, .spawned 0 1 501 80, .callback 502, .spawned 0 1 502 80, .lost 1]

/-- The hypotheses of `C63_close_partial` and `C63_one_vnic`; the lost connection is not closed, the others are. -/
example : 0 < (exec .init oneServer).nCall ∧ ((exec .init oneServer).call 0).stage = .serving 0 1 false ∧ dials oneServer ≤ 1 ∧
    (exec .init (oneServer ++ [.closeServer 0])).out = [.closePacket 0 1, .close 0, .close 2] ∧
    (exec .init (oneServer ++ [.closeServer 0, .closeServer 0])).out = [.closePacket 0 1, .close 0, .close 2] := by
  decide +kernel

/-- C63 is false. Two servers over two VNICs have the same connection id; closing the one closes the connection of the other. -/
theorem C63_false_two_vnics :
    let s := exec .init [.call .listen (some 1), .serviceOk 0, .dialOk 0, .call .listen (some 2), .dialOk 1, .response 0 1 (.port 80),
      .response 1 1 (.port 80), .opened 0, .opened 1, .spawned 1 1 500 80, .callback 500, .closeServer 0]
    (s.call 1).stage = .serving 1 1 false ∧ RunsFor s 0 1 ∧ s.out = [.closePacket 0 1, .close 0] := by
  exact ⟨by decide +kernel, ⟨.listen, by decide +kernel⟩, by decide +kernel⟩

/-- C63. The connections that come after the close (announced before it) are not closed. -/
theorem C63_false_late :
    let s := exec .init [.call .listen (some 1), .serviceOk 0, .dialOk 0, .response 0 1 (.port 80), .opened 0,
      .spawned 0 1 500 80, .closeServer 0, .callback 500, .made 0, .closeServer 0]
    (s.call 0).stage = .serving 0 1 true ∧ RunsFor s 0 0 ∧ s.out = [.closePacket 0 1] := by
  exact ⟨by decide +kernel, ⟨.listen, by decide +kernel⟩, by decide +kernel⟩

end Verif.Connect
