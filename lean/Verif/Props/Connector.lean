import Verif.Lemmas.ConnectorWait
/-! # C61, C62, C63: create_connection and create_server -/
namespace Verif.Connect
open Verif.Cli (Kind)

/-! ## C61: the connection returned is the caller's -/

theorem asked_inj {h : List Ev} {s : St} (hc : Core h s) {i j c id : Nat} (h1 : Asked s i c id) (h2 : Asked s j c id) : i = j := by
  have a := (hc.apps c id i).mpr h1
  have b := (hc.apps c id j).mpr h2
  rw [a] at b; cases b; rfl

theorem runs_once {h : List Ev} {s : St} (hc : Core h s) {n f g : Nat} (h1 : RunsFor s n f) (h2 : RunsFor s n g) : f = g := by
  obtain ⟨k, h1⟩ := h1
  obtain ⟨k', h2⟩ := h2
  obtain ⟨ds, hg⟩ := hc.good n
  exact (hg.once h1 h2).2

theorem own_of_mine {h : List Ev} {s : St} (hc : Core h s) {i n : Nat} (hi : i < s.nCall) (hm : Mine s (s.call i) n) (ho : OwnId s i) :
    RunsFor s n i ∧ ∀ j, j < s.nCall → Mine s (s.call j) n → j = i := by
  obtain ⟨d, id, f, d', h1, h2, h3⟩ := hm
  have hd := ho d id f d' ⟨hi, h1⟩ h3
  subst hd
  have hf := asked_inj hc h3 ⟨hi, h1⟩
  subst hf
  refine ⟨h2, ?_⟩
  rintro j hj ⟨d, id', g, d2, g1, g2, g3⟩
  have := runs_once hc h2 g2
  subst this
  have hv := g3.2
  rw [h1] at hv
  cases hv
  have := ho d' id j d ⟨hi, h1⟩ ⟨hj, g1⟩
  subst this
  exact asked_inj hc ⟨hj, g1⟩ ⟨hi, h1⟩

/-- C61. Whatever the schedule and whatever the VNICs send: a connection that `create_connection` returns runs an application made
by the factory given to this call, that application has had its `connection_made`, and no other call returns the same connection —
provided that no call over another control connection used the same connection id. -/
theorem C61_own_partial (h : List Ev) (i n : Nat) (hr : Returned (exec .init h) i n) (ho : OwnId (exec .init h) i) :
    RunsFor (exec .init h) n i ∧ Ev.made n ∈ h ∧ ∀ j, Returned (exec .init h) j n → j = i := by
  have hc := Core.reachable h
  have st : ∀ j, Returned (exec .init h) j n → Mine (exec .init h) ((exec .init h).call j) n ∧ Ev.made n ∈ h := by
    rintro j ⟨h1, h2⟩
    have := hc.stage j h1
    unfold StageOk at this
    rw [h2] at this
    exact this
  have h1 := st i hr
  have h2 := own_of_mine hc hr.1 h1.1 ho
  exact ⟨h2.1, h1.2, fun j hj => h2.2 j hj.1 (st j hj).1⟩

theorem absorbs_same : ∀ (l : List Callback.Ev) (s : St), (l.foldl absorb s).nCli = s.nCli
  | [], _ => rfl
  | x :: l, s => absorbs_same l (absorb s x)

theorem enter_nCli (s : St) (i l : Nat) : (enter s i l).nCli = s.nCli := by unfold enter; split <;> rfl

theorem start_nCli (s : St) (i : Nat) : (start s i).nCli = s.nCli := by
  unfold start
  split
  · rfl
  · split
    · split <;> rfl
    · exact enter_nCli ..

theorem step_nCli (s : St) (e : Ev) : (step s e).nCli ≤ s.nCli + dials [e] := by
  have sub : ∀ {i : Nat}, (act s e).nCli ≤ s.nCli + dials [e] → (if i < s.nCall then act s e else s).nCli ≤ s.nCli + dials [e] := by
    intro i hx
    split
    · exact hx
    · exact Nat.le_add_right _ _
  have pk : ∀ c x, (packet s c x).nCli = s.nCli := by
    intro c x; unfold packet; split
    · rw [absorbs_same]; rfl
    · rfl
  have pr : ∀ (s : St) i id, (proceed s i id).nCli = s.nCli := by
    intro s i id; unfold proceed; split <;> rfl
  cases e with
  | call k loc =>
    show (newCall s k loc).nCli ≤ _
    unfold newCall
    dsimp only
    split
    · rw [start_nCli]; exact Nat.le_refl _
    · exact Nat.le_refl _
  | serviceOk i =>
    refine sub (i := i) ?_
    show (serviceOk s i).nCli ≤ _
    unfold serviceOk
    split
    · rw [start_nCli]; exact Nat.le_refl _
    · exact Nat.le_refl _
  | serviceFail i =>
    refine sub (i := i) ?_
    show (fail s i _ _).nCli ≤ _
    unfold fail; split <;> exact Nat.le_refl _
  | dialOk i =>
    refine sub (i := i) ?_
    show (dialOk s i).nCli ≤ s.nCli + 1
    unfold dialOk
    split
    · unfold dialed; rw [enter_nCli]; exact Nat.le_refl _
    · exact Nat.le_succ _
  | dialFail i =>
    refine sub (i := i) ?_
    show (fail s i _ _).nCli ≤ _
    unfold fail; split <;> exact Nat.le_refl _
  | poll i =>
    refine sub (i := i) ?_
    show (poll s i).nCli ≤ _
    unfold poll
    split
    · rw [enter_nCli]; exact Nat.le_refl _
    · exact Nat.le_refl _
  | response c id r => show (packet s c _).nCli ≤ _; rw [pk]; exact Nat.le_refl _
  | spawned c id t p => show (packet s c _).nCli ≤ _; rw [pk]; exact Nat.le_refl _
  | opened i =>
    refine sub (i := i) ?_
    show (opened s i).nCli ≤ _
    unfold opened
    split
    · split
      · unfold arrive
        dsimp only
        split
        · exact Nat.le_refl _
        · rw [pr]; exact Nat.le_refl _
      · exact Nat.le_refl _
      · exact Nat.le_refl _
      · exact Nat.le_refl _
    · exact Nat.le_refl _
  | timeout i =>
    refine sub (i := i) ?_
    show (timeout s i).nCli ≤ _
    unfold timeout
    split
    · split <;> exact Nat.le_refl _
    · exact Nat.le_refl _
    · exact Nat.le_refl _
  | callback p => exact Nat.le_refl _
  | data n d => exact Nat.le_refl _
  | lost n => exact Nat.le_refl _
  | made n => show (made s n).nCli ≤ _; unfold made; split <;> exact Nat.le_refl _
  | notify => show (notify s).nCli ≤ _; unfold notify; split <;> exact Nat.le_refl _
  | resume i =>
    refine sub (i := i) ?_
    show (resume s i).nCli ≤ _
    unfold resume
    split
    · split
      · split
        · exact Nat.le_refl _
        · rw [pr]; exact Nat.le_refl _
      · exact Nat.le_refl _
    · exact Nat.le_refl _
  | madeResume i =>
    refine sub (i := i) ?_
    show (madeResume s i).nCli ≤ _
    unfold madeResume
    split
    · split <;> exact Nat.le_refl _
    · exact Nat.le_refl _
  | ctlLost c => exact Nat.le_refl _
  | closeServer i =>
    refine sub (i := i) ?_
    show (closeServer s i).nCli ≤ _
    unfold closeServer
    split <;> exact Nat.le_refl _

theorem dials_cons (e : Ev) (h : List Ev) : dials (e :: h) = dials [e] + dials h := by
  cases e <;> simp [dials]; omega

theorem exec_nCli : ∀ (h : List Ev) (s : St), (exec s h).nCli ≤ s.nCli + dials h
  | [], _ => Nat.le_add_right _ _
  | e :: h, s => by
    have h1 := exec_nCli h (step s e)
    have h2 := step_nCli s e
    have h3 := dials_cons e h
    rw [exec]; omega

theorem own_single (h : List Ev) (hd : dials h ≤ 1) (i : Nat) : OwnId (exec .init h) i := by
  intro c id j c' h1 h2
  have hc := Core.reachable h
  have a := hc.low _ _ _ h1
  have b := hc.low _ _ _ h2
  have := exec_nCli h .init
  have h0 : St.init.nCli = 0 := rfl
  omega

/-- C61. With one control connection (one VNIC, and the first call got its control connection before a server and a client are
started at the same time) `create_connection` always returns a connection of its own. -/
theorem C61_one_vnic (h : List Ev) (hd : dials h ≤ 1) (i n : Nat) (hr : Returned (exec .init h) i n) :
    RunsFor (exec .init h) n i ∧ Ev.made n ∈ h ∧ ∀ j, Returned (exec .init h) j n → j = i :=
  C61_own_partial h i n hr (own_single h hd i)

/-! ## C62: calls complete -/

/-- C62. If never two calls wait for their callback connections at the same time, a call whose one callback connection is there
returns it after the pending notification, its resumption and the `connection_made` of the application. -/
theorem C62_completes_partial (h : List Ev) (ha : Alone h) (i id n : Nat) (hw : Waits (exec .init h) i id)
    (hn : Callback.conns (exec .init h).cb id = [n]) (ho : OwnId (exec .init h) i) :
    Returned (exec (exec .init h) [.notify, .resume i, .made n, .madeResume i]) i n := by
  have hc := Core.reachable h
  have hq := QInv.reachable h
  have hN := Noted.reachable h ha
  have hW := Watched.reachable h
  have hal := ha h [] (by simp)
  generalize exec .init h = s at *
  have hmine : ∀ j, j < s.nCall → Mine s (s.call j) n → j = i := by
    have hst := hc.stage i hw.1
    unfold StageOk at hst
    rw [hw.2] at hst
    obtain ⟨d, hv⟩ := hst
    obtain ⟨f, c, h1, h2⟩ := hc.spawn id n (by rw [hn]; simp)
    exact (own_of_mine hc hw.1 ⟨d, id, f, c, hv, h1, h2⟩ ho).2
  have hobs : s.obs.get n ≠ none := by
    obtain ⟨f, c, h1, h2⟩ := hc.spawn id n (by rw [hn]; simp)
    rcases hW n f h1 with hx | ⟨j, hj⟩
    · exact hx
    · have hst := hc.stage j hj.1
      unfold StageOk at hst
      rw [hj.2] at hst
      have := hmine j hj.1 hst.1
      subst this
      have := hw.2
      rw [hj.2] at this
      cases this
  -- the notification
  have h1 : ∃ t, step s .notify = t ∧ i ∈ t.woken ∧ t.call = s.call ∧ t.nCall = s.nCall ∧ t.cb = s.cb ∧ t.obs = s.obs := by
    refine ⟨_, rfl, ?_⟩
    show i ∈ (notify s).woken ∧ (notify s).call = s.call ∧ (notify s).nCall = s.nCall ∧ (notify s).cb = s.cb ∧ (notify s).obs = s.obs
    have hmem := (hq.mem i).mpr ⟨id, hw⟩
    have hpos : i ∉ s.woken → 1 ≤ s.notes := fun hx => hN i id hw hx (by rw [hn]; simp)
    unfold notify
    split
    · next hz =>
      refine ⟨?_, rfl, rfl, rfl, rfl⟩
      by_cases hx : i ∈ s.woken
      · exact hx
      · have := hpos hx; omega
    · next k hz hqe =>
      rw [hqe] at hmem
      exact ⟨by simpa using hmem, rfl, rfl, rfl, rfl⟩
    · next k j q hz hqe =>
      refine ⟨?_, rfl, rfl, rfl, rfl⟩
      obtain ⟨id', hj⟩ := (hq.mem j).mp (by rw [hqe]; simp)
      have := hal i j id id' hw hj
      subst this
      show i ∈ s.woken ++ [i]
      simp
  obtain ⟨t, ht, w1, w2, w3, w4, w5⟩ := h1
  simp only [exec]
  rw [ht]
  have h2 : step t (.resume i) = setStage { t with woken := t.woken.erase i } i (.making n) := by
    have : i < t.nCall := by rw [w3]; exact hw.1
    simp only [step, Ev.subject, if_pos this, act, resume]
    rw [w2, hw.2]
    dsimp only
    rw [if_pos w1, w4, hn, if_neg (by simp)]
    unfold proceed
    dsimp only
    rw [hn]
  rw [h2]
  generalize hu : setStage { t with woken := t.woken.erase i } i (.making n) = u
  have u1 : (u.call i).stage = .making n := by rw [← hu]; simp [setStage, setCall]
  have u2 : u.nCall = s.nCall := by rw [← hu]; exact w3
  have u3 : u.obs = s.obs := by rw [← hu]; exact w5
  have h3 : ∃ v, step u (.made n) = v ∧ v.obs.get n = some true ∧ v.call = u.call ∧ v.nCall = u.nCall := by
    refine ⟨_, rfl, ?_⟩
    show (made u n).obs.get n = some true ∧ (made u n).call = u.call ∧ (made u n).nCall = u.nCall
    unfold made
    split
    · exact ⟨Dict.get_set_self _ _ _, rfl, rfl⟩
    · next hx =>
      refine ⟨?_, rfl, rfl⟩
      rw [u3] at hx ⊢
      cases hg : s.obs.get n with
      | none => exact absurd hg hobs
      | some b =>
        cases b with
        | true => rfl
        | false => exact absurd hg hx
  obtain ⟨v, hv, v1, v2, v3⟩ := h3
  rw [hv]
  have hi : i < v.nCall := by rw [v3, u2]; exact hw.1
  simp only [step, Ev.subject, if_pos hi, act, madeResume]
  rw [v2, u1]
  dsimp only
  rw [v1]
  exact ⟨hi, by simp [setStage, setCall]⟩

theorem quiet_data (s : Callback.St) (e : Callback.Ev) (he : (∃ n d, e = .data n d) ∨ ∃ n, e = .lost n) :
    ((Callback.step s e).out.drop s.out.length).filterMap built = [] := by
  have fin : ∀ (x : Callback.St) l, x.out = s.out ++ l → l.filterMap built = [] → (x.out.drop s.out.length).filterMap built = [] := by
    intro x l h1 h2; rw [h1, List.drop_left]; exact h2
  rcases he with ⟨n, d, rfl⟩ | ⟨n, rfl⟩
  · simp only [Callback.step]
    split
    · unfold Callback.data
      split
      · exact fin _ [.push n d] rfl rfl
      · exact fin _ [] (by simp [Callback.setP]) rfl
    · exact fin _ [] (by simp) rfl
  · simp only [Callback.step]
    split
    · unfold Callback.lost
      dsimp only
      split
      · unfold Callback.dataClosed
        dsimp only
        split <;> exact fin _ [.closed n] rfl rfl
      · exact fin _ [.raised n] rfl rfl
    · exact fin _ [] (by simp) rfl

theorem stuck_micro {e : Ev} {s t : St} (hm : Micro e s t) (he : e.brings = false) {i id : Nat} (hw : Waits s i id) (h1 : i ∉ s.woken)
    (h2 : s.notes = 0) : Waits t i id ∧ i ∉ t.woken ∧ t.notes = 0 := by
  have keep : ∀ j g (u : St), u.call = s.call → u.nCall = s.nCall → (s.call j).stage ≠ .waiting id → Waits (setStage u j g) i id := by
    intro j g u e1 e2 hj
    rw [waits_setStage]
    right
    refine ⟨?_, by unfold Waits; rw [e1, e2]; exact hw⟩
    rintro rfl; exact hj hw.2
  have ne : ∀ {j : Nat} {g : Stage}, (s.call j).stage = g → g ≠ .waiting id → (s.call j).stage ≠ .waiting id := by
    intro j g e1 e2; rw [e1]; exact e2
  cases hm with
  | ready i => exact ⟨hw, h1, h2⟩
  | fresh k loc =>
    refine ⟨⟨Nat.lt_succ_of_lt hw.1, ?_⟩, h1, h2⟩
    show (if i = s.nCall then _ else s.call i).stage = _
    rw [if_neg (Nat.ne_of_lt hw.1)]; exact hw.2
  | early _ _ j g hi hs hg => exact ⟨keep j g s rfl rfl (early_not_waiting hs id), h1, h2⟩
  | dial _ _ j l hi hs hl hctl => exact ⟨keep j _ _ rfl rfl (ne hs (fun h => nomatch h)), h1, h2⟩
  | dialed _ j l hi hs hl => exact ⟨hw, h1, h2⟩
  | ask _ _ j l c hi hs hl hg =>
    refine ⟨⟨hw.1, ?_⟩, h1, h2⟩
    show (if i = j then _ else s.call i).stage = _
    rw [if_neg]
    · exact hw.2
    · rintro rfl; exact early_not_waiting hs id hw.2
  | response _ c id r h1' h2' => exact ⟨hw, h1, h2⟩
  | spawned _ c id t p h1 h2 => simp [Ev.brings] at he
  | announce _ c id t p k f ha => simp [Ev.brings] at he
  | conn _ p => simp [Ev.brings] at he
  | data _ n d =>
    refine ⟨hw, h1, ?_⟩
    show s.notes + _ = 0
    rw [quiet_data _ _ (.inl ⟨n, d, rfl⟩), h2]; rfl
  | lost _ n =>
    refine ⟨hw, h1, ?_⟩
    show s.notes + _ = 0
    rw [quiet_data _ _ (.inr ⟨n, rfl⟩), h2]; rfl
  | entry i _ id hh => exact ⟨hw, h1, h2⟩
  | enqueue _ j c f id p hi hs hf hcs => exact ⟨keep j _ s rfl rfl (ne hs (fun h => nomatch h)), h1, h2⟩
  | proceed _ j c f id p g hi hs hf hg => exact ⟨keep j _ s rfl rfl (ne hs (fun h => nomatch h)), h1, h2⟩
  | serve _ j c f id p hi hs hf hk => exact ⟨keep j _ s rfl rfl (ne hs (fun h => nomatch h)), h1, h2⟩
  | refuse _ j c f hi hs hf => exact ⟨keep j _ s rfl rfl (ne hs (fun h => nomatch h)), h1, h2⟩
  | cancel _ j c f hi hs hf => exact ⟨keep j _ _ rfl rfl (ne hs (fun h => nomatch h)), h1, h2⟩
  | giveUp _ j n hi hs => exact ⟨keep j _ s rfl rfl (ne hs (fun h => nomatch h)), h1, h2⟩
  | note _ k h3 h4 => rw [h2] at h3; cases h3
  | wake _ k i q h3 h4 => rw [h2] at h3; cases h3
  | again _ j id' hi hs hwk hcs =>
    refine ⟨hw, ?_, h2⟩
    intro hx; exact h1 (List.mem_of_mem_erase hx)
  | go _ j id' g hi hs hwk hg =>
    refine ⟨?_, ?_, h2⟩
    · rw [waits_setStage]
      refine .inr ⟨?_, hw⟩
      rintro rfl; exact h1 hwk
    · intro hx; exact h1 (List.mem_of_mem_erase hx)
  | made _ n ho => exact ⟨hw, h1, h2⟩
  | returns _ j n hi hs ho => exact ⟨keep j _ _ rfl rfl (ne hs (fun h => nomatch h)), h1, h2⟩
  | key _ j n hi hs => exact ⟨keep j _ s rfl rfl (ne hs (fun h => nomatch h)), h1, h2⟩
  | ctlLost _ c => exact ⟨hw, h1, h2⟩
  | close _ j c id hi hs => exact ⟨keep j _ s rfl rfl (ne hs (fun h => nomatch h)), h1, h2⟩

/-- C62 is false for calls at the same time. A call that waits, not woken and with no notification on its way, waits forever,
whatever happens — even the timeout given to `create_connection` does not end it —, unless a new connection of some application
comes. -/
theorem C62_stuck : ∀ (t : List Ev) (s : St) (i id : Nat), Waits s i id → i ∉ s.woken → s.notes = 0 →
    (∀ e ∈ t, e.brings = false) → Waits (exec s t) i id
  | [], _, _, _, hw, _, _, _ => hw
  | e :: t, s, i, id, hw, h1, h2, ht => by
    have hm := step_micro s e
    have he := ht e (by simp)
    have : Waits (step s e) i id ∧ i ∉ (step s e).woken ∧ (step s e).notes = 0 := by
      generalize step s e = u at hm
      induction hm with
      | refl => exact ⟨hw, h1, h2⟩
      | tail _ hx ih => exact stuck_micro hx he ih.1 ih.2.1 ih.2.2
    exact C62_stuck t (step s e) i id this.1 this.2.1 this.2.2 (fun x hx => ht x (by simp [hx]))

/-- Two clients at the same time. -/
def twoCalls : List Ev := [.call .connect (some 1), .serviceOk 0, .dialOk 0, .call .connect (some 1),
  .spawned 0 1 500 2000, .spawned 0 2 501 2001, .opened 0, .opened 1,
  .callback 501, .notify, .resume 0, .callback 500, .notify, .resume 1, .made 0, .made 1, .madeResume 1]

/-- C62 is false. Two calls over one VNIC; the callback connection of the second comes first. Both connections and both
applications are up and connected, but the first call waits, and waits forever: the notification for its connection went to the
other call. -/
theorem C62_false_lost_wakeup :
    (exec .init twoCalls).cb.out = [.built 0 .connect 1, .built 1 .connect 0] ∧ Returned (exec .init twoCalls) 1 0 ∧
    ∀ t : List Ev, (∀ e ∈ t, e.brings = false) → Waits (exec .init (twoCalls ++ t)) 0 1 := by
  refine ⟨by decide +kernel, by unfold Returned; decide +kernel, fun t ht => ?_⟩
  rw [exec_append]
  exact C62_stuck t _ 0 1 (by unfold Waits; decide +kernel) (by decide +kernel) (by decide +kernel) ht

/-- C62 is false for a connection that is closed before the call sees it: it waits forever. -/
theorem C62_false_closed_early : ∀ t : List Ev, (∀ e ∈ t, e.brings = false) →
    Waits (exec .init ([.call .connect (some 1), .serviceOk 0, .dialOk 0, .spawned 0 1 500 2000, .opened 0, .callback 500,
      .made 0, .lost 0, .notify, .resume 0] ++ t)) 0 1 := by
  intro t ht
  rw [exec_append]
  exact C62_stuck t _ 0 1 (by unfold Waits; decide +kernel) (by decide +kernel) (by decide +kernel) ht

/-! ### A failed connection to the VNIC -/

/-- The location is marked, and no call makes the connection. -/
structure Blocked (s : St) (l : Nat) : Prop where
  mark : s.ctl.get l = some none
  nobody : ∀ j, j < s.nCall → (s.call j).loc = some l → (s.call j).stage ≠ .dialing

theorem blocked_micro {e : Ev} {s t : St} (hm : Micro e s t) {l : Nat} (hb : Blocked s l) : Blocked t l ∧
    ∀ i, i < s.nCall → (s.call i).loc = some l → (s.call i).stage = .polling → i < t.nCall ∧ (t.call i).loc = some l ∧ (t.call i).stage = .polling := by
  have set : ∀ (u : St) j g, u.call = s.call → u.nCall = s.nCall → u.ctl.get l = some none → ((s.call j).loc = some l → g ≠ .dialing) →
      ((s.call j).loc = some l → (s.call j).stage = .polling → g = .polling) → Blocked (setStage u j g) l ∧
      ∀ i, i < s.nCall → (s.call i).loc = some l → (s.call i).stage = .polling →
        i < (setStage u j g).nCall ∧ ((setStage u j g).call i).loc = some l ∧ ((setStage u j g).call i).stage = .polling := by
    intro u j g h1 h2 h3 h4 h5
    unfold setStage setCall
    refine ⟨⟨h3, ?_⟩, ?_⟩
    · intro i hi hl
      dsimp only at hi hl ⊢
      rw [h2] at hi
      rw [h1] at hl ⊢
      by_cases hj : i = j
      · subst hj; rw [if_pos rfl] at hl ⊢; exact h4 hl
      · rw [if_neg hj] at hl ⊢; exact hb.nobody i hi hl
    · intro i hi hl hs
      dsimp only
      rw [h1, h2]
      by_cases hj : i = j
      · subst hj; rw [if_pos rfl]; exact ⟨hi, hl, h5 hl hs⟩
      · rw [if_neg hj]; exact ⟨hi, hl, hs⟩
  have same : t.call = s.call → t.nCall = s.nCall → t.ctl = s.ctl → Blocked t l ∧ ∀ i, i < s.nCall → (s.call i).loc = some l →
      (s.call i).stage = .polling → i < t.nCall ∧ (t.call i).loc = some l ∧ (t.call i).stage = .polling := by
    intro h1 h2 h3
    refine ⟨⟨by rw [h3]; exact hb.mark, by rw [h1, h2]; exact hb.nobody⟩, by rw [h1, h2]; exact fun i a b c => ⟨a, b, c⟩⟩
  have no : ∀ {j : Nat} {g : Stage}, (s.call j).stage = g → g ≠ .polling → ∀ x, (s.call j).loc = some l → (s.call j).stage = .polling → x = Stage.polling := by
    intro j g h1 h2 x _ h3; rw [h1] at h3; exact absurd h3 h2
  cases hm with
  | fresh k loc =>
    refine ⟨⟨hb.mark, ?_⟩, ?_⟩
    · intro i hi hl
      have hi' : i < s.nCall + 1 := hi
      have hl' : (if i = s.nCall then (⟨k, loc, .service, none⟩ : Call) else s.call i).loc = some l := hl
      show (if i = s.nCall then (⟨k, loc, .service, none⟩ : Call) else s.call i).stage ≠ _
      by_cases hj : i = s.nCall
      · rw [if_pos hj]; exact fun h => nomatch h
      · rw [if_neg hj] at hl' ⊢; exact hb.nobody i (by omega) hl'
    · intro i hi hl hs
      refine ⟨Nat.lt_succ_of_lt hi, ?_⟩
      show (if i = s.nCall then (⟨k, loc, .service, none⟩ : Call) else s.call i).loc = some l ∧
        (if i = s.nCall then (⟨k, loc, .service, none⟩ : Call) else s.call i).stage = .polling
      rw [if_neg (Nat.ne_of_lt hi)]; exact ⟨hl, hs⟩
  | early _ _ j g hi hs hg =>
    refine set s j g rfl rfl hb.mark ?_ ?_
    · intro _
      rcases hg with rfl | ⟨r, rfl, _⟩
      · exact fun h => nomatch h
      · exact fun h => nomatch h
    · intro hl hp
      rcases hg with rfl | ⟨r, rfl, hx | ⟨l', h1, h2⟩⟩
      · rfl
      · exact absurd hp hx
      · rw [hl] at h1; cases h1; rw [hb.mark] at h2; cases h2
  | dial _ _ j l' hi hs hl hctl =>
    have hne : (s.call j).loc ≠ some l := by
      intro hx; rw [hx] at hl; cases hl; rw [hb.mark] at hctl; cases hctl
    refine set _ j _ rfl rfl ?_ (fun hx => absurd hx hne) (fun hx => absurd hx hne)
    show (if (s.call j).kind = .connect then s.ctl.set l' none else s.ctl).get l = _
    split
    · rw [Dict.get_set, if_neg]
      · exact hb.mark
      · rintro rfl; exact hne hl
    · exact hb.mark
  | dialed _ j l' hi hs hl =>
    have hne : l' ≠ l := by
      rintro rfl; exact hb.nobody j hi hl hs
    refine ⟨⟨?_, hb.nobody⟩, fun i a b c => ⟨a, b, c⟩⟩
    show (s.ctl.set l' (some s.nCli)).get l = _
    rw [Dict.get_set, if_neg hne]; exact hb.mark
  | ask _ _ j l' c hi hs hl hg =>
    have hne : (s.call j).loc ≠ some l := by
      intro hx; rw [hx] at hl; cases hl; rw [hb.mark] at hg; cases hg
    refine ⟨⟨hb.mark, ?_⟩, ?_⟩
    · intro i hi' hl'
      have hl'' : (if i = j then ({ s.call j with stage := .opening c (s.cli c).nFut, via := some (c, (s.cli c).count + 1) } : Call)
        else s.call i).loc = some l := hl'
      show (if i = j then ({ s.call j with stage := .opening c (s.cli c).nFut, via := some (c, (s.cli c).count + 1) } : Call)
        else s.call i).stage ≠ _
      by_cases hj : i = j
      · rw [if_pos hj] at hl''; exact absurd hl'' hne
      · rw [if_neg hj] at hl'' ⊢; exact hb.nobody i hi' hl''
    · intro i hi' hl' hs'
      refine ⟨hi', ?_⟩
      show (if i = j then ({ s.call j with stage := .opening c (s.cli c).nFut, via := some (c, (s.cli c).count + 1) } : Call)
        else s.call i).loc = some l ∧ (if i = j then ({ s.call j with stage := .opening c (s.cli c).nFut, via := some (c, (s.cli c).count + 1) } : Call)
        else s.call i).stage = _
      by_cases hj : i = j
      · subst hj; exact absurd hl' hne
      · rw [if_neg hj]; exact ⟨hl', hs'⟩
  | enqueue _ j c f id p hi hs hf hcs =>
    obtain ⟨a, b⟩ := set s j (.waiting id) rfl rfl hb.mark (fun _ h => nomatch h) (no hs (fun h => nomatch h) _)
    exact ⟨⟨a.mark, a.nobody⟩, b⟩
  | proceed _ j c f id p g hi hs hf hg =>
    refine set s j _ rfl rfl hb.mark ?_ (no hs (fun h => nomatch h) _)
    intro _
    rcases hg with ⟨n, _, rfl⟩ | rfl
    · exact fun h => nomatch h
    · exact fun h => nomatch h
  | serve _ j c f id p hi hs hf hk => exact set s j _ rfl rfl hb.mark (fun _ h => nomatch h) (no hs (fun h => nomatch h) _)
  | refuse _ j c f hi hs hf => exact set s j _ rfl rfl hb.mark (fun _ h => nomatch h) (no hs (fun h => nomatch h) _)
  | cancel _ j c f hi hs hf => exact set _ j _ rfl rfl hb.mark (fun _ h => nomatch h) (no hs (fun h => nomatch h) _)
  | giveUp _ j n hi hs =>
    obtain ⟨a, b⟩ := set s j (.raised .timeout) rfl rfl hb.mark (fun _ h => nomatch h) (no hs (fun h => nomatch h) _)
    exact ⟨⟨a.mark, a.nobody⟩, b⟩
  | go _ j id g hi hs hw hg =>
    refine set _ j _ rfl rfl hb.mark ?_ (no hs (fun h => nomatch h) _)
    intro _
    rcases hg with ⟨n, _, rfl⟩ | rfl
    · exact fun h => nomatch h
    · exact fun h => nomatch h
  | returns _ j n hi hs ho => exact set _ j _ rfl rfl hb.mark (fun _ h => nomatch h) (no hs (fun h => nomatch h) _)
  | key _ j n hi hs => exact set s j _ rfl rfl hb.mark (fun _ h => nomatch h) (no hs (fun h => nomatch h) _)
  | close _ j c id hi hs =>
    obtain ⟨a, b⟩ := set s j (.serving c id true) rfl rfl hb.mark (fun _ h => nomatch h) (no hs (fun h => nomatch h) _)
    exact ⟨⟨a.mark, a.nobody⟩, b⟩
  | _ => exact same rfl rfl rfl

theorem blocked_exec : ∀ (t : List Ev) (s : St) (l i : Nat), Blocked s l → i < s.nCall → (s.call i).loc = some l →
    (s.call i).stage = .polling → ((exec s t).call i).stage = .polling
  | [], _, _, _, _, _, _, hs => hs
  | e :: t, s, l, i, hb, hi, hl, hs => by
    have hm := step_micro s e
    have : Blocked (step s e) l ∧ i < (step s e).nCall ∧ ((step s e).call i).loc = some l ∧ ((step s e).call i).stage = .polling := by
      generalize step s e = u at hm
      induction hm with
      | refl => exact ⟨hb, hi, hl, hs⟩
      | tail _ hx ih =>
        have := blocked_micro hx ih.1
        have h2 := this.2 i ih.2.1 ih.2.2.1 ih.2.2.2
        exact ⟨this.1, h2⟩
    exact blocked_exec t (step s e) l i this.1 this.2.1 this.2.2.1 this.2.2.2

/-- A client that dials has marked its location. -/
def Marked (s : St) : Prop := ∀ i l, i < s.nCall → (s.call i).stage = .dialing → (s.call i).loc = some l → (s.call i).kind = .connect →
  s.ctl.get l ≠ none

theorem Marked.micro {e : Ev} {s t : St} (hm : Micro e s t) (h : Marked s) : Marked t := by
  have set : ∀ (u : St) j g, u.call = s.call → u.nCall = s.nCall → (∀ l, s.ctl.get l ≠ none → u.ctl.get l ≠ none) →
      (g = .dialing → ∀ l, (s.call j).loc = some l → (s.call j).kind = .connect → u.ctl.get l ≠ none) → Marked (setStage u j g) := by
    intro u j g h1 h2 h3 h4 i l hi hs hl hk
    unfold setStage setCall at hi hs hl hk ⊢
    dsimp only at hi hs hl hk ⊢
    rw [h2] at hi
    rw [h1] at hs hl hk
    by_cases hj : i = j
    · subst hj; rw [if_pos rfl] at hs hl hk; exact h4 hs l hl hk
    · rw [if_neg hj] at hs hl hk; exact h3 l (h i l hi hs hl hk)
  cases hm with
  | fresh k loc =>
    intro i l hi hs hl hk
    have hi' : i < s.nCall + 1 := hi
    have hs' : (if i = s.nCall then (⟨k, loc, .service, none⟩ : Call) else s.call i).stage = .dialing := hs
    have hl' : (if i = s.nCall then (⟨k, loc, .service, none⟩ : Call) else s.call i).loc = some l := hl
    have hk' : (if i = s.nCall then (⟨k, loc, .service, none⟩ : Call) else s.call i).kind = .connect := hk
    by_cases hj : i = s.nCall
    · rw [if_pos hj] at hs'; cases hs'
    · rw [if_neg hj] at hs' hl' hk'; exact h i l (by omega) hs' hl' hk'
  | early _ _ j g hi hs hg =>
    refine set s j g rfl rfl (fun _ h => h) ?_
    rintro rfl
    rcases hg with h | ⟨_, h, _⟩ <;> cases h
  | dial _ _ j l' hi hs hl hctl =>
    refine set _ j _ rfl rfl ?_ ?_
    · intro l hx
      show (if (s.call j).kind = .connect then s.ctl.set l' none else s.ctl).get l ≠ _
      split
      · rw [Dict.get_set]; split
        · simp
        · exact hx
      · exact hx
    · intro _ l hl2 hk
      show (if (s.call j).kind = .connect then s.ctl.set l' none else s.ctl).get l ≠ _
      rw [hl] at hl2; cases hl2
      rw [if_pos hk, Dict.get_set_self]; simp
  | dialed _ j l' hi hs hl =>
    intro i l a b c d
    have := h i l a b c d
    show (s.ctl.set l' (some s.nCli)).get l ≠ none
    rw [Dict.get_set]; split
    · simp
    · exact this
  | ask _ _ j l' c hi hs hl hg =>
    intro i l hi' hs' hl' hk'
    have hs'' : (if i = j then ({ s.call j with stage := .opening c (s.cli c).nFut, via := some (c, (s.cli c).count + 1) } : Call)
      else s.call i).stage = .dialing := hs'
    have hl'' : (if i = j then ({ s.call j with stage := .opening c (s.cli c).nFut, via := some (c, (s.cli c).count + 1) } : Call)
      else s.call i).loc = some l := hl'
    have hk'' : (if i = j then ({ s.call j with stage := .opening c (s.cli c).nFut, via := some (c, (s.cli c).count + 1) } : Call)
      else s.call i).kind = .connect := hk'
    by_cases hj : i = j
    · rw [if_pos hj] at hs''; cases hs''
    · rw [if_neg hj] at hs'' hl'' hk''; exact h i l hi' hs'' hl'' hk''
  | enqueue _ j c f id p hi hs hf hcs => exact set s j (.waiting id) rfl rfl (fun _ h => h) (fun h => nomatch h)
  | proceed _ j c f id p g hi hs hf hg =>
    refine set s j _ rfl rfl (fun _ h => h) ?_
    rintro rfl
    rcases hg with ⟨_, _, h⟩ | h <;> cases h
  | serve _ j c f id p hi hs hf hk => exact set s j _ rfl rfl (fun _ h => h) (fun h => nomatch h)
  | refuse _ j c f hi hs hf => exact set s j _ rfl rfl (fun _ h => h) (fun h => nomatch h)
  | cancel _ j c f hi hs hf => exact set _ j _ rfl rfl (fun _ h => h) (fun h => nomatch h)
  | giveUp _ j n hi hs => exact set s j (.raised .timeout) rfl rfl (fun _ h => h) (fun h => nomatch h)
  | go _ j id g hi hs hw hg =>
    refine set _ j _ rfl rfl (fun _ h => h) ?_
    rintro rfl
    rcases hg with ⟨_, _, h⟩ | h <;> cases h
  | returns _ j n hi hs ho => exact set _ j _ rfl rfl (fun _ h => h) (fun h => nomatch h)
  | key _ j n hi hs => exact set s j _ rfl rfl (fun _ h => h) (fun h => nomatch h)
  | close _ j c id hi hs => exact set s j (.serving c id true) rfl rfl (fun _ h => h) (fun h => nomatch h)
  | _ => exact h

theorem Marked.reachable (h : List Ev) : Marked (exec .init h) :=
  micro_ind (fun _ s => Marked s) (fun i l hi => by simp [St.init] at hi) (fun _ _ _ h => h) (fun _ _ _ _ _ h hm => h.micro hm) h

/-- C62 is false. When the TCP connection to a VNIC that a client call makes fails, with no control connection to that VNIC and
no other call making one, then the next call for this VNIC neither returns nor raises, in any continuation: not even when the VNIC
can be reached again. -/
theorem C62_dial_failed (h t : List Ev) (i l : Nat) (k : Kind) (hi : i < (exec .init h).nCall)
    (hk : ((exec .init h).call i).kind = .connect) (hs : ((exec .init h).call i).stage = .dialing)
    (hl : ((exec .init h).call i).loc = some l) (hn : ∀ c, (exec .init h).ctl.get l ≠ some (some c)) (hr : (exec .init h).ready = true)
    (ho : ∀ j, j < (exec .init h).nCall → ((exec .init h).call j).stage = .dialing → ((exec .init h).call j).loc = some l → j = i) :
    ((exec .init (h ++ .dialFail i :: .call k (some l) :: t)).call (exec .init h).nCall).stage = .polling := by
  have hm := Marked.reachable h i l hi hs hl hk
  rw [exec_append]
  generalize exec .init h = s at *
  have hmark : s.ctl.get l = some none := by
    cases hg : s.ctl.get l with
    | none => exact absurd hg hm
    | some x => cases x with
      | none => rfl
      | some c => exact absurd hg (hn c)
  simp only [exec]
  have h1 : step s (.dialFail i) = setStage s i (.raised .dial) := by
    simp only [step, Ev.subject, if_pos hi, act, fail, if_pos hs]
  rw [h1]
  generalize hu : setStage s i (.raised .dial) = u
  have hb : Blocked u l := by
    refine ⟨by rw [← hu]; exact hmark, ?_⟩
    intro j hj hjl
    rw [← hu] at hj hjl ⊢
    unfold setStage setCall at hj hjl ⊢
    dsimp only at hj hjl ⊢
    by_cases hji : j = i
    · rw [if_pos hji]; exact fun h => nomatch h
    · rw [if_neg hji] at hjl ⊢
      intro hd; exact hji (ho j hj hd hjl)
  have hun : u.nCall = s.nCall := by rw [← hu]; rfl
  have hur : u.ready = true := by rw [← hu]; exact hr
  have h2 : ((step u (.call k (some l))).call s.nCall).stage = .polling ∧ ((step u (.call k (some l))).call s.nCall).loc = some l ∧
      s.nCall < (step u (.call k (some l))).nCall ∧ Blocked (step u (.call k (some l))) l := by
    have hst : step u (.call k (some l)) = setStage (setCall { u with nCall := u.nCall + 1 } u.nCall ⟨k, some l, .service, none⟩) u.nCall .polling := by
      show newCall u k (some l) = _
      unfold newCall
      dsimp only
      rw [if_pos hur]
      unfold start
      rw [show ((setCall { u with nCall := u.nCall + 1 } u.nCall ⟨k, some l, .service, none⟩).call u.nCall).loc = some l by simp [setCall]]
      dsimp only
      have hx : (setCall { u with nCall := u.nCall + 1 } u.nCall ⟨k, some l, .service, none⟩).ctl.get l = some none := hb.mark
      rw [hx]
      dsimp only
      unfold enter
      rw [hx]
    rw [hst]
    refine ⟨by simp [setStage, setCall, hun], by simp [setStage, setCall, hun], by simp [setStage, setCall, hun], hb.mark, ?_⟩
    intro j hj hjl
    simp only [setStage, setCall] at hj hjl ⊢
    by_cases hji : j = u.nCall
    · simp [hji]
    · simp only [if_neg hji] at hjl ⊢
      exact hb.nobody j (by omega) hjl
  exact blocked_exec t _ l s.nCall h2.2.2.2 h2.2.2.1 h2.2.1 h2.1

end Verif.Connect
