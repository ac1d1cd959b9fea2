import Verif.Lemmas.AskNet
/-! # C91: `query` against a server, from end to end -/
namespace Verif.Spmp.AskNet
open Verif.Spmp.Ask (Obs sents chunks isCame Stage)

variable {σ : Type} {c : Cfg σ}

/-- The responses that came are those to the first requests, out of the `k` that the server has written. -/
theorem log_cames {w w' : σ} {Q : List Query} {acts : List Act} {rs} (hg : Good c w Q w' acts rs) {m : Nat} {s : Net σ} {ch bs} (hi : Inv c w Q rs m s ch bs) (hm : m ≤ Q.length) :
    ∃ k, k ≤ m ∧ ∃ wk, Served c w (Q.take k) wk s.acts (rs.take k) ∧ s.acts <+: acts ∧ s.srv.w = wk ∧ (s.atServer = s.cli.out.flatten.length → k = m) ∧
      ∃ n, n ≤ k ∧ s.cli.log.filter isCame = (List.range n).map (fun i => .came (ans Q rs i).requestId ((ans Q rs i).result, (ans Q rs i).error)) := by
  obtain ⟨d, hd⟩ : ∃ d, c.depth = d + 1 := ⟨c.depth - 1, by have := hg.depth; omega⟩
  have hl := (served_written hg.served).1
  have e1 : s.srv = ((Server.init c w).exec c (bs.map .data)).1 := by rw [← hi.srv]
  have e2 : s.acts = ((Server.init c w).exec c (bs.map .data)).2 := by rw [← hi.srv]
  obtain ⟨k, hk, wk, an, hs, hpre, hw, ha, hall⟩ := server_part hg m hm bs (by rw [hi.got, ← hi.out]; exact List.take_prefix ..)
  rw [← e2] at ha
  subst ha
  rw [← e1] at hw
  refine ⟨k, hk, wk, hs, hpre, hw, fun h => hall (by rw [hi.got, h, List.take_length, hi.out]), ?_⟩
  have hwr := written_part hl (by omega) hs
  obtain ⟨⟨n, hn, hev⟩, -⟩ := C02_C03_prefix hg.registered ((List.range k).map fun i => (ans Q rs i).val c.cls) (depth := d) (cls := c.cls) (by
      intro v hv
      obtain ⟨i, hi', rfl⟩ := List.mem_map.mp hv
      obtain ⟨x, hx, e⟩ := ans_mem hl (i := i) (by have := List.mem_range.mp hi'; omega)
      have := hg.responses x hx
      rw [← e] at this
      exact ⟨this.1, plain_decodes hg.registered this⟩)
    (opsOf (chunks ch)) ((written s.acts).drop s.atClient) (by rw [received_opsOf, hi.back, List.take_append_drop, hwr, List.flatMap_map])
  simp only [List.length_map, List.length_range] at hn
  refine ⟨n, hn, ?_⟩
  rw [hi.cli, (Ask.log_events ch).2, hd, hev, ← List.map_take, List.take_range, Nat.min_eq_left hn, List.map_map]
  generalize List.range n = l
  induction l with
  | nil => rfl
  | cons x l ih =>
    rw [List.map_cons, List.filterMap_cons_some (b := Obs.came (ans Q rs x).requestId ((ans Q rs x).result, (ans Q rs x).error))
      (by simp only [Function.comp, Ask.response, ofVal_val, Option.map_some]), ih, List.map_cons]

/-- C91, at every time: the requests are carried out in the order in which the calls were made, each at most once; a call that has returned returned
the result and the error of its own request, which had been carried out, with all those before it; any other call waits. -/
theorem C91_own_partial {w w' : σ} {acts : List Act} {rs} (h : List Ev) (hg : Good c w (asked h) w' acts rs) :
    (run c (Net.init c w) h).acts <+: acts ∧
    (∀ i a, (run c (Net.init c w) h).cli.stage i = .returned a → ∃ r, rs[i]? = some r ∧ a = (some r.1, r.2) ∧
      ∃ wi ai, Served c w ((asked h).take (i + 1)) wi ai (rs.take (i + 1)) ∧ ai <+: (run c (Net.init c w) h).acts) ∧
    (∀ i, i < (asked h).length → (run c (Net.init c w) h).cli.stage i = .waiting ∨ ∃ a, (run c (Net.init c w) h).cli.stage i = .returned a) := by
  obtain ⟨ch, bs, hi⟩ := inv_run hg h (List.prefix_refl _)
  obtain ⟨k, hk, wk, hs, hpre, -, -, n, hn, hlog⟩ := log_cames hg hi (Nat.le_refl _)
  generalize run c (Net.init c w) h = s at *
  generalize asked h = Q at *
  have hl := (served_written hg.served).1
  refine ⟨hpre, fun i a ha => ?_, fun i hlt => ?_⟩
  · rw [hi.cli] at ha
    have hown := Ask.C88_own c.env c.depth c.cls ch i a ha
    rw [← hi.cli] at hown
    have hsent := Ask.mem_sents.mpr hown.1
    rw [hi.sents] at hsent
    obtain ⟨j, hj, e⟩ := List.mem_map.mp hsent
    injection e with e1 e2
    subst e1
    have hj : j < Q.length := List.mem_range.mp hj
    have hm : Obs.came (some ((s.cli.key j : Nat) : Int)) a ∈ s.cli.log.filter isCame := List.mem_filter.mpr ⟨hown.2, rfl⟩
    rw [hlog] at hm
    obtain ⟨x, hx, e⟩ := List.mem_map.mp hm
    have hx : x < n := List.mem_range.mp hx
    injection e with e1' e3
    have hid : (req Q x).id = (req Q j).id := by
      have : ((req Q x).id : Int) = (s.cli.key j : Int) := by injection e1'
      omega
    have hxj : x = j := by
      have hxl : x < Q.length := by omega
      have h1 : (Q.map (·.id))[x]'(by simpa using hxl) = (Q.map (·.id))[j]'(by simpa using hj) := by
        simpa [req, List.getElem?_eq_getElem hxl, List.getElem?_eq_getElem hj] using hid
      have hpw := List.pairwise_iff_getElem.mp hg.different
      rcases Nat.lt_trichotomy x j with hc | hc | hc
      · exact absurd h1 (hpw x j (by simpa using hxl) (by simpa using hj) hc)
      · exact hc
      · exact absurd h1.symm (hpw j x (by simpa using hj) (by simpa using hxl) hc)
    subst hxj
    refine ⟨rs[x]'(by omega), List.getElem?_eq_getElem (by omega), ?_, ?_⟩
    · rw [← e3]
      simp [ans, Query.response, List.getElem?_eq_getElem (show x < rs.length by omega)]
    · obtain ⟨wi, ai, h1, h2⟩ := served_take hs (x + 1)
      rw [List.take_take, List.take_take, Nat.min_eq_left (by omega)] at h1
      exact ⟨wi, ai, h1, h2⟩
  · have hsent : Obs.sent i (req Q i).id ∈ s.cli.log := by
      rw [← Ask.mem_sents, hi.sents]
      exact List.mem_map.mpr ⟨i, List.mem_range.mpr hlt, rfl⟩
    rw [hi.cli] at hsent ⊢
    exact Ask.sent_stage ch i _ hsent (hi.nocancel i)

/-- C91: when nothing is under way any more, every call has returned the result and the error of its request, and the server has done exactly what
the requests demand, each once, in the order in which the calls were made. -/
theorem C91_returns_partial {w w' : σ} {acts : List Act} {rs} (h : List Ev) (hg : Good c w (asked h) w' acts rs) (hq : Quiet (run c (Net.init c w) h)) :
    (run c (Net.init c w) h).srv.w = w' ∧ (run c (Net.init c w) h).acts = acts ∧
    ∀ i r, rs[i]? = some r → (run c (Net.init c w) h).cli.stage i = .returned (some r.1, r.2) := by
  obtain ⟨ch, bs, hi⟩ := inv_run hg h (List.prefix_refl _)
  obtain ⟨k, hk, wk, hs, -, hw, hall, -⟩ := log_cames hg hi (Nat.le_refl _)
  generalize run c (Net.init c w) h = s at *
  generalize asked h = Q at *
  have hl := (served_written hg.served).1
  have hkm := hall hq.server
  subst hkm
  rw [List.take_length, ← hl, List.take_length] at hs
  obtain ⟨e1, e2, -⟩ := served_unique hs hg.served
  refine ⟨hw.trans e1, e2, fun i r hr => ?_⟩
  obtain ⟨d, hd⟩ : ∃ d, c.depth = d + 1 := ⟨c.depth - 1, by have := hg.depth; omega⟩
  have hlt : i < Q.length := by rw [← hl]; exact (List.getElem?_eq_some_iff.mp hr).1
  have hcli := hi.cli
  have hsents := hi.sents
  have hstream := hi.stream
  have hidle := hq.idle
  rw [hd] at hcli hstream
  rw [hcli] at hsents hidle
  have hwr : written s.acts = (List.range Q.length).flatMap fun i => ser c.env ((ans Q rs i).val c.cls) :=
    written_part hl (Nat.le_refl _) (wn := wk) (by rw [List.take_length, ← hl, List.take_length]; exact hs)
  have hx : (i, (req Q i).id) ∈ (sents (Ask.exec c.env (d + 1) c.cls (.init c.env (d + 1) c.cls) ch).log).take Q.length := by
    rw [hsents, List.take_of_length_le (by simp)]
    exact List.mem_map.mpr ⟨i, List.mem_range.mpr hlt, rfl⟩
  have := Ask.C88_stream_partial hg.registered ch hi.nocancel (by
      rw [hsents, List.map_map]
      have : (Prod.snd ∘ fun i => (i, (req Q i).id)) = fun i => (req Q i).id := rfl
      rw [this, map_req (f := (·.id)) (Nat.le_refl _), List.take_length]
      exact hg.different) (ans Q rs) (by
      intro x hx
      rw [hsents] at hx
      obtain ⟨j, hj, rfl⟩ := List.mem_map.mp hx
      obtain ⟨y, hy, e⟩ := ans_mem hl (i := j) (List.mem_range.mp hj)
      have := hg.responses y hy
      rw [← e] at this
      exact ⟨this, rfl⟩) hstream hidle Q.length (by
      rw [hsents, List.take_of_length_le (by simp), List.flatMap_map, hi.back, hq.client, List.take_length, hwr]
      exact Nat.le_refl _) _ hx
  rw [hcli, this]
  simp [ans, Query.response, hr]

/-! ## It comes to rest -/

/-- C91: calls of `query` apart, the two ends come to rest: there is no infinite sequence of steps. -/
theorem C91_settles (c : Cfg σ) : WellFounded fun s' s : Net σ => ∃ e, Due s e ∧ s' = step c s e := by
  have hwf : WellFounded (Prod.Lex (fun a b : Nat => a < b) (Prod.Lex (fun a b : Nat => a < b) (fun a b : Nat => a < b))) :=
    (Prod.lex ⟨_, Nat.lt_wfRel.wf⟩ (Prod.lex ⟨_, Nat.lt_wfRel.wf⟩ ⟨_, Nat.lt_wfRel.wf⟩)).wf
  refine Subrelation.wf (r := InvImage (Prod.Lex (fun a b : Nat => a < b) (Prod.Lex (fun a b : Nat => a < b) (fun a b : Nat => a < b)))
    fun s : Net σ => (s.cli.out.flatten.length - s.atServer, (written s.acts).length - s.atClient, 2 * s.cli.notes + s.cli.woken.length)) ?_ (InvImage.wf _ hwf)
  rintro s' s ⟨e, hd, rfl⟩
  show Prod.Lex _ _ _ _
  cases e with
  | query n cmd args => exact absurd hd id
  | notify =>
    have h := Ask.own_dec (env := c.env) (depth := c.depth) (cls := c.cls) s.cli .notify trivial hd
    show Prod.Lex _ _ ((Ask.notify s.cli).out.flatten.length - s.atServer, _, _) _
    rw [(notify_out s.cli).1]
    exact .right _ (.right _ h)
  | resume i =>
    have h := Ask.own_dec (env := c.env) (depth := c.depth) (cls := c.cls) s.cli (.resume i) trivial hd
    show Prod.Lex _ _ ((Ask.resume s.cli i).out.flatten.length - s.atServer, _, _) _
    rw [(resume_out s.cli i).1]
    exact .right _ (.right _ h)
  | toServer n =>
    refine .left _ _ ?_
    show s.cli.out.flatten.length - (s.atServer + ((s.cli.out.flatten.drop s.atServer).take n).length) < _
    rw [List.length_take, List.length_drop]
    obtain ⟨h1, h2⟩ := hd
    omega
  | toClient n =>
    refine .right _ (.left _ _ ?_)
    show (written s.acts).length - (s.atClient + (((bytesOut s.acts).drop s.atClient).take n).length) < _
    rw [bytesOut_eq, List.length_take, List.length_drop]
    obtain ⟨h1, h2⟩ := hd
    omega

/-- The bytes that have arrived were sent. -/
theorem arrived (w : σ) (h : List Ev) : (run c (Net.init c w) h).atServer ≤ (run c (Net.init c w) h).cli.out.flatten.length ∧
    (run c (Net.init c w) h).atClient ≤ (written (run c (Net.init c w) h).acts).length := by
  induction h using Ask.snocInd with
  | nil => exact ⟨Nat.zero_le _, Nat.zero_le _⟩
  | snoc h e ih =>
    rw [run_snoc]
    generalize run c (Net.init c w) h = s at ih ⊢
    obtain ⟨h1, h2⟩ := ih
    cases e with
    | query n cmd args =>
      refine ⟨Nat.le_trans h1 ?_, h2⟩
      show _ ≤ (Ask.query c.env c.cls s.cli n cmd args).out.flatten.length
      unfold Ask.query
      dsimp only
      split
      · exact Nat.le_refl _
      · split
        · rw [(await_out _ _).1]; simp
        · exact Nat.le_refl _
    | notify => exact ⟨by show _ ≤ (Ask.notify s.cli).out.flatten.length; rw [(notify_out s.cli).1]; exact h1, h2⟩
    | resume i => exact ⟨by show _ ≤ (Ask.resume s.cli i).out.flatten.length; rw [(resume_out s.cli i).1]; exact h1, h2⟩
    | toServer n =>
      refine ⟨?_, ?_⟩
      · show s.atServer + ((s.cli.out.flatten.drop s.atServer).take n).length ≤ s.cli.out.flatten.length
        rw [List.length_take, List.length_drop]
        omega
      · show s.atClient ≤ (written (s.acts ++ _)).length
        rw [written_append, List.length_append]
        omega
    | toClient n =>
      refine ⟨h1, ?_⟩
      show s.atClient + (((bytesOut s.acts).drop s.atClient).take n).length ≤ (written s.acts).length
      rw [bytesOut_eq, List.length_take, List.length_drop]
      omega

/-- C91: when no step is left, nothing is under way. -/
theorem C91_quiet (w : σ) (h : List Ev) (hn : ∀ e, ¬ Due (run c (Net.init c w) h) e) : Quiet (run c (Net.init c w) h) := by
  obtain ⟨h1, h2⟩ := arrived (c := c) w h
  generalize run c (Net.init c w) h = s at *
  refine ⟨?_, ?_, Decidable.byContradiction fun hne => hn .notify hne, ?_⟩
  · have := hn (.toServer 1)
    simp only [Due] at this
    omega
  · have := hn (.toClient 1)
    simp only [Due] at this
    omega
  · cases hw : s.cli.woken with
    | nil => rfl
    | cons i l => exact absurd (by show i ∈ s.cli.woken; rw [hw]; exact List.mem_cons_self ..) (hn (.resume i))

/-- C91: so from any point of any history, whatever the order of the steps, all calls return. -/
theorem C91_completes_partial {w w' : σ} {acts : List Act} {rs} (h : List Ev) (hg : Good c w (asked h) w' acts rs) :
    ∃ t, asked t = [] ∧ ∀ i r, rs[i]? = some r → (run c (Net.init c w) (h ++ t)).cli.stage i = .returned (some r.1, r.2) := by
  have key : ∀ s : Net σ, ∃ t, asked t = [] ∧ ∀ e, ¬ Due (run c s t) e := by
    intro s
    induction (C91_settles c).apply s with
    | intro s _ ih =>
      by_cases hd : ∃ e, Due s e
      · obtain ⟨e, he⟩ := hd
        obtain ⟨t, h1, h2⟩ := ih _ ⟨e, he, rfl⟩
        refine ⟨e :: t, ?_, h2⟩
        cases e with
        | query n cmd args => exact absurd he id
        | _ => exact h1
      · exact ⟨[], rfl, fun e he => hd ⟨e, he⟩⟩
  obtain ⟨t, h1, h2⟩ := key (run c (Net.init c w) h)
  have ha : asked (h ++ t) = asked h := by rw [asked_append, h1, List.append_nil]
  rw [← run_append] at h2
  exact ⟨t, h1, (C91_returns_partial (h ++ t) (by rw [ha]; exact hg) (C91_quiet w _ h2)).2.2⟩

/-! ## What does not hold, and examples -/

theorem written_close {l : List Act} (h : ∀ a ∈ l, a = Act.close) : written l = [] := by
  induction l with
  | nil => rfl
  | cons a l ih =>
    rw [h a (by simp), written]
    · exact ih (fun b hb => h b (by simp [hb]))
    · intro b; simp

/-- A server that refuses the requests closes the connection and answers nothing; the calls do not learn of it, and never return. -/
theorem C91_false_refused (c : Cfg σ) (hr : c.env.Registered) (hd : 0 < c.depth) (ha : ∀ p, c.authorized p = false) (w : σ) (h : List Ev) (i : Nat) (a : Option Str × Option Str) :
    (run c (Net.init c w) h).cli.stage i ≠ .returned a := by
  obtain ⟨d, hd⟩ : ∃ d, c.depth = d + 1 := ⟨c.depth - 1, by omega⟩
  -- the client gets nothing
  have key : ∃ ch bs, (run c (Net.init c w) h).cli = Ask.exec c.env c.depth c.cls (.init c.env c.depth c.cls) ch ∧ (chunks ch).flatten = [] ∧
      ((run c (Net.init c w) h).srv, (run c (Net.init c w) h).acts) = (Server.init c w).exec c bs := by
    induction h using Ask.snocInd with
    | nil => exact ⟨[], [], rfl, rfl, rfl⟩
    | snoc h e ih =>
      obtain ⟨ch, bs, h1, h2, h3⟩ := ih
      rw [run_snoc]
      generalize run c (Net.init c w) h = s at h1 h3 ⊢
      have e1 : s.srv = ((Server.init c w).exec c bs).1 := by rw [← h3]
      have e2 : s.acts = ((Server.init c w).exec c bs).2 := by rw [← h3]
      cases e with
      | query n cmd args => exact ⟨ch ++ [.query n cmd args], bs, by rw [Ask.exec_snoc, ← h1]; rfl, by rw [Ask.chunks_append]; simpa [chunks] using h2, h3⟩
      | notify => exact ⟨ch ++ [.notify], bs, by rw [Ask.exec_snoc, ← h1]; rfl, by rw [Ask.chunks_append]; simpa [chunks] using h2, h3⟩
      | resume j => exact ⟨ch ++ [.resume j], bs, by rw [Ask.exec_snoc, ← h1]; rfl, by rw [Ask.chunks_append]; simpa [chunks] using h2, h3⟩
      | toServer n =>
        refine ⟨ch, bs ++ [.data ((s.cli.out.flatten.drop s.atServer).take n)], h1, h2, ?_⟩
        rw [srv_append, ← e1, ← e2]
        simp [Server.exec, Server.step, step]
      | toClient n =>
        refine ⟨ch ++ [.data (((bytesOut s.acts).drop s.atClient).take n)], bs, by rw [Ask.exec_snoc, ← h1]; rfl, ?_, h3⟩
        have : bytesOut s.acts = [] := by rw [bytesOut_eq, e2]; exact written_close (exec_refused ha bs _).2
        rw [Ask.chunks_append, this]
        simpa [chunks] using h2
  obtain ⟨ch, bs, h1, h2, -⟩ := key
  intro hs
  rw [h1] at hs
  have hown := (Ask.C88_own c.env c.depth c.cls ch i a hs).2
  have hm := List.mem_filter.mpr ⟨hown, (rfl : isCame (.came _ a) = true)⟩
  obtain ⟨⟨n, -, hev⟩, -⟩ := C02_C03_prefix hr [] (depth := d) (cls := c.cls) (fun _ h => nomatch h) (opsOf (chunks ch)) [] (by rw [received_opsOf, h2]; rfl)
  rw [(Ask.log_events ch).2, hd, hev] at hm
  simp at hm

/-- Three calls, with the bytes in pieces, the second call made while the first one waits. -/
def exNet : List Ev := [.query 7 ['a', 'd', 'd'] [['x'], ['y']], .toServer 5, .query 65535 ['f', 'a', 'i', 'l'] [], .toServer 1000, .toClient 60, .query 0 ['z'] [], .toClient 1000,
  .notify, .notify, .resume 1, .toServer 1000, .toClient 1000, .resume 0, .notify, .resume 2]

theorem exNet_good : ∃ acts, Good (exCfg fun _ => true) ['w'] (asked exNet) ['w', 'x', 'y'] acts [(['w', 'x', 'y'], none), ([], some ['n', 'o']), ([], some (unknown ['z'] ['d']))] := by
  obtain ⟨acts, hs⟩ := exServed fun _ => true
  exact ⟨acts, exRegistered, by decide, by decide, fun _ _ => rfl, fun q hq => exPlain (exFits q hq), hs, fun x hx => by
      simp only [asked, exNet, List.filterMap_cons, List.filterMap_nil, List.zip_cons_cons, List.zip_nil_right, List.mem_cons, List.not_mem_nil, or_false] at hx
      rcases hx with rfl | rfl | rfl
      · exact exPlain (fits_response q1 (exFits q1 (by simp)) (by unfold OkStr; decide) (by simp))
      · exact exPlain (fits_response q2 (exFits q2 (by simp)) (by unfold OkStr; decide) (by unfold OkStr; decide))
      · exact exPlain (fits_response q3 (exFits q3 (by simp)) (by unfold OkStr; decide) (by unfold OkStr; decide))⟩

theorem exNet_quiet : Quiet (run (exCfg fun _ => true) (Net.init (exCfg fun _ => true) ['w']) exNet) :=
  ⟨by decide +kernel, by decide +kernel, by decide +kernel, by decide +kernel⟩

/-- The hypotheses of `C91_returns_partial` are met. -/
example : (run (exCfg fun _ => true) (Net.init (exCfg fun _ => true) ['w']) exNet).srv.w = ['w', 'x', 'y'] ∧
    (run (exCfg fun _ => true) (Net.init (exCfg fun _ => true) ['w']) exNet).cli.stage 1 = .returned (some [], some ['n', 'o']) := by
  obtain ⟨acts, hg⟩ := exNet_good
  obtain ⟨h1, -, h3⟩ := C91_returns_partial exNet hg exNet_quiet
  exact ⟨h1, h3 1 _ rfl⟩

/-- Two calls with the same random id: the second returns the answer of the first at once, with success, although its request would fail, and before it was carried out. -/
theorem C91_false_same_id :
    let s := run (exCfg fun _ => true) (Net.init (exCfg fun _ => true) ['w'])
      [.query 7 ['a', 'd', 'd'] [['x']], .toServer 1000, .toClient 1000, .notify, .resume 0, .query 7 ['f', 'a', 'i', 'l'] []]
    s.cli.stage 1 = .returned (some ['w', 'x'], none) ∧ Act.call ['f', 'a', 'i', 'l'] [] ∉ s.acts := by decide +kernel

/-- A refused call: the hypotheses are met by the usual policy for a peer elsewhere. -/
example : (run (exCfg fun _ => localAccess (some ['1'])) (Net.init (exCfg fun _ => localAccess (some ['1'])) ['w'])
    [.query 7 ['a', 'd', 'd'] [], .toServer 1000, .toClient 1000]).cli.stage 0 = .waiting ∧
    ∀ h i a, (run (exCfg fun _ => localAccess (some ['1'])) (Net.init (exCfg fun _ => localAccess (some ['1'])) ['w']) h).cli.stage i ≠ .returned a :=
  ⟨by decide +kernel, C91_false_refused _ exRegistered (by decide) (fun _ => (by decide : localAccess (some [(Char.ofNat 49)]) = false)) _⟩

end Verif.Spmp.AskNet
