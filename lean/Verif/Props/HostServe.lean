import Verif.Props.Host
import Verif.Props.VnicOpen
import Verif.Lemmas.ConnectorServe
/-! # C64: servers, and when applications write -/
namespace Verif.Host
open Verif.Cli (Kind)
open Verif.Connect (Asked RunsFor Returned OwnId)

section
variable (want : Nat → Str × Nat)

/-- What an event is for the connector. -/
theorem con_step (s : St) (e : Ev) : (step want s e).side.con = s.side.con ∨ ∃ x, (step want s e).side.con = Connect.step s.side.con x ∧
    ∀ c id r, x = .response c id r → ∃ y ∈ downs s.vnic c, ∃ r', y = .response id r' ∧ r = answer r' := by
  have no : ∀ x : Connect.Ev, inside x = true → ∀ c id r, x = .response c id r → ∃ y ∈ downs s.vnic c, ∃ r', y = .response id r' ∧ r = answer r' := by
    rintro x hx c id r rfl; cases hx
  cases e with
  | own e =>
    simp only [step, sideStep]
    split
    · next hi => exact .inr ⟨e, rfl, no e hi⟩
    · exact .inl rfl
  | other e => exact .inl rfl
  | accept c => simp only [step, sideStep]; split <;> exact .inl rfl
  | toVnic c => simp only [step, sideStep]; split <;> exact .inl rfl
  | toCon c =>
    simp only [step, sideStep]
    split
    · cases hg : (downs s.vnic c)[s.side.seen c]? with
      | none => exact .inl rfl
      | some x =>
        refine .inr ⟨conEv c x, congrArg (Connect.step · (conEv c x)) (learn_same s.side c x).1, ?_⟩
        intro c' id r hx
        have hm := List.mem_of_getElem? hg
        cases x with
        | spawned => cases hx
        | response id' r' =>
          simp only [conEv, Connect.Ev.response.injEq] at hx
          obtain ⟨rfl, rfl, rfl⟩ := hx
          exact ⟨_, hm, r', rfl, rfl⟩
    · exact .inl rfl
  | lostVnic c => exact .inl rfl
  | lostCon c => exact .inr ⟨.ctlLost c, rfl, nofun⟩
  | callback n =>
    simp only [step, sideStep]
    split
    · exact .inr ⟨.callback n, rfl, nofun⟩
    · exact .inl rfl
  | toApp n k =>
    simp only [step, sideStep, take]
    split
    · exact .inl rfl
    · next m _ =>
      split
      · exact .inr ⟨.data m _, rfl, nofun⟩
      · exact .inl rfl
  | write n d =>
    simp only [step, sideStep, put]
    split
    · exact .inl rfl
    · split <;> exact .inl rfl
  | toSock n k => simp only [step, sideStep]; split <;> exact .inl rfl
  | endVnic n => exact .inl rfl
  | endApp n =>
    simp only [step, sideStep]
    split
    · exact .inl rfl
    · next m _ => exact .inr ⟨.lost m, rfl, nofun⟩

theorem downs_response {v : Vnic.St} {c id : Nat} {r : Vnic.Resp} (h : .response id r ∈ downs v c) : .respond (proto c) id r ∈ v.out := by
  obtain ⟨y, hy, hyx⟩ := List.mem_filterMap.mp h
  cases y with
  | respond p' id' r' =>
    simp only [down] at hyx
    split at hyx
    · next e =>
      simp only [Option.some.injEq, Down.response.injEq] at hyx
      obtain ⟨rfl, rfl⟩ := hyx
      rw [← e]; exact hy
    · cases hyx
  | announce p' id' t' k =>
    simp only [down] at hyx
    split at hyx <;> simp at hyx
  | _ => simp [down] at hyx

/-- The answers that the connector has got were written by the VNIC. -/
theorem answered (a : Str) (h : List Ev) : ∃ hc, (exec want (.init a) h).side.con = Connect.exec .init hc ∧
    ∀ c id p, .response c id (.port p) ∈ hc → .respond (proto c) id (.port p) ∈ (exec want (.init a) h).vnic.out := by
  have key : ∀ (h : List Ev) (s : St), (∃ hc, s.side.con = Connect.exec .init hc ∧ ∀ c id p, .response c id (.port p) ∈ hc → .respond (proto c) id (.port p) ∈ s.vnic.out) →
      ∃ hc, (exec want s h).side.con = Connect.exec .init hc ∧ ∀ c id p, .response c id (.port p) ∈ hc → .respond (proto c) id (.port p) ∈ (exec want s h).vnic.out := by
    intro h
    induction h with
    | nil => exact fun s hs => hs
    | cons e h ih =>
      rintro s ⟨hc, h1, h2⟩
      refine ih (step want s e) ?_
      have hout : s.vnic.out <+: (step want s e).vnic.out := (Vnic.Lasts.exec _ _).out
      rcases con_step want s e with hx | ⟨x, hx, hr⟩
      · exact ⟨hc, by rw [hx, h1], fun c id p hm => hout.subset (h2 c id p hm)⟩
      · refine ⟨hc ++ [x], by rw [hx, Connect.exec_append, ← h1]; rfl, fun c id p hm => ?_⟩
        rcases List.mem_append.mp hm with hm | hm
        · exact hout.subset (h2 c id p hm)
        · obtain ⟨y, hy, r', rfl, hr'⟩ := hr c id (.port p) (List.mem_singleton.mp hm).symm
          have := hout.subset (downs_response hy)
          cases r' with
          | port q => simp only [answer, Cli.Resp.port.injEq] at hr'; rw [hr']; exact this
          | busy => simp [answer] at hr'
  exact key h _ ⟨[], rfl, fun _ _ _ hm => by cases hm⟩

/-- A port in an answer of the VNIC is from the request with this id, and the port was free. -/
theorem granted (a : Str) : ∀ (h : List Vnic.Ev) (p id q : Nat), .respond p id (.port q) ∈ (Vnic.exec (.init a) h).out →
    ∃ h1 h2 r, h = h1 ++ .openSocket p id r :: h2 ∧ .respond p id (.port q) ∈ ((Vnic.exec (.init a) (h1 ++ [.openSocket p id r])).out.drop (Vnic.exec (.init a) h1).out.length) := by
  intro h
  induction h using List.reverseRecOn with
  | nil => intro p id q hm; cases hm
  | append_singleton h e ih =>
    intro p id q hm
    obtain ⟨l, h1, h2⟩ := Vnic.C35_only a h e
    rw [h1] at hm
    rcases List.mem_append.mp hm with hm | hm
    · obtain ⟨x, y, r, g1, g2⟩ := ih p id q hm
      exact ⟨x, y ++ [e], r, by rw [g1]; simp, g2⟩
    · obtain ⟨r, rfl⟩ := h2 p id _ hm
      exact ⟨h, [], r, rfl, by rw [h1, List.drop_left]; exact hm⟩

/-- **C64.** A server that `create_server` has returned was granted by the VNIC: a request for exactly the port of the call arrived there, no socket was open on
the port, and since then a socket listens on it. -/
theorem C64_server (a : Str) (h : List Ev) (i c id : Nat) (b : Bool) (hn : i < (exec want (.init a) h).side.con.nCall)
    (hs : ((exec want (.init a) h).side.con.call i).stage = .serving c id b) :
    ((exec want (.init a) h).side.con.call i).kind = .listen ∧
    ∃ h1 h2, vnicHist want (.init a) h = h1 ++ .openSocket (proto c) id (.listen (want i).2) :: h2 ∧
      (∀ k, ¬ Vnic.OpenOn (Vnic.exec (.init a) h1) k (want i).2) ∧
      Vnic.Listening (Vnic.exec (.init a) (h1 ++ [.openSocket (proto c) id (.listen (want i).2)])) (want i).2 := by
  obtain ⟨hc', hi⟩ := Inv.reachable want a h
  obtain ⟨hc, h1, h2⟩ := answered want a h
  have hsv := Connect.Serve.reachable hc
  rw [← h1] at hsv
  obtain ⟨g1, p, g2⟩ := hsv.stage i c id b hn hs
  have hst := hsv.core.stage i hn
  rw [Connect.StageOk, hs] at hst
  refine ⟨g1, ?_⟩
  have ho := h2 c id p g2
  rw [hi.vnic] at ho
  obtain ⟨x, y, r, e, hr⟩ := granted a _ _ _ _ ho
  obtain ⟨f, hf, rfl⟩ := hi.opn c id r (by rw [e]; simp)
  have := Connect.asked_one hsv.core hf ⟨hn, hst⟩
  subst this
  simp only [reqOf, g1] at e hr
  refine ⟨x, y, e, ?_⟩
  have hup : proto c ∈ (Vnic.exec (.init a) x).up := by
    refine Decidable.byContradiction fun hx => ?_
    rw [Vnic.exec_append] at hr
    simp [Vnic.exec, Vnic.step, hx] at hr
  have hid : ((Vnic.exec (.init a) x).ids (proto c)).has id = false := by
    refine Decidable.byContradiction fun hx => ?_
    rw [Bool.not_eq_false] at hx
    rw [Vnic.exec_append] at hr
    simp [Vnic.exec, Vnic.step, hup, Vnic.openSocket, hx, Vnic.St.emit] at hr
  have key := Vnic.C31_listen a x (proto c) id (want f).2 hup hid
  by_cases hx : ∃ k, Vnic.OpenOn (Vnic.exec (.init a) x) k (want f).2
  · have := (key.1 hx).1
    rw [this, List.drop_left] at hr
    simp at hr
  · have hx' := fun k hk => hx ⟨k, hk⟩
    exact ⟨hx', _, (key.2 hx').2⟩

/-- **C64.** Nothing is written to a callback connection before the application is on it. -/
theorem C64_no_early (a : Str) (h : List Ev) (n : Nat) (hw : (exec want (.init a) h).side.wrote n ≠ []) : ∃ f, AppOn (exec want (.init a) h) f n := by
  induction h using List.reverseRecOn with
  | nil => exact absurd rfl hw
  | append_singleton h e ih =>
    obtain ⟨hc, hi⟩ := Inv.reachable want a h
    rw [exec_append] at hw ⊢
    generalize exec want (.init a) h = s at hi hw ih ⊢
    simp only [exec] at hw ⊢
    have last : ∀ {f}, AppOn s f n → AppOn (step want s e) f n := by
      rintro f ⟨m, h1, h2⟩
      refine ⟨m, peer_lasts want s e h1, ?_⟩
      rcases con_step want s e with hx | ⟨x, hx, _⟩
      · rw [hx]; exact h2
      · rw [hx]; exact (Connect.Core.step hi.co.core x).2.runsFor h2
    by_cases h0 : s.side.wrote n = []
    · have : ∃ d, e = .write n d := by
        refine Classical.byContradiction fun hne => hw ?_
        rw [← h0]
        cases e with
        | own e => simp only [step, sideStep]; split <;> rfl
        | other e => rfl
        | accept c => simp only [step, sideStep]; split <;> rfl
        | toVnic c => simp only [step, sideStep]; split <;> rfl
        | toCon c =>
          simp only [step, sideStep]
          split
          · unfold receive
            split
            · rfl
            · next x _ => exact congrFun (learn_same s.side c x).2.2.2.2.1 n
          · rfl
        | lostVnic c => rfl
        | lostCon c => rfl
        | callback k => simp only [step, sideStep]; split <;> rfl
        | toApp k j =>
          simp only [step, sideStep, take]
          split
          · rfl
          · split <;> rfl
        | write k d =>
          simp only [step, sideStep, put]
          split
          · rfl
          · split
            · have : n ≠ k := fun x => hne ⟨d, by rw [x]⟩
              simp [upd, this]
            · rfl
        | toSock k j => simp only [step, sideStep]; split <;> rfl
        | endVnic k => rfl
        | endApp k => simp only [step, sideStep]; split <;> rfl
      obtain ⟨d, rfl⟩ := this
      simp only [step, sideStep, put] at hw
      split at hw
      · exact absurd h0 hw
      · next m hp =>
        split at hw
        · next hx =>
          obtain ⟨ds, hg, _, _⟩ := hi.got n m hp
          obtain ⟨_, k, app, h1⟩ := hg.running (by have := hx.1; simp [running] at this; exact this.1) hx.2
          have hb : Callback.Eff.built m k app ∈ Callback.effectsOn m s.side.con.cb.out := by
            rcases h1 with ⟨_, h1⟩ | ⟨_, h1 | h1⟩ <;> rw [h1] <;> simp
          exact ⟨app, last ⟨m, hp, k, (List.mem_filter.mp hb).1⟩⟩
        · exact absurd h0 hw
    · obtain ⟨f, hf⟩ := ih h0
      exact ⟨f, last hf⟩

end

/-- The hypotheses hold after `server` (the call 0 has a server, with the port 80) and after `client` (which has written). -/
example : ((exec wants (.init "2.2.2.2".toList) server).side.con.call 0).stage = .serving 0 1 false ∧ 0 < (exec wants (.init "2.2.2.2".toList) server).side.con.nCall ∧
    (exec wants (.init "1.1.1.1".toList) client).side.wrote 0 ≠ [] := by decide +kernel

/-- A call for a port that another process has is refused: no server. -/
example : ((exec (fun _ => ("".toList, 90)) (.init "2.2.2.2".toList) (server.take 9)).side.con.call 0).stage ≠ .serving 0 1 false := by decide +kernel

end Verif.Host
