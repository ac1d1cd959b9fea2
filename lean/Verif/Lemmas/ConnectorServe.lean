import Verif.Lemmas.ConnectorOrigin
/-! # Lemmas: servers of a connector, and the answers they stem from -/
namespace Verif.Connect
open Verif.Cli (Kind)

theorem asked_one {h : List Ev} {s : St} (hc : Core h s) {i j c id : Nat} (h1 : Asked s i c id) (h2 : Asked s j c id) : i = j := by
  have a := (hc.apps c id i).mpr h1
  have b := (hc.apps c id j).mpr h2
  rw [a] at b; cases b; rfl

/-- Results and servers stem from requests and answers. -/
structure Serve (h : List Ev) (s : St) : Prop where
  core : Core h s
  fut : ∀ c n id p, (s.cli c).fut n = .result id p → (∃ f, Asked s f c id ∧ (s.call f).kind = .connect) ∨ Ev.response c id (.port p) ∈ h
  kinds : ∀ c id k n, (s.cli c).futures.get id = some (k, n) → ∃ f, Asked s f c id ∧ (s.call f).kind = k
  stage : ∀ i c id b, i < s.nCall → (s.call i).stage = .serving c id b → (s.call i).kind = .listen ∧ ∃ p, Ev.response c id (.port p) ∈ h

theorem Serve.init : Serve [] .init :=
  ⟨.init, fun _ _ _ _ h => (by cases h), fun _ _ _ _ h => (by cases h), fun _ _ _ _ h => (by cases h)⟩

theorem Serve.mono {h : List Ev} {s : St} (hs : Serve h s) (e : Ev) : Serve (h ++ [e]) s where
  core := hs.core.mono e
  fut := fun c n id p hf => (hs.fut c n id p hf).imp (fun x => x) (fun hm => by simp [hm])
  kinds := hs.kinds
  stage := fun i c id b hi hx => by
    obtain ⟨h1, p, h2⟩ := hs.stage i c id b hi hx
    exact ⟨h1, p, by simp [h2]⟩

/-- The control protocols keep their futures. -/
theorem Serve.keep {h : List Ev} {s t : St} (hv : Serve h s) (hc : Core h t) (hl : Lasts s t) (h1 : ∀ c, (t.cli c).fut = (s.cli c).fut ∨ ∀ n, (t.cli c).fut n = .pending)
    (h2 : ∀ c, (t.cli c).futures = (s.cli c).futures ∨ (t.cli c).futures = [])
    (h3 : ∀ i c id b, i < t.nCall → (t.call i).stage = .serving c id b → i < s.nCall ∧ ∃ b', (s.call i).stage = .serving c id b') : Serve h t where
  core := hc
  fut := fun c n id p hf => by
    rcases h1 c with hx | hx
    · rw [hx] at hf
      refine (hv.fut c n id p hf).imp ?_ (fun x => x)
      rintro ⟨f, g1, g2⟩
      exact ⟨f, hl.asked g1, (hl.kind f g1.1).trans g2⟩
    · rw [hx] at hf; cases hf
  kinds := fun c id k n hg => by
    rcases h2 c with hx | hx
    · rw [hx] at hg
      obtain ⟨f, g1, g2⟩ := hv.kinds c id k n hg
      exact ⟨f, hl.asked g1, (hl.kind f g1.1).trans g2⟩
    · rw [hx] at hg; cases hg
  stage := fun i c id b hi hs => by
    obtain ⟨g1, b', g2⟩ := h3 i c id b hi hs
    obtain ⟨g3, g4⟩ := hv.stage i c id b' g1 g2
    exact ⟨(hl.kind i g1).trans g3, g4⟩

/-- What a packet or a timeout does to the futures of a control protocol. -/
theorem cli_futures {s : Cli.St} (hi : Cli.Inv s) (e : Cli.Ev) (he : ∀ k f, e ≠ .request k f) :
    (∀ id k n, (Cli.step s e).futures.get id = some (k, n) → s.futures.get id = some (k, n)) ∧
    (∀ n id p, (Cli.step s e).fut n = .result id p → s.fut n = .result id p ∨ (∃ k, s.futures.get id = some (k, n) ∧
      ((k = .connect ∧ ∃ t, e = .spawned id t p) ∨ (k = .listen ∧ e = .response id (.port p))))) := by
  have del : ∀ i id k n, (s.futures.del i).get id = some (k, n) → s.futures.get id = some (k, n) := by
    intro i id k n hx
    rw [Dict.get_del hi.wff] at hx
    split at hx
    · cases hx
    · exact hx
  have res : ∀ (y : Cli.St) m v, (Cli.resolve y m v).futures = y.futures := by
    intro y m v; unfold Cli.resolve; split <;> rfl
  cases e with
  | request k f => exact absurd rfl (he k f)
  | response i r =>
    simp only [Cli.step, Cli.response]
    split
    · exact ⟨fun _ _ _ h => h, fun _ _ _ h => .inl h⟩
    · next k n hg =>
      cases r with
      | failure c =>
        refine ⟨fun id k' n' hx => del i id k' n' (by rw [← hx]; rw [res]), fun m id p hx => .inl ?_⟩
        dsimp only at hx
        rw [Cli.resolve_fut] at hx
        split at hx
        · cases hx
        · exact hx
      | port q =>
        cases k with
        | connect => exact ⟨fun _ _ _ h => h, fun _ _ _ h => .inl h⟩
        | listen =>
          refine ⟨fun id k' n' hx => del i id k' n' (by rw [← hx]; rw [res]), fun m id p hx => ?_⟩
          dsimp only at hx
          rw [Cli.resolve_fut] at hx
          split at hx
          · next hy => cases hx; rw [hy.1]; exact .inr ⟨.listen, hg, .inr ⟨rfl, rfl⟩⟩
          · exact .inl hx
  | spawned i t q =>
    simp only [Cli.step, Cli.spawned]
    split
    · exact ⟨fun _ _ _ h => h, fun _ _ _ h => .inl h⟩
    · split
      · next n hg =>
        refine ⟨fun id k' n' hx => del i id k' n' (by rw [← hx]; rw [res]), fun m id p hx => ?_⟩
        rw [Cli.resolve_fut] at hx
        split at hx
        · next hy => cases hx; rw [hy.1]; exact .inr ⟨.connect, hg, .inl ⟨rfl, t, rfl⟩⟩
        · exact .inl hx
      · exact ⟨fun _ _ _ h => h, fun _ _ _ h => .inl h⟩
      · exact ⟨fun _ _ _ h => h, fun _ _ _ h => .inl h⟩
  | cancel m =>
    simp only [Cli.step]
    split
    · split
      · refine ⟨fun _ _ _ h => h, fun n id p hx => .inl ?_⟩
        dsimp only at hx
        split at hx
        · cases hx
        · exact hx
      · exact ⟨fun _ _ _ h => h, fun _ _ _ h => .inl h⟩
    · exact ⟨fun _ _ _ h => h, fun _ _ _ h => .inl h⟩

theorem Serve.setCli {h : List Ev} {s t : St} (hv : Serve h s) (c : Nat) (e : Cli.Ev) (he : ∀ k f, e ≠ .request k f)
    (hm : ∀ id p, e = .response id (.port p) → Ev.response c id (.port p) ∈ h)
    (hc : Core h t) (hl : Lasts s t) (h1 : t.cli = fun d => if d = c then Cli.step (s.cli c) e else s.cli d)
    (h3 : ∀ i c id b, i < t.nCall → (t.call i).stage = .serving c id b → i < s.nCall ∧ ∃ b', (s.call i).stage = .serving c id b') : Serve h t := by
  obtain ⟨a1, a2⟩ := cli_futures (hv.core.cli c) e he
  refine ⟨hc, ?_, ?_, ?_⟩
  · intro d n id p hf
    rw [h1] at hf
    dsimp only at hf
    have old : ∀ d, (s.cli d).fut n = .result id p → (∃ f, Asked t f d id ∧ (t.call f).kind = .connect) ∨ Ev.response d id (.port p) ∈ h := by
      intro d hf
      refine (hv.fut d n id p hf).imp ?_ (fun x => x)
      rintro ⟨f, g1, g2⟩
      exact ⟨f, hl.asked g1, (hl.kind f g1.1).trans g2⟩
    split at hf
    · next e' =>
      subst e'
      rcases a2 n id p hf with hf | ⟨k, hg, ⟨rfl, _⟩ | ⟨rfl, hr⟩⟩
      · exact old _ hf
      · obtain ⟨f, g1, g2⟩ := hv.kinds d id _ n hg
        exact .inl ⟨f, hl.asked g1, (hl.kind f g1.1).trans g2⟩
      · exact .inr (hm id p hr)
    · exact old _ hf
  · intro d id k n hg
    rw [h1] at hg
    dsimp only at hg
    have hg' : (s.cli d).futures.get id = some (k, n) := by
      split at hg
      · next e' => subst e'; exact a1 _ _ _ hg
      · exact hg
    obtain ⟨f, g1, g2⟩ := hv.kinds d id k n hg'
    exact ⟨f, hl.asked g1, (hl.kind f g1.1).trans g2⟩
  · intro i d id b hi hs
    obtain ⟨g1, b', g2⟩ := h3 i d id b hi hs
    obtain ⟨g3, g4⟩ := hv.stage i d id b' g1 g2
    exact ⟨(hl.kind i g1).trans g3, g4⟩

theorem serving_setStage {s u : St} {j : Nat} {g : Stage} (e1 : u.call = s.call) (e2 : u.nCall = s.nCall) (hg : ∀ c id b, g ≠ .serving c id b) :
    ∀ i c id b, i < (setStage u j g).nCall → ((setStage u j g).call i).stage = .serving c id b → i < s.nCall ∧ ∃ b', (s.call i).stage = .serving c id b' := by
  intro i c id b hi hs
  have hi' : i < u.nCall := hi
  simp only [setStage, setCall] at hs
  split at hs
  · exact absurd hs (hg c id b)
  · exact ⟨e2 ▸ hi', b, by rw [← e1]; exact hs⟩

theorem Serve.micro {h : List Ev} {e : Ev} {s t : St} (he : e ∈ h) (hv : Serve h s) (hm : Micro e s t) : Serve h t := by
  have hc := hv.core.micro he hm
  have hl := Lasts.micro hv.core hm
  have id3 : ∀ (u : St), u.call = s.call → u.nCall = s.nCall →
      ∀ i c id b, i < u.nCall → (u.call i).stage = .serving c id b → i < s.nCall ∧ ∃ b', (s.call i).stage = .serving c id b' :=
    fun u e1 e2 i c id b hi hs => ⟨e2 ▸ hi, b, by rw [← e1]; exact hs⟩
  have set : ∀ (u : St) j g, u.call = s.call → u.nCall = s.nCall → u.cli = s.cli → (∀ c id b, g ≠ .serving c id b) →
      Core h (setStage u j g) → Lasts s (setStage u j g) → Serve h (setStage u j g) :=
    fun u j g e1 e2 e3 hg hc hl => hv.keep hc hl (fun c => .inl (by show (u.cli c).fut = _; rw [e3])) (fun c => .inl (by show (u.cli c).futures = _; rw [e3]))
      (serving_setStage e1 e2 hg)
  have plain : ∀ u : St, u.call = s.call → u.nCall = s.nCall → u.cli = s.cli → Core h u → Lasts s u → Serve h u :=
    fun u e1 e2 e3 hc hl => hv.keep hc hl (fun c => .inl (by rw [e3])) (fun c => .inl (by rw [e3])) (id3 u e1 e2)
  cases hm with
  | ready i => exact plain _ rfl rfl rfl hc hl
  | fresh k loc =>
    refine hv.keep hc hl (fun _ => .inl rfl) (fun _ => .inl rfl) ?_
    intro i c id b hi hs
    have hi' : i < s.nCall + 1 := hi
    simp only [setCall] at hs
    split at hs
    · cases hs
    · exact ⟨by omega, b, hs⟩
  | early _ _ i g hi hs hg =>
    refine set s i g rfl rfl rfl ?_ hc hl
    rcases hg with rfl | ⟨r, rfl, _⟩ <;> exact fun _ _ _ h => nomatch h
  | dial _ _ i l hi hs hl' hctl => exact set { s with ctl := if (s.call i).kind = .connect then s.ctl.set l none else s.ctl } i _ rfl rfl rfl (fun _ _ _ h => nomatch h) hc hl
  | dialed _ i l hi hs hl' =>
    refine hv.keep hc hl (fun c => ?_) (fun c => ?_) (id3 _ rfl rfl)
    · simp only [Connect.setCli]
      split
      · exact .inr fun _ => rfl
      · exact .inl rfl
    · simp only [Connect.setCli]
      split
      · exact .inr rfl
      · exact .inl rfl
  | ask _ _ i l c hi hs hl' hg =>
    have hcall : ∀ j d id b, ((openVia s i c).call j).stage = .serving d id b → j ≠ i ∧ (s.call j).stage = .serving d id b := by
      intro j d id b hx
      simp only [openVia, setCall] at hx
      split at hx
      · cases hx
      · next hne => exact ⟨hne, hx⟩
    refine ⟨hc, ?_, ?_, ?_⟩
    · intro d n id p hf
      have hf' : (s.cli d).fut n = .result id p := by
        have hf2 : (if d = c then Cli.step (s.cli c) (.request (s.call i).kind i) else s.cli d).fut n = .result id p := hf
        split at hf2
        · next e' =>
          subst e'
          simp only [Cli.step, Cli.request] at hf2
          split at hf2
          · cases hf2
          · exact hf2
        · exact hf2
      refine (hv.fut d n id p hf').imp ?_ (fun x => x)
      rintro ⟨f, g1, g2⟩
      exact ⟨f, hl.asked g1, (hl.kind f g1.1).trans g2⟩
    · intro d id k n hgt
      have hf2 : (if d = c then Cli.step (s.cli c) (.request (s.call i).kind i) else s.cli d).futures.get id = some (k, n) := hgt
      have old : (s.cli d).futures.get id = some (k, n) → ∃ f, Asked (openVia s i c) f d id ∧ ((openVia s i c).call f).kind = k := by
        intro hx
        obtain ⟨f, g1, g2⟩ := hv.kinds d id k n hx
        exact ⟨f, hl.asked g1, (hl.kind f g1.1).trans g2⟩
      split at hf2
      · next e' =>
        subst e'
        simp only [Cli.step, Cli.request] at hf2
        by_cases hid : id = (s.cli d).count + 1
        · subst hid
          rw [Dict.get_set_self] at hf2
          cases hf2
          exact ⟨i, ⟨hi, by simp [openVia, setCall]⟩, by simp [openVia, setCall]⟩
        · rw [Dict.get_set_ne _ _ (fun h => hid h.symm)] at hf2
          exact old hf2
      · exact old hf2
    · intro j d id b hj hx
      obtain ⟨g0, g1⟩ := hcall j d id b hx
      obtain ⟨g3, g4⟩ := hv.stage j d id b hj g1
      exact ⟨(hl.kind j hj).trans g3, g4⟩
  | response _ c id r h1 h2 =>
    exact hv.setCli c (.response id r) (fun _ _ h => nomatch h) (fun id' p hx => by cases hx; exact he) hc hl rfl (id3 _ rfl rfl)
  | spawned _ c id t p h1 h2 =>
    exact hv.setCli c (.spawned id t p) (fun _ _ h => nomatch h) (fun id' p hx => by cases hx) hc hl rfl (id3 _ rfl rfl)
  | announce _ c id t p k f ha => exact plain _ rfl rfl rfl hc hl
  | conn _ p => exact plain _ rfl rfl rfl hc hl
  | data _ n d => exact plain _ rfl rfl rfl hc hl
  | lost _ n => exact plain _ rfl rfl rfl hc hl
  | entry i _ id hh => exact plain _ rfl rfl rfl hc hl
  | enqueue _ i c f id p hi hs hf hcs =>
    exact hv.keep hc hl (fun _ => .inl rfl) (fun _ => .inl rfl) (serving_setStage (u := s) (g := .waiting id) rfl rfl (fun _ _ _ h => nomatch h))
  | proceed _ i c f id p g hi hs hf hg =>
    refine set s i g rfl rfl rfl ?_ hc hl
    rcases hg with ⟨n, _, rfl⟩ | rfl <;> exact fun _ _ _ h => nomatch h
  | serve _ i c f id p hi hs hf hk =>
    refine ⟨hc, ?_, ?_, ?_⟩
    · intro d n id' p' hf'
      refine (hv.fut d n id' p' hf').imp ?_ (fun h => h)
      rintro ⟨f, g1, g2⟩
      exact ⟨f, hl.asked g1, (hl.kind f g1.1).trans g2⟩
    · intro d id' k n hg
      obtain ⟨f, g1, g2⟩ := hv.kinds d id' k n hg
      exact ⟨f, hl.asked g1, (hl.kind f g1.1).trans g2⟩
    · intro j d id' b hj hx
      have hj' : j < s.nCall := hj
      rw [hl.kind j hj']
      simp only [setStage, setCall] at hx
      split at hx
      · next e' =>
        subst e'
        cases hx
        refine ⟨hk, ?_⟩
        have hst : (s.call j).via = some (c, f + 1) := by
          have := hv.core.stage j hi
          unfold StageOk at this
          rw [hs] at this
          exact this
        have hid := hv.core.honest c f id p hf
        subst hid
        rcases hv.fut c f _ p hf with ⟨f', g1, g2⟩ | hm
        · have := asked_one hv.core g1 ⟨hi, hst⟩
          subst this
          rw [hk] at g2
          cases g2
        · exact ⟨p, hm⟩
      · exact hv.stage j d id' b hj' hx
  | refuse _ i c f hi hs hf => exact set s i _ rfl rfl rfl (fun _ _ _ h => nomatch h) hc hl
  | cancel _ i c f hi hs hf =>
    exact hv.setCli c (.cancel f) (fun _ _ h => nomatch h) (fun id' p hx => by cases hx) hc hl rfl
      (serving_setStage (s := s) (u := Connect.setCli s c (Cli.step (s.cli c) (.cancel f))) rfl rfl (fun _ _ _ h => nomatch h))
  | giveUp _ i n hi hs =>
    exact hv.keep hc hl (fun _ => .inl rfl) (fun _ => .inl rfl) (serving_setStage (u := s) (g := .raised .timeout) rfl rfl (fun _ _ _ h => nomatch h))
  | note _ k h1 h2 => exact plain _ rfl rfl rfl hc hl
  | wake _ k i q h1 h2 => exact plain _ rfl rfl rfl hc hl
  | again _ i id hi hs hw hcs => exact plain _ rfl rfl rfl hc hl
  | go _ i id g hi hs hw hg =>
    refine set { s with woken := s.woken.erase i } i g rfl rfl rfl ?_ hc hl
    rcases hg with ⟨n, _, rfl⟩ | rfl <;> exact fun _ _ _ h => nomatch h
  | made _ n ho => exact plain _ rfl rfl rfl hc hl
  | returns _ i n hi hs ho => exact set { s with obs := s.obs.del n } i _ rfl rfl rfl (fun _ _ _ h => nomatch h) hc hl
  | key _ i n hi hs => exact set s i _ rfl rfl rfl (fun _ _ _ h => nomatch h) hc hl
  | ctlLost _ c => exact plain _ rfl rfl rfl hc hl
  | close _ i c id hi hs =>
    refine hv.keep hc hl (fun _ => .inl rfl) (fun _ => .inl rfl) ?_
    intro j d id' b hj hx
    simp only [setStage, setCall] at hx
    split at hx
    · next e' => subst e'; cases hx; exact ⟨hi, false, hs⟩
    · exact ⟨hj, b, hx⟩

theorem Serve.reachable (h : List Ev) : Serve h (exec .init h) :=
  micro_ind Serve .init (fun _ e _ ho => ho.mono e) (fun _ _ _ _ he ho hm => ho.micro he hm) h

end Verif.Connect
