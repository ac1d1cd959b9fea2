import Verif.Lemmas.ConnectorInv
/-! # Lemmas: the requests of a connector, and the announcements its applications stem from -/
namespace Verif.Callback
open Verif.Cli (Kind)

/-- The ports of the connections stay, and new ones come from `conn`. -/
structure Lasts (s s' : St) : Prop where
  nProto : s.nProto ≤ s'.nProto
  port : ∀ n, n < s.nProto → (s'.proto n).port = (s.proto n).port
  out : s.out <+: s'.out

theorem Lasts.refl (s : St) : Lasts s s := ⟨Nat.le_refl _, fun _ _ => rfl, List.prefix_refl _⟩

theorem Lasts.trans {a b c : St} (h : Lasts a b) (h' : Lasts b c) : Lasts a c :=
  ⟨Nat.le_trans h.nProto h'.nProto, fun n hn => (h'.port n (Nat.lt_of_lt_of_le hn h.nProto)).trans (h.port n hn), h.out.trans h'.out⟩

theorem Lasts.tryBuild (s : St) (p : Nat) : Lasts s (tryBuild s p) := by
  have h := tryBuild_same s p
  refine ⟨by rw [h.1]; exact Nat.le_refl _, fun n _ => (h.2 n).2, ?_⟩
  unfold Callback.tryBuild
  split
  · exact List.prefix_append _ _
  · exact List.prefix_refl _

theorem Lasts.step {s : St} (hi : Inv s) (e : Ev) : Lasts s (step s e) ∧
    ((∀ p, e ≠ .conn p) → (step s e).nProto = s.nProto) ∧ (∀ p, e = .conn p → (step s e).nProto = s.nProto + 1 ∧ ((step s e).proto s.nProto).port = p) := by
  obtain ⟨l, h1, _⟩ := step_new hi e
  have hout : s.out <+: (Callback.step s e).out := ⟨l, h1.symm⟩
  cases e with
  | conn p =>
    have h := tryBuild_same { setP s s.nProto ⟨p, false, [], false⟩ with nProto := s.nProto + 1, dataProtocols := s.dataProtocols.set p s.nProto } p
    refine ⟨⟨?_, ?_, hout⟩, fun hx => absurd rfl (hx p), ?_⟩
    · show s.nProto ≤ (Callback.tryBuild _ p).nProto
      rw [h.1]; exact Nat.le_succ _
    · intro n hn
      show ((Callback.tryBuild _ p).proto n).port = _
      rw [(h.2 n).2]
      simp only [setP]
      rw [if_neg (by omega)]
    · rintro _ ⟨⟩
      constructor
      · show (Callback.tryBuild _ p).nProto = _
        rw [h.1]
      · show ((Callback.tryBuild _ p).proto s.nProto).port = _
        rw [(h.2 _).2]
        simp [setP]
  | announce cid k a p =>
    have h := tryBuild_same { s with connectionData := s.connectionData.set p (cid, k, a) } p
    refine ⟨⟨?_, ?_, hout⟩, fun _ => ?_, nofun⟩
    · show s.nProto ≤ (Callback.tryBuild _ p).nProto
      rw [h.1]; exact Nat.le_refl _
    · intro n hn
      show ((Callback.tryBuild _ p).proto n).port = _
      rw [(h.2 n).2]
    · show (Callback.tryBuild _ p).nProto = _
      rw [h.1]
  | data n d =>
    have key : ∀ x : St, x.nProto = s.nProto → (∀ m, (x.proto m).port = (s.proto m).port) → s.out <+: x.out → Lasts s x ∧
        ((∀ p, Ev.data n d ≠ .conn p) → x.nProto = s.nProto) ∧ ∀ p, Ev.data n d = .conn p → x.nProto = s.nProto + 1 ∧ (x.proto s.nProto).port = p :=
      fun x e1 e2 e3 => ⟨⟨by rw [e1]; exact Nat.le_refl _, fun m _ => e2 m, e3⟩, fun _ => e1, nofun⟩
    refine key _ ?_ ?_ hout
    · simp only [Callback.step]
      split
      · unfold data; split <;> rfl
      · rfl
    · intro m
      simp only [Callback.step]
      split
      · unfold data; split
        · rfl
        · simp only [setP]
          split
          · next e => subst e; rfl
          · rfl
      · rfl
  | lost n =>
    refine ⟨⟨?_, ?_, hout⟩, ?_, nofun⟩
    · simp only [Callback.step]
      split
      · unfold lost dataClosed; dsimp only; split
        · split <;> exact Nat.le_refl _
        · exact Nat.le_refl _
      · exact Nat.le_refl _
    · intro m _
      have key : (if m = n then { s.proto n with lost := true } else s.proto m).port = (s.proto m).port := by
        split
        · next e => subst e; rfl
        · rfl
      simp only [Callback.step]
      split
      · unfold lost dataClosed; dsimp only; split
        · split <;> exact key
        · exact key
      · rfl
    · intro _
      simp only [Callback.step]
      split
      · unfold lost dataClosed; dsimp only; split
        · split <;> rfl
        · rfl
      · rfl

/-- A connection that is built has the port of the announcement. -/
theorem step_built {s : St} (hi : Inv s) (e : Ev) {n : Nat} {k : Kind} {a : Nat} (h : Eff.built n k a ∈ (step s e).out) :
    Eff.built n k a ∈ s.out ∨ ∃ cid, (s.connectionData.get ((step s e).proto n).port = some (cid, k, a) ∨ e = .announce cid k a ((step s e).proto n).port) := by
  have build : ∀ (t : St) (p : Nat), (∀ m, t.dataProtocols.get p = some m → (t.proto m).port = p) → Eff.built n k a ∈ (tryBuild t p).out → Eff.built n k a ∈ t.out ∨
      ((tryBuild t p).proto n).port = p ∧ ∃ cid, t.connectionData.get p = some (cid, k, a) := by
    intro t p hp hm
    rw [((tryBuild_same t p).2 n).2]
    unfold tryBuild at hm
    split at hm
    · next cid k' app x hg hd =>
      have hm' : Eff.built n k a ∈ t.out ++ .built x k' app :: (t.proto x).backlog.map (.push x) := hm
      rcases List.mem_append.mp hm' with hm' | hm'
      · exact .inl hm'
      · simp only [List.mem_cons, Eff.built.injEq, List.mem_map] at hm'
        rcases hm' with ⟨rfl, rfl, rfl⟩ | ⟨_, _, hx⟩
        · exact .inr ⟨hp _ hd, cid, hg⟩
        · cases hx
    · exact .inl hm
  cases e with
  | conn p =>
    have hp : ∀ m, (s.dataProtocols.set p s.nProto).get p = some m → ((setP s s.nProto ⟨p, false, [], false⟩).proto m).port = p := by
      intro m hm'
      rw [Dict.get_set_self] at hm'
      cases hm'
      simp [setP]
    rcases build { setP s s.nProto ⟨p, false, [], false⟩ with nProto := s.nProto + 1, dataProtocols := s.dataProtocols.set p s.nProto } p hp h with h | ⟨h1, cid, h2⟩
    · exact .inl h
    · right
      refine ⟨cid, .inl ?_⟩
      rw [show ((step s (.conn p)).proto n).port = p from h1]
      exact h2
  | announce cid k' a' p =>
    rcases build { s with connectionData := s.connectionData.set p (cid, k', a') } p (fun m hm => (hi.dat p m hm).2.1) h with h | ⟨h1, cid', h2⟩
    · exact .inl h
    · right
      have h2' : (s.connectionData.set p (cid, k', a')).get p = some (cid', k, a) := h2
      rw [Dict.get_set_self] at h2'
      cases h2'
      refine ⟨cid, .inr ?_⟩
      rw [show ((step s (.announce cid k a p)).proto n).port = p from h1]
  | data m d =>
    left
    simp only [step] at h
    split at h
    · unfold data at h
      split at h
      · simpa using h
      · exact h
    · exact h
  | lost m =>
    left
    simp only [step] at h
    split at h
    · unfold lost dataClosed at h
      dsimp only at h
      split at h
      · split at h <;> simpa [setP] using h
      · simpa [setP] using h
    · exact h

end Verif.Callback

namespace Verif.Connect
open Verif.Cli (Kind)

/-- Calls stay what they are. -/
structure Lasts (s s' : St) : Prop where
  nCall : s.nCall ≤ s'.nCall
  nCli : s.nCli ≤ s'.nCli
  kind : ∀ i, i < s.nCall → (s'.call i).kind = (s.call i).kind
  via : ∀ i x, i < s.nCall → (s.call i).via = some x → (s'.call i).via = some x
  cb : Callback.Lasts s.cb s'.cb

theorem Lasts.refl (s : St) : Lasts s s := ⟨Nat.le_refl _, Nat.le_refl _, fun _ _ => rfl, fun _ _ _ h => h, .refl _⟩

theorem Lasts.trans {a b c : St} (h : Lasts a b) (h' : Lasts b c) : Lasts a c :=
  ⟨Nat.le_trans h.nCall h'.nCall, Nat.le_trans h.nCli h'.nCli, fun i hi => (h'.kind i (Nat.lt_of_lt_of_le hi h.nCall)).trans (h.kind i hi),
    fun i x hi hx => h'.via i x (Nat.lt_of_lt_of_le hi h.nCall) (h.via i x hi hx), h.cb.trans h'.cb⟩

theorem Lasts.asked {s s' : St} (h : Lasts s s') {i c id : Nat} (ha : Asked s i c id) : Asked s' i c id :=
  ⟨Nat.lt_of_lt_of_le ha.1 h.nCall, h.via i _ ha.1 ha.2⟩

theorem Lasts.runsFor {s s' : St} (h : Lasts s s') {n f : Nat} (ha : RunsFor s n f) : RunsFor s' n f := by
  obtain ⟨k, hk⟩ := ha
  exact ⟨k, h.cb.out.subset hk⟩

theorem Lasts.same {s s' : St} (e1 : s'.nCall = s.nCall) (e2 : s'.nCli = s.nCli) (e3 : s'.call = s.call) (e4 : s'.cb = s.cb) : Lasts s s' :=
  ⟨by rw [e1]; exact Nat.le_refl _, by rw [e2]; exact Nat.le_refl _, fun i _ => by rw [e3], fun i x _ h => by rw [e3]; exact h, by rw [e4]; exact .refl _⟩

theorem Lasts.setStage {s s' : St} (h : Lasts s s') (i : Nat) (g : Stage) : Lasts s (setStage s' i g) := by
  refine h.trans ⟨Nat.le_refl _, Nat.le_refl _, fun j hj => ?_, fun j x hj hx => ?_, .refl _⟩
  · simp only [Connect.setStage, setCall]
    split
    · next e => subst e; rfl
    · rfl
  · simp only [Connect.setStage, setCall]
    split
    · next e => subst e; exact hx
    · exact hx

theorem Lasts.absorb {s : St} (hi : Callback.Inv s.cb) (e : Callback.Ev) : Lasts s (absorb s e) :=
  ⟨Nat.le_refl _, Nat.le_refl _, fun _ _ => rfl, fun _ _ _ h => h, (Callback.Lasts.step hi e).1⟩

theorem Lasts.micro {h : List Ev} {e : Ev} {s t : St} (hc : Core h s) (hm : Micro e s t) : Lasts s t := by
  cases hm with
  | ready i => exact .same rfl rfl rfl rfl
  | fresh k loc =>
    refine ⟨Nat.le_succ _, Nat.le_refl _, fun i hi => ?_, fun i x hi hx => ?_, .refl _⟩
    · simp only [setCall]; rw [if_neg (by omega)]
    · simp only [setCall]; rw [if_neg (by omega)]; exact hx
  | early _ _ i g hi hs hg => exact (Lasts.refl s).setStage i g
  | dial _ _ i l hi hs hl hctl =>
    exact Lasts.setStage (s := s) (s' := { s with ctl := if (s.call i).kind = .connect then s.ctl.set l none else s.ctl }) (.same rfl rfl rfl rfl) i _
  | dialed _ i l hi hs hl => exact ⟨Nat.le_refl _, Nat.le_succ _, fun _ _ => rfl, fun _ _ _ h => h, .refl _⟩
  | ask _ _ i l c hi hs hl hg =>
    have hv := early_via (hc.stage i hi) hs
    refine ⟨Nat.le_refl _, Nat.le_refl _, fun j hj => ?_, fun j x hj hx => ?_, .refl _⟩
    · simp only [openVia, setCall, setCli]
      split
      · next e => subst e; rfl
      · rfl
    · simp only [openVia, setCall, setCli]
      split
      · next e => subst e; rw [hv] at hx; cases hx
      · exact hx
  | response _ c id r h1 h2 => exact .same rfl rfl rfl rfl
  | spawned _ c id t p h1 h2 => exact .same rfl rfl rfl rfl
  | announce _ c id t p k f ha => exact .absorb hc.cbi _
  | conn _ p => exact .absorb hc.cbi _
  | data _ n d => exact .absorb hc.cbi _
  | lost _ n => exact .absorb hc.cbi _
  | entry i _ id hh => exact ⟨Nat.le_refl _, Nat.le_refl _, fun _ _ => rfl, fun _ _ _ h => h, Nat.le_refl _, fun _ _ => rfl, List.prefix_refl _⟩
  | enqueue _ i c f id p hi hs hf hcs => exact Lasts.trans ((Lasts.refl s).setStage i (.waiting id)) (.same rfl rfl rfl rfl)
  | proceed _ i c f id p g hi hs hf hg => exact (Lasts.refl s).setStage i g
  | serve _ i c f id p hi hs hf hk => exact (Lasts.refl s).setStage i _
  | refuse _ i c f hi hs hf => exact (Lasts.refl s).setStage i _
  | cancel _ i c f hi hs hf => exact Lasts.setStage (s := s) (s' := setCli s c (Cli.step (s.cli c) (.cancel f))) (.same rfl rfl rfl rfl) i _
  | giveUp _ i n hi hs => exact Lasts.trans ((Lasts.refl s).setStage i (.raised .timeout)) (.same rfl rfl rfl rfl)
  | note _ k h1 h2 => exact .same rfl rfl rfl rfl
  | wake _ k i q h1 h2 => exact .same rfl rfl rfl rfl
  | again _ i id hi hs hw hcs => exact .same rfl rfl rfl rfl
  | go _ i id g hi hs hw hg => exact Lasts.setStage (s := s) (s' := { s with woken := s.woken.erase i }) (.same rfl rfl rfl rfl) i _
  | made _ n ho => exact .same rfl rfl rfl rfl
  | returns _ i n hi hs ho => exact Lasts.setStage (s := s) (s' := { s with obs := s.obs.del n }) (.same rfl rfl rfl rfl) i _
  | key _ i n hi hs => exact (Lasts.refl s).setStage i _
  | ctlLost _ c => exact .same rfl rfl rfl rfl
  | close _ i c id hi hs => exact Lasts.trans ((Lasts.refl s).setStage i (.serving c id true)) (.same rfl rfl rfl rfl)

theorem Lasts.micros {h : List Ev} {e : Ev} {s t : St} (he : e ∈ h) (hc : Core h s) (hm : Micros e s t) : Core h t ∧ Lasts s t := by
  induction hm with
  | refl => exact ⟨hc, .refl _⟩
  | tail _ h3 ih => exact ⟨ih.1.micro he h3, ih.2.trans (.micro ih.1 h3)⟩

theorem Core.step {h : List Ev} {s : St} (hc : Core h s) (e : Ev) : Core (h ++ [e]) (step s e) ∧ Lasts s (step s e) :=
  Lasts.micros (by simp) (hc.mono e) (step_micro s e)

/-- Requests and applications stem from calls and announcements. -/
structure Origin (h : List Ev) (s : St) : Prop where
  core : Core h s
  req : ∀ c id k, Cli.Eff.request id k ∈ (s.cli c).out → ∃ f, Asked s f c id ∧ (s.call f).kind = k
  dat : ∀ p cid k f, s.cb.connectionData.get p = some (cid, k, f) → ∃ c sp, Ev.spawned c cid p sp ∈ h ∧ Asked s f c cid
  built : ∀ n f, RunsFor s n f → ∃ c id sp, Ev.spawned c id (s.cb.proto n).port sp ∈ h ∧ Asked s f c id

theorem Origin.init : Origin [] .init :=
  ⟨.init, fun _ _ _ h => (by cases h), fun _ _ _ _ h => (by cases h), fun _ _ h => (by obtain ⟨k, hk⟩ := h; cases hk)⟩

/-- Nothing that matters changes. -/
theorem Origin.keep {h : List Ev} {s t : St} (ho : Origin h s) (hc : Core h t) (hl : Lasts s t)
    (h1 : ∀ c id k, Cli.Eff.request id k ∈ (t.cli c).out → Cli.Eff.request id k ∈ (s.cli c).out) (h2 : t.cb.connectionData = s.cb.connectionData)
    (h3 : t.cb.out = s.cb.out) : Origin h t where
  core := hc
  req := fun c id k hm => by
    obtain ⟨f, g1, g2⟩ := ho.req c id k (h1 c id k hm)
    exact ⟨f, hl.asked g1, (hl.kind f g1.1).trans g2⟩
  dat := fun p cid k f hg => by
    rw [h2] at hg
    obtain ⟨c, sp, g1, g2⟩ := ho.dat p cid k f hg
    exact ⟨c, sp, g1, hl.asked g2⟩
  built := fun n f hr => by
    have hr' : RunsFor s n f := by obtain ⟨k, hk⟩ := hr; rw [h3] at hk; exact ⟨k, hk⟩
    obtain ⟨c, id, sp, g1, g2⟩ := ho.built n f hr'
    obtain ⟨k, hk⟩ := hr'
    obtain ⟨ds, hg⟩ := ho.core.good n
    exact ⟨c, id, sp, by rw [hl.cb.port n (hg.built_made hk).1]; exact g1, hl.asked g2⟩

theorem Origin.absorb {h : List Ev} {s : St} (ho : Origin h s) (e : Callback.Ev) (hc : Core h (absorb s e))
    (he : ∀ cid k f p, e = .announce cid k f p → ∃ c sp, Ev.spawned c cid p sp ∈ h ∧ Asked s f c cid) : Origin h (absorb s e) := by
  obtain ⟨l, h1, h2, _⟩ := Callback.step_new ho.core.cbi e
  have hl := Lasts.absorb ho.core.cbi e
  have hsrc : ∀ p cid k f, (s.cb.connectionData.get p = some (cid, k, f) ∨ e = .announce cid k f p) → ∃ c sp, Ev.spawned c cid p sp ∈ h ∧ Asked s f c cid := by
    rintro p cid k f (hx | hx)
    · exact ho.dat p cid k f hx
    · exact he _ _ _ _ hx
  refine ⟨hc, ho.req, ?_, ?_⟩
  · intro p cid k f hg
    rcases h2 p _ hg with hg | ⟨cid', k', f', h7, h8⟩
    · exact hsrc p cid k f (.inl hg)
    · cases h8; exact hsrc p cid k f (.inr h7)
  · rintro n f ⟨k, hk⟩
    rcases Callback.step_built ho.core.cbi e hk with hk | ⟨cid, hk⟩
    · obtain ⟨c, id, sp, g1, g2⟩ := ho.built n f ⟨k, hk⟩
      obtain ⟨ds, hg⟩ := ho.core.good n
      exact ⟨c, id, sp, by rw [hl.cb.port n (hg.built_made hk).1]; exact g1, g2⟩
    · obtain ⟨c, sp, g1, g2⟩ := hsrc _ cid k f hk
      exact ⟨c, cid, sp, g1, g2⟩

theorem cli_requests (s : Cli.St) (e : Cli.Ev) (he : ∀ k f, e ≠ .request k f) {id : Nat} {k : Kind} (hm : Cli.Eff.request id k ∈ (Cli.step s e).out) :
    Cli.Eff.request id k ∈ s.out := by
  have res : ∀ (y : Cli.St) n v, Cli.Eff.request id k ∈ (Cli.resolve y n v).out → Cli.Eff.request id k ∈ y.out := by
    intro y n v hx
    obtain ⟨l, h1, h2⟩ := Cli.resolve_out y n v
    rw [h1] at hx
    rcases List.mem_append.mp hx with hx | hx
    · exact hx
    · cases h2 _ hx
  cases e with
  | request k f => exact absurd rfl (he k f)
  | response id' r =>
    simp only [Cli.step, Cli.response] at hm
    split at hm
    · exact hm
    · next k' n hg =>
      cases r with
      | failure c => exact res { s with futures := s.futures.del id' } _ _ hm
      | port p =>
        cases k' with
        | listen => exact res { s with futures := s.futures.del id' } _ _ hm
        | connect => exact hm
  | spawned id' t p =>
    simp only [Cli.step, Cli.spawned] at hm
    split at hm
    · simpa [Cli.St.emit] using hm
    · split at hm
      · have := res _ _ _ hm; simpa [Cli.St.emit] using this
      · simpa [Cli.St.emit] using hm
      · simpa [Cli.St.emit] using hm
  | cancel n =>
    simp only [Cli.step] at hm
    split at hm
    · split at hm <;> exact hm
    · exact hm

theorem Origin.micro {h : List Ev} {e : Ev} {s t : St} (he : e ∈ h) (ho : Origin h s) (hm : Micro e s t) : Origin h t := by
  have hc := ho.core.micro he hm
  have hl := Lasts.micro ho.core hm
  have set : ∀ c (x : Cli.Ev), (∀ k f, x ≠ .request k f) → ∀ d id k, Cli.Eff.request id k ∈ ((setCli s c (Cli.step (s.cli c) x)).cli d).out → Cli.Eff.request id k ∈ (s.cli d).out := by
    intro c x hx d id k hm
    simp only [setCli] at hm
    split at hm
    · next e => subst e; exact cli_requests _ _ hx hm
    · exact hm
  cases hm with
  | announce _ c id t p k f ha =>
    refine ho.absorb _ hc ?_
    intro cid k' f' p' hx
    cases hx
    exact ⟨c, p, he, (ho.core.apps _ _ _).mp ha⟩
  | conn _ p => exact ho.absorb _ hc (fun _ _ _ _ h => nomatch h)
  | data _ n d => exact ho.absorb _ hc (fun _ _ _ _ h => nomatch h)
  | lost _ n => exact ho.absorb _ hc (fun _ _ _ _ h => nomatch h)
  | dialed _ i l hi hs hl' =>
    refine ho.keep hc hl ?_ rfl rfl
    intro c id k hm
    simp only [setCli] at hm
    split at hm
    · cases hm
    · exact hm
  | ask _ _ i l c hi hs hl' hg =>
    have h1 : Origin h (openVia s i c) := by
      refine ⟨hc, ?_, fun p cid k f hg => ?_, fun n f hr => ?_⟩
      · intro d id k hm
        have hm' : Cli.Eff.request id k ∈ (if d = c then Cli.step (s.cli c) (.request (s.call i).kind i) else s.cli d).out := hm
        split at hm'
        · next e =>
          subst e
          have hm2 : Cli.Eff.request id k ∈ (s.cli d).out ++ [.request ((s.cli d).count + 1) (s.call i).kind] := hm'
          rcases List.mem_append.mp hm2 with hm2 | hm2
          · obtain ⟨f, g1, g2⟩ := ho.req d id k hm2
            exact ⟨f, hl.asked g1, (hl.kind f g1.1).trans g2⟩
          · simp only [List.mem_singleton, Cli.Eff.request.injEq] at hm2
            refine ⟨i, ⟨hi, ?_⟩, ?_⟩
            · simp [openVia, setCall, hm2.1]
            · simp [openVia, setCall, hm2.2]
        · obtain ⟨f, g1, g2⟩ := ho.req d id k hm'
          exact ⟨f, hl.asked g1, (hl.kind f g1.1).trans g2⟩
      · obtain ⟨c, sp, g1, g2⟩ := ho.dat p cid k f hg
        exact ⟨c, sp, g1, hl.asked g2⟩
      · obtain ⟨c, id, sp, g1, g2⟩ := ho.built n f hr
        exact ⟨c, id, sp, g1, hl.asked g2⟩
    exact h1
  | response _ c id r h1 h2 => exact ho.keep hc hl (set c _ (fun _ _ h => nomatch h)) rfl rfl
  | spawned _ c id t p h1 h2 => exact ho.keep hc hl (set c _ (fun _ _ h => nomatch h)) rfl rfl
  | cancel _ i c f hi hs hf => exact ho.keep hc hl (set c _ (fun _ _ h => nomatch h)) rfl rfl
  | _ => exact ho.keep hc hl (fun _ _ _ h => h) rfl rfl

theorem Origin.mono {h : List Ev} {s : St} (ho : Origin h s) (e : Ev) : Origin (h ++ [e]) s where
  core := ho.core.mono e
  req := ho.req
  dat := fun p cid k f hg => by obtain ⟨c, sp, g1, g2⟩ := ho.dat p cid k f hg; exact ⟨c, sp, by simp [g1], g2⟩
  built := fun n f hr => by obtain ⟨c, id, sp, g1, g2⟩ := ho.built n f hr; exact ⟨c, id, sp, by simp [g1], g2⟩

theorem Origin.step {h : List Ev} {s : St} (ho : Origin h s) (e : Ev) : Origin (h ++ [e]) (step s e) := by
  have hm := step_micro s e
  have ho' := ho.mono e
  generalize Connect.step s e = t at hm
  induction hm with
  | refl => exact ho'
  | tail _ hx ih => exact ih.micro (by simp) hx

theorem Origin.reachable (h : List Ev) : Origin h (exec .init h) :=
  micro_ind Origin .init (fun _ e _ ho => ho.mono e) (fun _ _ _ _ he ho hm => ho.micro he hm) h

end Verif.Connect
