import Verif.Lemmas.Connector
/-! # The invariant of the connector -/
namespace Verif.Connect
open Verif.Cli (Kind)

/-- The application on `n` belongs to a call with the same connection id as the call `c`. -/
def Mine (s : St) (c : Call) (n : Nat) : Prop := ∃ d id f d', c.via = some (d, id) ∧ RunsFor s n f ∧ Asked s f d' id

def StageOk (h : List Ev) (s : St) (c : Call) : Prop := match c.stage with
  | .service => c.via = none
  | .dialing => c.via = none
  | .polling => c.via = none
  | .opening d f => c.via = some (d, f + 1)
  | .waiting id => ∃ d, c.via = some (d, id)
  | .making n => Mine s c n
  | .returned n => Mine s c n ∧ Ev.made n ∈ h
  | .serving d id _ => c.via = some (d, id)
  | .raised _ => True

structure Core (h : List Ev) (s : St) : Prop where
  cli : ∀ c, Cli.Inv (s.cli c)
  honest : ∀ c, Cli.Honest (s.cli c)
  cbi : Callback.Inv s.cb
  good : ∀ n, ∃ ds, Callback.Good s.cb n ds
  ctl : ∀ l c, s.ctl.get l = some (some c) → c < s.nCli
  apps : ∀ c id f, (s.cli c).apps.get id = some f ↔ Asked s f c id
  low : ∀ i c id, Asked s i c id → c < s.nCli
  data : ∀ p cid k f, s.cb.connectionData.get p = some (cid, k, f) → ∃ c, Asked s f c cid
  spawn : ∀ id n, n ∈ Callback.conns s.cb id → ∃ f c, RunsFor s n f ∧ Asked s f c id
  live : ∀ n f, RunsFor s n f → ∃ c id, Asked s f c id ∧ (n ∈ Callback.conns s.cb id ∨ (s.cb.proto n).lost = true)
  stage : ∀ i, i < s.nCall → StageOk h s (s.call i)
  obswf : Dict.WF s.obs
  obs : ∀ n, s.obs.get n = some true → Ev.made n ∈ h

theorem StageOk.mono {h h' : List Ev} {s s' : St} {c : Call} (hh : ∀ e ∈ h, e ∈ h')
    (ha : ∀ i c id, Asked s i c id → Asked s' i c id) (hr : ∀ n f, RunsFor s n f → RunsFor s' n f) (h1 : StageOk h s c) :
    StageOk h' s' c := by
  have hm : ∀ n, Mine s c n → Mine s' c n := by
    rintro n ⟨d, id, f, d', h1, h2, h3⟩
    exact ⟨d, id, f, d', h1, hr _ _ h2, ha _ _ _ h3⟩
  unfold StageOk at h1 ⊢
  split <;> simp_all

theorem Core.init : Core [] .init where
  cli := fun _ => Cli.Inv.init
  honest := fun _ => Cli.Honest.init
  cbi := Callback.Inv.init
  good := fun _ => ⟨[], fun _ => ⟨rfl, rfl⟩, fun h => by simp [St.init, Callback.St.init] at h, fun h => by simp [St.init, Callback.St.init] at h⟩
  ctl := fun l c h => by simp [St.init] at h
  apps := fun c id f => by simp [St.init, Cli.St.init, Asked]
  low := fun i c id h => by simp [St.init, Asked] at h
  data := fun p cid k f h => by simp [St.init, Callback.St.init] at h
  spawn := fun id n h => by simp [St.init, Callback.St.init, Callback.conns] at h
  live := fun n f h => by simp [St.init, Callback.St.init, RunsFor] at h
  stage := fun i h => by simp [St.init] at h
  obswf := Dict.WF.nil
  obs := fun n h => by simp [St.init] at h

theorem Core.mono {h : List Ev} {s : St} (hc : Core h s) (e : Ev) : Core (h ++ [e]) s :=
  { hc with stage := fun i hi => (hc.stage i hi).mono (fun _ hm => by simp [hm]) (fun _ _ _ x => x) (fun _ _ x => x)
            obs := fun n hn => by simp [hc.obs n hn] }

/-- Parts that the invariant does not mention. -/
theorem Core.congr {h : List Ev} {s t : St} (hc : Core h s) (e1 : t.ctl = s.ctl) (e2 : t.cli = s.cli) (e3 : t.nCli = s.nCli)
    (e4 : t.cb = s.cb) (e5 : t.obs = s.obs) (e6 : t.call = s.call) (e7 : t.nCall = s.nCall) : Core h t := by
  obtain ⟨t1, t2, t3, t4, t5, t6, t7, t8, t9, t10, t11, t12, t13⟩ := t
  dsimp only at e1 e2 e3 e4 e5 e6 e7
  subst e1 e2 e3 e4 e5 e6 e7
  exact ⟨hc.cli, hc.honest, hc.cbi, hc.good, hc.ctl, hc.apps, hc.low, hc.data, hc.spawn, hc.live, hc.stage, hc.obswf, hc.obs⟩

theorem asked_setStage (s : St) (i : Nat) (g : Stage) (j c id : Nat) : Asked (setStage s i g) j c id ↔ Asked s j c id := by
  unfold Asked setStage setCall
  dsimp only
  by_cases h : j = i
  · subst h; rw [if_pos rfl]
  · rw [if_neg h]

theorem Core.setStage {h : List Ev} {s : St} (hc : Core h s) (i : Nat) (g : Stage)
    (hg : i < s.nCall → StageOk h s { s.call i with stage := g }) : Core h (setStage s i g) where
  cli := hc.cli
  honest := hc.honest
  cbi := hc.cbi
  good := hc.good
  ctl := hc.ctl
  apps := fun c id f => (hc.apps c id f).trans (asked_setStage ..).symm
  low := fun j c id hj => hc.low j c id ((asked_setStage ..).mp hj)
  data := fun p cid k f hd => (hc.data p cid k f hd).imp fun c hx => (asked_setStage ..).mpr hx
  spawn := fun id n hn => by
    obtain ⟨f, c, h1, h2⟩ := hc.spawn id n hn
    exact ⟨f, c, h1, (asked_setStage ..).mpr h2⟩
  live := fun n f hn => by
    obtain ⟨c, id, h1, h2⟩ := hc.live n f hn
    exact ⟨c, id, (asked_setStage ..).mpr h1, h2⟩
  stage := fun j hj => by
    have hm : ∀ c, StageOk h s c → StageOk h (Connect.setStage s i g) c := fun c hx =>
      hx.mono (fun _ hm => hm) (fun j c id hx => (asked_setStage ..).mpr hx) (fun _ _ hx => hx)
    show StageOk h _ (if j = i then { s.call i with stage := g } else s.call j)
    split
    · next e => subst e; exact hm _ (hg hj)
    · exact hm _ (hc.stage j hj)
  obswf := hc.obswf
  obs := hc.obs

/-- Changes of the state of a control protocol that leave its factories. -/
theorem Core.setCli {h : List Ev} {s : St} (hc : Core h s) (c : Nat) (x : Cli.St) (h1 : Cli.Inv x) (h2 : Cli.Honest x)
    (h3 : x.apps = (s.cli c).apps) : Core h (setCli s c x) where
  cli := fun d => by
    show Cli.Inv (if d = c then x else s.cli d)
    split
    · exact h1
    · exact hc.cli d
  honest := fun d => by
    show Cli.Honest (if d = c then x else s.cli d)
    split
    · exact h2
    · exact hc.honest d
  cbi := hc.cbi
  good := hc.good
  ctl := hc.ctl
  apps := fun d id f => by
    have : ((Connect.setCli s c x).cli d).apps = (s.cli d).apps := by
      show (if d = c then x else s.cli d).apps = _
      split
      · next e => rw [e]; exact h3
      · rfl
    rw [this]; exact hc.apps d id f
  low := hc.low
  data := hc.data
  spawn := hc.spawn
  live := hc.live
  stage := hc.stage
  obswf := hc.obswf
  obs := hc.obs

theorem foldl_wf (l : List Nat) : ∀ (d : Dict Nat Bool), Dict.WF d → Dict.WF (l.foldl (fun d n => d.set n false) d) := by
  induction l with
  | nil => intro d h; exact h
  | cons n l ih => intro d h; exact ih _ (h.set _ _)

theorem foldl_get (l : List Nat) : ∀ (d : Dict Nat Bool) (n : Nat), (l.foldl (fun d n => d.set n false) d).get n =
    if n ∈ l then some false else d.get n := by
  induction l with
  | nil => intro d n; simp
  | cons m l ih =>
    intro d n
    rw [List.foldl_cons, ih]
    by_cases h1 : n ∈ l
    · simp [h1]
    · rw [if_neg h1, Dict.get_set]
      by_cases h2 : m = n
      · subst h2; simp
      · rw [if_neg h2, if_neg (by simp [h1, Ne.symm h2])]

/-- The connections built by an event. -/
def fresh (s : St) (e : Callback.Ev) : List Nat := ((Callback.step s.cb e).out.drop s.cb.out.length).filterMap built

theorem mem_fresh {s : St} {e : Callback.Ev} {l : List Callback.Eff} (hl : (Callback.step s.cb e).out = s.cb.out ++ l) {n : Nat} :
    n ∈ fresh s e ↔ ∃ k a, Callback.Eff.built n k a ∈ l := by
  unfold fresh
  rw [hl, List.drop_left, List.mem_filterMap]
  constructor
  · rintro ⟨x, hx, hb⟩
    cases x with
    | built m k a => simp only [built, Option.some.injEq] at hb; subst hb; exact ⟨k, a, hx⟩
    | _ => simp [built] at hb
  · rintro ⟨k, a, hx⟩
    exact ⟨_, hx, rfl⟩

theorem Core.absorb {h : List Ev} {s : St} (hc : Core h s) (e : Callback.Ev)
    (he : ∀ cid k f p, e = .announce cid k f p → ∃ c, Asked s f c cid) : Core h (absorb s e) := by
  obtain ⟨l, h1, h2, h3, h4, h5, h6⟩ := Callback.step_new hc.cbi e
  have hr : ∀ n f, RunsFor s n f → RunsFor (Connect.absorb s e) n f := by
    rintro n f ⟨k, hk⟩
    refine ⟨k, ?_⟩
    show _ ∈ (Callback.step s.cb e).out
    rw [h1]; simp [hk]
  have hsrc : ∀ cid k f, ((∃ q, s.cb.connectionData.get q = some (cid, k, f)) ∨ ∃ q, e = .announce cid k f q) → ∃ c, Asked s f c cid := by
    intro cid k f hx
    rcases hx with ⟨q, hx⟩ | ⟨q, hx⟩
    · exact hc.data q cid k f hx
    · exact he cid k f q hx
  refine ⟨hc.cli, hc.honest, hc.cbi.step e, ?_, hc.ctl, hc.apps, hc.low, ?_, ?_, ?_, ?_, ?_, ?_⟩
  · intro n
    obtain ⟨ds, hg⟩ := hc.good n
    exact ⟨_, hg.step hc.cbi e⟩
  · intro p cid k f hd
    rcases h2 p _ hd with hd | ⟨cid', k', f', h7, h8⟩
    · exact hsrc cid k f (.inl ⟨p, hd⟩)
    · cases h8; exact hsrc cid k f (.inr ⟨p, h7⟩)
  · intro id n hn
    rcases h3 n id hn with hn | ⟨k, a, q, h7, h8⟩
    · obtain ⟨f, c, g1, g2⟩ := hc.spawn id n hn
      exact ⟨f, c, hr _ _ g1, g2⟩
    · obtain ⟨c, hx⟩ := hsrc id k a (h8.imp (fun x => ⟨q, x⟩) (fun x => ⟨q, x⟩))
      refine ⟨a, c, ⟨k, ?_⟩, hx⟩
      show _ ∈ (Callback.step s.cb e).out
      rw [h1]; simp [h7]
  · rintro n f ⟨k, hk⟩
    have hk' : Callback.Eff.built n k f ∈ s.cb.out ++ l := by rw [← h1]; exact hk
    rcases List.mem_append.mp hk' with hk' | hk'
    · obtain ⟨c, id, g1, g2⟩ := hc.live n f ⟨k, hk'⟩
      refine ⟨c, id, g1, ?_⟩
      rcases g2 with g2 | g2
      · rcases h4 n id g2 with g2 | ⟨_, g2⟩
        · exact .inl g2
        · exact .inr g2
      · obtain ⟨ds, hg⟩ := hc.good n
        exact .inr (h6 n (hg.built_made hk').1 g2)
    · obtain ⟨cid, g1, q, g2⟩ := h5 n k f hk'
      obtain ⟨c, hx⟩ := hsrc cid k f (g2.imp (fun x => ⟨q, x⟩) (fun x => ⟨q, x⟩))
      exact ⟨c, cid, hx, .inl g1⟩
  · intro i hi
    exact StageOk.mono (s := s) (fun _ hm => hm) (fun _ _ _ x => x) hr (hc.stage i hi)
  · exact foldl_wf _ _ hc.obswf
  · intro n hn
    have hn' : ((fresh s e).foldl (fun d n => d.set n false) s.obs).get n = some true := hn
    rw [foldl_get] at hn'
    split at hn'
    · cases hn'
    · exact hc.obs n hn'

theorem early_via {h : List Ev} {s : St} {c : Call} (hs : StageOk h s c) (he : Early c.stage) : c.via = none := by
  unfold StageOk at hs
  revert hs he
  cases c.stage <;> simp_all [Early]

theorem Core.ask {h : List Ev} {s : St} (hc : Core h s) (i c : Nat) (hi : i < s.nCall) (he : Early (s.call i).stage) (hn : c < s.nCli) :
    Core h (openVia s i c) := by
  have hv := early_via (hc.stage i hi) he
  have hno : ∀ d id, ¬ Asked s i d id := by
    rintro d id ⟨_, hx⟩; rw [hv] at hx; cases hx
  have hask : ∀ j d id, Asked (openVia s i c) j d id ↔ Asked s j d id ∨ (j = i ∧ d = c ∧ id = (s.cli c).count + 1) := by
    intro j d id
    unfold Asked openVia setCall Connect.setCli
    dsimp only
    by_cases hj : j = i
    · subst hj
      rw [if_pos rfl, hv]
      simp [hi]
      constructor
      · rintro ⟨rfl, rfl⟩; exact ⟨rfl, rfl⟩
      · rintro ⟨rfl, rfl⟩; exact ⟨rfl, rfl⟩
    · rw [if_neg hj]; simp [hj]
  have hup : ∀ j d id, Asked s j d id → Asked (openVia s i c) j d id := fun j d id hx => (hask j d id).mpr (.inl hx)
  refine ⟨?_, ?_, hc.cbi, hc.good, hc.ctl, ?_, ?_, ?_, ?_, ?_, ?_, hc.obswf, hc.obs⟩
  · intro d
    show Cli.Inv (if d = c then _ else s.cli d)
    split
    · exact (hc.cli c).step _
    · exact hc.cli d
  · intro d
    show Cli.Honest (if d = c then _ else s.cli d)
    split
    · exact (hc.honest c).step (hc.cli c) _
    · exact hc.honest d
  · intro d id f
    rw [hask]
    show (if d = c then Cli.step (s.cli c) (.request (s.call i).kind i) else s.cli d).apps.get id = some f ↔ _
    by_cases hd : d = c
    · subst hd
      rw [if_pos rfl]
      show ((s.cli d).apps.set ((s.cli d).count + 1) i).get id = some f ↔ _
      rw [Dict.get_set]
      by_cases hid : (s.cli d).count + 1 = id
      · subst hid
        rw [if_pos rfl]
        constructor
        · intro hx; cases hx; exact .inr ⟨rfl, rfl, rfl⟩
        · rintro (hx | ⟨hx, _⟩)
          · have := ((hc.cli d).apps _).mp ⟨f, (hc.apps d _ f).mpr hx⟩
            omega
          · rw [hx]
      · rw [if_neg hid, hc.apps]
        constructor
        · exact .inl
        · rintro (hx | ⟨_, _, hx⟩)
          · exact hx
          · exact absurd hx.symm hid
    · rw [if_neg hd, hc.apps]
      constructor
      · exact .inl
      · rintro (hx | ⟨_, hx, _⟩)
        · exact hx
        · exact absurd hx hd
  · intro j d id hx
    rcases (hask j d id).mp hx with hx | ⟨_, rfl, _⟩
    · exact hc.low j d id hx
    · exact hn
  · intro p cid k f hd
    exact (hc.data p cid k f hd).imp fun _ hx => hup _ _ _ hx
  · intro id n hm
    obtain ⟨f, d, g1, g2⟩ := hc.spawn id n hm
    exact ⟨f, d, g1, hup _ _ _ g2⟩
  · intro n f hm
    obtain ⟨d, id, g1, g2⟩ := hc.live n f hm
    exact ⟨d, id, hup _ _ _ g1, g2⟩
  · intro j hj
    have hm : ∀ x, StageOk h s x → StageOk h (openVia s i c) x := fun x hx =>
      hx.mono (fun _ hm => hm) hup (fun _ _ hx => hx)
    show StageOk h _ (if j = i then _ else s.call j)
    split
    · show some (c, (s.cli c).count + 1) = some (c, (s.cli c).nFut + 1)
      rw [(hc.cli c).cnt]
    · exact hm _ (hc.stage j hj)

theorem Core.dialed {h : List Ev} {s : St} (hc : Core h s) (l : Nat) : Core h { Connect.setCli s s.nCli .init with
      nCli := s.nCli + 1, up := fun d => if d = s.nCli then true else s.up d, ctl := s.ctl.set l (some s.nCli) } := by
  have h1 : (Cli.St.init).apps = (s.cli s.nCli).apps := by
    have : ∀ id, (s.cli s.nCli).apps.get id = none := by
      intro id
      cases hg : (s.cli s.nCli).apps.get id with
      | none => rfl
      | some f => exact absurd (hc.low f _ id ((hc.apps _ _ _).mp hg)) (by omega)
    show ([] : Dict Nat Nat) = _
    cases hx : (s.cli s.nCli).apps with
    | nil => rfl
    | cons a t => have := this a.1; rw [hx] at this; simp [Dict.get] at this
  have hd := hc.setCli s.nCli .init Cli.Inv.init Cli.Honest.init h1
  refine ⟨hd.cli, hd.honest, hd.cbi, hd.good, ?_, hd.apps, ?_, hd.data, hd.spawn, hd.live, hd.stage, hd.obswf, hd.obs⟩
  · intro l' c hx
    have hx' : (s.ctl.set l (some s.nCli)).get l' = some (some c) := hx
    show c < s.nCli + 1
    rw [Dict.get_set] at hx'
    split at hx'
    · cases hx'; omega
    · have := hc.ctl l' c hx'; omega
  · intro i c id hx
    have := hc.low i c id hx
    show c < s.nCli + 1
    omega

theorem Core.newCall {h : List Ev} {s : St} (hc : Core h s) (k : Kind) (loc : Option Nat) :
    Core h (setCall { s with nCall := s.nCall + 1 } s.nCall ⟨k, loc, .service, none⟩) := by
  have hask : ∀ j d id, Asked (setCall { s with nCall := s.nCall + 1 } s.nCall ⟨k, loc, .service, none⟩) j d id ↔ Asked s j d id := by
    intro j d id
    unfold Asked setCall
    dsimp only
    by_cases hj : j = s.nCall
    · rw [if_pos hj]; simp [hj]
    · rw [if_neg hj]
      constructor
      · rintro ⟨h1, h2⟩; exact ⟨by omega, h2⟩
      · rintro ⟨h1, h2⟩; exact ⟨by omega, h2⟩
  refine ⟨hc.cli, hc.honest, hc.cbi, hc.good, hc.ctl, fun c id f => (hc.apps c id f).trans (hask _ _ _).symm, 
    fun j c id hj => hc.low j c id ((hask _ _ _).mp hj), fun p cid k f hd => (hc.data p cid k f hd).imp fun c hx => (hask _ _ _).mpr hx,
    ?_, ?_, ?_, hc.obswf, hc.obs⟩
  · intro id n hn
    obtain ⟨f, c, h1, h2⟩ := hc.spawn id n hn
    exact ⟨f, c, h1, (hask _ _ _).mpr h2⟩
  · intro n f hn
    obtain ⟨c, id, h1, h2⟩ := hc.live n f hn
    exact ⟨c, id, (hask _ _ _).mpr h1, h2⟩
  · intro j hj
    have hj' : j < s.nCall + 1 := hj
    show StageOk h _ (if j = s.nCall then _ else s.call j)
    split
    · exact rfl
    · next hne => exact (hc.stage j (by omega)).mono (fun _ hm => hm) (fun _ _ _ hx => (hask _ _ _).mpr hx) (fun _ _ hx => hx)

theorem Core.conn_stage {h : List Ev} {s : St} (hc : Core h s) {i d id : Nat} {g : Stage} (hv : (s.call i).via = some (d, id))
    (hg : (∃ n, Callback.conns s.cb id = [n] ∧ g = .making n) ∨ g = .raised .unexpected) : StageOk h s { s.call i with stage := g } := by
  rcases hg with ⟨n, hn, rfl⟩ | rfl
  · obtain ⟨f, c, h1, h2⟩ := hc.spawn id n (by rw [hn]; simp)
    exact ⟨d, id, f, c, hv, h1, h2⟩
  · exact trivial

theorem Core.opening {h : List Ev} {s : St} (hc : Core h s) {i c f id p : Nat} (hi : i < s.nCall) (hs : (s.call i).stage = .opening c f)
    (hf : (s.cli c).fut f = .result id p) : (s.call i).via = some (c, id) := by
  have h1 := hc.stage i hi
  unfold StageOk at h1
  rw [hs] at h1
  rw [hc.honest c f id p hf]
  exact h1

theorem Core.micro {h : List Ev} {e : Ev} {s t : St} (he : e ∈ h) (hc : Core h s) (hm : Micro e s t) : Core h t := by
  cases hm with
  | ready i => exact hc.congr rfl rfl rfl rfl rfl rfl rfl
  | fresh k loc => exact hc.newCall k loc
  | early _ _ i g hi hs hg =>
    refine hc.setStage i g (fun _ => ?_)
    rcases hg with rfl | ⟨r, rfl, _⟩
    · have := early_via (hc.stage i hi) hs
      exact this
    · exact trivial
  | dial _ _ i l hi hs hl hctl =>
    have hd : Core h { s with ctl := if (s.call i).kind = .connect then s.ctl.set l none else s.ctl } := by
      refine ⟨hc.cli, hc.honest, hc.cbi, hc.good, ?_, hc.apps, hc.low, hc.data, hc.spawn, hc.live, hc.stage, hc.obswf, hc.obs⟩
      intro l' c hx
      have hx' : (if (s.call i).kind = .connect then s.ctl.set l none else s.ctl).get l' = some (some c) := hx
      split at hx'
      · rw [Dict.get_set] at hx'
        split at hx'
        · cases hx'
        · exact hc.ctl l' c hx'
      · exact hc.ctl l' c hx'
    have hv := early_via (hc.stage i hi) (by rw [hs]; exact trivial)
    exact hd.setStage i _ (fun _ => hv)
  | dialed _ i l hi hs hl => exact hc.dialed l
  | ask _ _ i l c hi hs hl hg => exact hc.ask i c hi hs (hc.ctl l c hg)
  | response _ c id r h1 h2 =>
    exact hc.setCli c _ ((hc.cli c).step _) ((hc.honest c).step (hc.cli c) _) (Cli.step_apps_eq _ _ (fun _ _ h => nomatch h))
  | spawned _ c id t p h1 h2 =>
    exact hc.setCli c _ ((hc.cli c).step _) ((hc.honest c).step (hc.cli c) _) (Cli.step_apps_eq _ _ (fun _ _ h => nomatch h))
  | announce _ c id t p k f ha =>
    refine hc.absorb _ ?_
    intro cid k' f' p' hx
    cases hx
    exact ⟨c, (hc.apps _ _ _).mp ha⟩
  | conn _ p => exact hc.absorb _ (fun _ _ _ _ h => nomatch h)
  | data _ n d => exact hc.absorb _ (fun _ _ _ _ h => nomatch h)
  | lost _ n => exact hc.absorb _ (fun _ _ _ _ h => nomatch h)
  | entry i _ id hh =>
    have hcs : ∀ id', Callback.conns { s.cb with spawn := s.cb.spawn.set id [] } id' = Callback.conns s.cb id' := by
      intro id'
      unfold Callback.conns
      dsimp only
      rw [Dict.get_set]
      split
      · next e =>
        subst e
        have : s.cb.spawn.get id = none := by
          cases hg : s.cb.spawn.get id with
          | none => rfl
          | some _ => simp [Dict.has, hg] at hh
        rw [this]; rfl
      · rfl
    refine ⟨hc.cli, hc.honest, ⟨hc.cbi.wfd, hc.cbi.wfc, hc.cbi.dat, hc.cbi.pair⟩, ?_, hc.ctl, hc.apps, hc.low, hc.data, ?_, ?_, hc.stage, hc.obswf, hc.obs⟩
    · intro n
      obtain ⟨ds, hg⟩ := hc.good n
      exact ⟨ds, hg.same rfl rfl rfl⟩
    · intro id' n hn
      exact hc.spawn id' n (by rw [← hcs]; exact hn)
    · intro n f hn
      obtain ⟨c, id', g1, g2⟩ := hc.live n f hn
      exact ⟨c, id', g1, g2.imp (fun x => by show _ ∈ Callback.conns { s.cb with spawn := s.cb.spawn.set id [] } id'; rw [hcs]; exact x) (fun x => x)⟩
  | enqueue _ i c f id p hi hs hf hcs =>
    exact (hc.setStage i (.waiting id) (fun _ => ⟨c, hc.opening hi hs hf⟩)).congr rfl rfl rfl rfl rfl rfl rfl
  | proceed _ i c f id p g hi hs hf hg => exact hc.setStage i g (fun _ => hc.conn_stage (hc.opening hi hs hf) hg)
  | serve _ i c f id p hi hs hf hk => exact hc.setStage i _ (fun _ => hc.opening hi hs hf)
  | refuse _ i c f hi hs hf => exact hc.setStage i _ (fun _ => trivial)
  | cancel _ i c f hi hs hf =>
    have h1 := hc.setCli c (Cli.step (s.cli c) (.cancel f)) ((hc.cli c).step _) ((hc.honest c).step (hc.cli c) _)
      (Cli.step_apps_eq _ _ (fun _ _ h => nomatch h))
    exact h1.setStage i _ (fun _ => trivial)
  | giveUp _ i n hi hs => exact (hc.setStage i (.raised .timeout) (fun _ => trivial)).congr rfl rfl rfl rfl rfl rfl rfl
  | note _ k h1 h2 => exact hc.congr rfl rfl rfl rfl rfl rfl rfl
  | wake _ k i q h1 h2 => exact hc.congr rfl rfl rfl rfl rfl rfl rfl
  | again _ i id hi hs hw hcs => exact hc.congr rfl rfl rfl rfl rfl rfl rfl
  | go _ i id g hi hs hw hg =>
    have h1 := hc.stage i hi
    unfold StageOk at h1
    rw [hs] at h1
    obtain ⟨d, hv⟩ := h1
    have h2 : Core h { s with woken := s.woken.erase i } := hc.congr rfl rfl rfl rfl rfl rfl rfl
    exact h2.setStage i g (fun _ => h2.conn_stage hv hg)
  | made _ n ho =>
    refine ⟨hc.cli, hc.honest, hc.cbi, hc.good, hc.ctl, hc.apps, hc.low, hc.data, hc.spawn, hc.live, hc.stage, hc.obswf.set _ _, ?_⟩
    intro m hm
    have hm' : (s.obs.set n true).get m = some true := hm
    rw [Dict.get_set] at hm'
    split at hm'
    · next e => rw [← e]; exact he
    · exact hc.obs m hm'
  | returns _ i n hi hs ho =>
    have h1 := hc.stage i hi
    unfold StageOk at h1
    rw [hs] at h1
    have h2 : Core h { s with obs := s.obs.del n } := by
      refine ⟨hc.cli, hc.honest, hc.cbi, hc.good, hc.ctl, hc.apps, hc.low, hc.data, hc.spawn, hc.live, hc.stage, hc.obswf.del _, ?_⟩
      intro m hm
      have hm' : (s.obs.del n).get m = some true := hm
      rw [Dict.get_del hc.obswf] at hm'
      split at hm'
      · cases hm'
      · exact hc.obs m hm'
    exact h2.setStage i _ (fun _ => ⟨h1, hc.obs n ho⟩)
  | key _ i n hi hs => exact hc.setStage i _ (fun _ => trivial)
  | ctlLost _ c => exact hc.congr rfl rfl rfl rfl rfl rfl rfl
  | close _ i c id hi hs =>
    have h1 := hc.stage i hi
    unfold StageOk at h1
    rw [hs] at h1
    exact (hc.setStage i (.serving c id true) (fun _ => h1)).congr rfl rfl rfl rfl rfl rfl rfl

theorem Core.reachable (h : List Ev) : Core h (exec .init h) :=
  micro_ind Core Core.init (fun _ e _ hc => hc.mono e) (fun _ _ _ _ he hc hm => hc.micro he hm) h

theorem unused_reachable (h : List Ev) (c : Nat) : Cli.Unused ((exec .init h).cli c) := by
  have key := micro_ind (fun h s => Core h s ∧ ∀ c, Cli.Unused (s.cli c)) ⟨Core.init, fun _ _ _ => rfl⟩
    (fun _ e _ hc => ⟨hc.1.mono e, hc.2⟩) ?_ h
  · exact key.2 c
  intro h e s t he ⟨hc, hu⟩ hm
  refine ⟨hc.micro he hm, ?_⟩
  have set : ∀ d (x : Cli.Ev) c, Cli.Unused ((setCli s d (Cli.step (s.cli d) x)).cli c) := by
    intro d x c
    show Cli.Unused (if c = d then Cli.step (s.cli d) x else s.cli c)
    split
    · exact (hu d).step (hc.cli d) x
    · exact hu c
  cases hm with
  | dialed _ i l hi hs hl =>
    intro c
    show Cli.Unused (if c = s.nCli then .init else s.cli c)
    split
    · exact fun _ _ => rfl
    · exact hu c
  | ask _ _ i l c hi hs hl hg => exact set c _
  | response _ c id r h1 h2 => exact set c _
  | spawned _ c id t p h1 h2 => exact set c _
  | cancel _ i c f hi hs hf => exact set c _
  | _ => exact hu

end Verif.Connect
