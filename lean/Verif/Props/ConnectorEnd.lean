import Verif.Props.Connector
/-! # C61, C62, C63: lost control connections, closing servers, examples -/
namespace Verif.Connect
open Verif.Cli (Kind)

/-! ## C62: a lost control connection -/

/-- Call `i` has asked over control connection `c`, which is lost; requests from `F` on are not answered. -/
structure Dead (s : St) (l c F i : Nat) : Prop where
  ctl : s.ctl.get l = some (some c)
  down : s.up c = false
  low : c < s.nCli
  nobody : ∀ j, j < s.nCall → (s.call j).loc = some l → (s.call j).stage ≠ .dialing
  futs : ∀ f, F ≤ f → (s.cli c).fut f = .pending ∨ (s.cli c).fut f = .cancelled
  hi : i < s.nCall
  stage : (∃ f, F ≤ f ∧ (s.call i).stage = .opening c f) ∨ (s.call i).stage = .raised .timeout

theorem cancel_fut (x : Cli.St) (n m : Nat) : (Cli.step x (.cancel n)).fut m = x.fut m ∨ (Cli.step x (.cancel n)).fut m = .cancelled := by
  simp only [Cli.step]
  split
  · split
    · by_cases h : m = n
      · right; simp [h]
      · left; simp [h]
    · exact .inl rfl
  · exact .inl rfl

theorem dead_micro {e : Ev} {s t : St} (hm : Micro e s t) {l c F i : Nat} (hd : Dead s l c F i) : Dead t l c F i := by
  -- a new stage of call `j`
  have set : ∀ (u : St) j g, u.call = s.call → u.nCall = s.nCall → u.ctl = s.ctl → u.up = s.up → u.nCli = s.nCli →
      (∀ f, F ≤ f → (u.cli c).fut f = .pending ∨ (u.cli c).fut f = .cancelled) → g ≠ .dialing →
      (j = i → g = .raised .timeout) → Dead (setStage u j g) l c F i := by
    intro u j g h1 h2 h3 h4 h5 h6 h7 h8
    refine ⟨by show u.ctl.get l = _; rw [h3]; exact hd.ctl, by show u.up c = _; rw [h4]; exact hd.down,
      by show c < u.nCli; rw [h5]; exact hd.low, ?_, h6, by show i < u.nCall; rw [h2]; exact hd.hi, ?_⟩
    · intro m hm' hl
      unfold setStage setCall at hm' hl ⊢
      dsimp only at hm' hl ⊢
      rw [h2] at hm'
      rw [h1] at hl ⊢
      by_cases hj : m = j
      · rw [if_pos hj]; exact h7
      · rw [if_neg hj] at hl ⊢; exact hd.nobody m hm' hl
    · unfold setStage setCall
      dsimp only
      rw [h1]
      by_cases hj : i = j
      · rw [if_pos hj]; exact .inr (h8 hj.symm)
      · rw [if_neg hj]; exact hd.stage
  have notI : ∀ {j : Nat} {g : Stage}, (s.call j).stage = g → (∀ f, g ≠ .opening c f) → g ≠ .raised .timeout → j ≠ i := by
    rintro j g h1 h2 h3 rfl
    rcases hd.stage with ⟨f, _, hx⟩ | hx
    · exact h2 f (h1.symm.trans hx)
    · exact h3 (h1.symm.trans hx)
  have notE : ∀ {j : Nat}, Early (s.call j).stage → j ≠ i := by
    rintro j h1 rfl
    rcases hd.stage with ⟨f, _, hx⟩ | hx <;> rw [hx] at h1 <;> exact h1
  -- an answer cannot be there
  have noAns : ∀ {j d f : Nat}, (s.call j).stage = .opening d f → (s.cli d).fut f ≠ .pending → (s.cli d).fut f ≠ .cancelled → j ≠ i := by
    rintro j d f h1 h2 h3 rfl
    rcases hd.stage with ⟨f', hf, hx⟩ | hx
    · rw [h1] at hx; cases hx
      rcases hd.futs f hf with h | h
      · exact h2 h
      · exact h3 h
    · rw [h1] at hx; cases hx
  have other : ∀ (d : Nat) (x : Cli.St), s.up d = true → Dead (setCli s d x) l c F i := by
    intro d x hu
    refine ⟨hd.ctl, hd.down, hd.low, hd.nobody, ?_, hd.hi, hd.stage⟩
    intro f hf
    show (if c = d then x else s.cli c).fut f = _ ∨ (if c = d then x else s.cli c).fut f = _
    rw [if_neg]
    · exact hd.futs f hf
    · rintro rfl; rw [hd.down] at hu; cases hu
  cases hm with
  | ready i => exact ⟨hd.ctl, hd.down, hd.low, hd.nobody, hd.futs, hd.hi, hd.stage⟩
  | fresh k loc =>
    refine ⟨hd.ctl, hd.down, hd.low, ?_, hd.futs, Nat.lt_succ_of_lt hd.hi, ?_⟩
    · intro m hm' hl
      have hm'' : m < s.nCall + 1 := hm'
      have hl' : (if m = s.nCall then (⟨k, loc, .service, none⟩ : Call) else s.call m).loc = some l := hl
      show (if m = s.nCall then (⟨k, loc, .service, none⟩ : Call) else s.call m).stage ≠ _
      by_cases hj : m = s.nCall
      · rw [if_pos hj]; exact fun h => nomatch h
      · rw [if_neg hj] at hl' ⊢; exact hd.nobody m (by omega) hl'
    · show (∃ f, F ≤ f ∧ (if i = s.nCall then (⟨k, loc, .service, none⟩ : Call) else s.call i).stage = _) ∨
        (if i = s.nCall then (⟨k, loc, .service, none⟩ : Call) else s.call i).stage = _
      rw [if_neg (Nat.ne_of_lt hd.hi)]; exact hd.stage
  | early _ _ j g hi hs hg =>
    refine set s j g rfl rfl rfl rfl rfl hd.futs ?_ (fun h => absurd h (notE hs))
    rcases hg with rfl | ⟨r, rfl, _⟩
    · exact fun h => nomatch h
    · exact fun h => nomatch h
  | dial _ _ j l' hi hs hl hctl =>
    have hji : j ≠ i := notE (by rw [hs]; exact trivial)
    have hne : l' ≠ l := by rintro rfl; rw [hd.ctl] at hctl; cases hctl
    refine ⟨?_, hd.down, hd.low, ?_, hd.futs, hd.hi, ?_⟩
    · show (if (s.call j).kind = .connect then s.ctl.set l' none else s.ctl).get l = _
      split
      · rw [Dict.get_set, if_neg hne]; exact hd.ctl
      · exact hd.ctl
    · intro m hm' hl'
      have hl'' : (if m = j then ({ s.call j with stage := .dialing } : Call) else s.call m).loc = some l := hl'
      show (if m = j then ({ s.call j with stage := .dialing } : Call) else s.call m).stage ≠ _
      by_cases hj : m = j
      · rw [if_pos hj] at hl''
        have : (s.call j).loc = some l := hl''
        rw [hl] at this; cases this; exact absurd rfl hne
      · rw [if_neg hj] at hl'' ⊢; exact hd.nobody m hm' hl''
    · show (∃ f, F ≤ f ∧ (if i = j then ({ s.call j with stage := .dialing } : Call) else s.call i).stage = _) ∨
        (if i = j then ({ s.call j with stage := .dialing } : Call) else s.call i).stage = _
      rw [if_neg (Ne.symm hji)]; exact hd.stage
  | dialed _ j l' hi hs hl =>
    have hne : l' ≠ l := by rintro rfl; exact hd.nobody j hi hl hs
    refine ⟨?_, ?_, Nat.lt_succ_of_lt hd.low, hd.nobody, ?_, hd.hi, hd.stage⟩
    · show (s.ctl.set l' (some s.nCli)).get l = _
      rw [Dict.get_set, if_neg hne]; exact hd.ctl
    · show (if c = s.nCli then true else s.up c) = _
      rw [if_neg (Nat.ne_of_lt hd.low)]; exact hd.down
    · intro f hf
      show (if c = s.nCli then Cli.St.init else s.cli c).fut f = _ ∨ (if c = s.nCli then Cli.St.init else s.cli c).fut f = _
      rw [if_neg (Nat.ne_of_lt hd.low)]; exact hd.futs f hf
  | ask _ _ j l' d hi hs hl hg =>
    have hji : j ≠ i := notE hs
    refine ⟨hd.ctl, hd.down, hd.low, ?_, ?_, hd.hi, ?_⟩
    · intro m hm' hl'
      have hl'' : (if m = j then ({ s.call j with stage := .opening d (s.cli d).nFut, via := some (d, (s.cli d).count + 1) } : Call)
        else s.call m).loc = some l := hl'
      show (if m = j then ({ s.call j with stage := .opening d (s.cli d).nFut, via := some (d, (s.cli d).count + 1) } : Call)
        else s.call m).stage ≠ _
      by_cases hj : m = j
      · rw [if_pos hj]; exact fun h => nomatch h
      · rw [if_neg hj] at hl'' ⊢; exact hd.nobody m hm' hl''
    · intro f hf
      show (if c = d then Cli.step (s.cli d) (.request (s.call j).kind j) else s.cli c).fut f = _ ∨
        (if c = d then Cli.step (s.cli d) (.request (s.call j).kind j) else s.cli c).fut f = _
      by_cases hcd : c = d
      · subst hcd
        rw [if_pos rfl]
        show (if f = (s.cli c).nFut then Cli.Fut.pending else (s.cli c).fut f) = _ ∨ (if f = (s.cli c).nFut then Cli.Fut.pending else (s.cli c).fut f) = _
        split
        · exact .inl rfl
        · exact hd.futs f hf
      · rw [if_neg hcd]; exact hd.futs f hf
    · show (∃ f, F ≤ f ∧ (if i = j then ({ s.call j with stage := .opening d (s.cli d).nFut, via := some (d, (s.cli d).count + 1) } : Call)
        else s.call i).stage = _) ∨ (if i = j then ({ s.call j with stage := .opening d (s.cli d).nFut, via := some (d, (s.cli d).count + 1) } : Call)
        else s.call i).stage = _
      rw [if_neg (Ne.symm hji)]; exact hd.stage
  | response _ d id r h1 h2 => exact other d _ h2
  | spawned _ d id t p h1 h2 => exact other d _ h2
  | announce _ d id t p k f ha => exact ⟨hd.ctl, hd.down, hd.low, hd.nobody, hd.futs, hd.hi, hd.stage⟩
  | conn _ p => exact ⟨hd.ctl, hd.down, hd.low, hd.nobody, hd.futs, hd.hi, hd.stage⟩
  | data _ n d => exact ⟨hd.ctl, hd.down, hd.low, hd.nobody, hd.futs, hd.hi, hd.stage⟩
  | lost _ n => exact ⟨hd.ctl, hd.down, hd.low, hd.nobody, hd.futs, hd.hi, hd.stage⟩
  | entry i _ id hh => exact ⟨hd.ctl, hd.down, hd.low, hd.nobody, hd.futs, hd.hi, hd.stage⟩
  | enqueue _ j d f id p hi hs hf hcs =>
    have := set s j (.waiting id) rfl rfl rfl rfl rfl hd.futs (fun h => nomatch h)
      (fun h => absurd h (noAns hs (by rw [hf]; simp) (by rw [hf]; simp)))
    exact ⟨this.ctl, this.down, this.low, this.nobody, this.futs, this.hi, this.stage⟩
  | proceed _ j d f id p g hi hs hf hg =>
    refine set s j g rfl rfl rfl rfl rfl hd.futs ?_ (fun h => absurd h (noAns hs (by rw [hf]; simp) (by rw [hf]; simp)))
    rcases hg with ⟨n, _, rfl⟩ | rfl
    · exact fun h => nomatch h
    · exact fun h => nomatch h
  | serve _ j d f id p hi hs hf hk =>
    exact set s j _ rfl rfl rfl rfl rfl hd.futs (fun h => nomatch h) (fun h => absurd h (noAns hs (by rw [hf]; simp) (by rw [hf]; simp)))
  | refuse _ j d f hi hs hf =>
    obtain ⟨x, hf⟩ := hf
    exact set s j _ rfl rfl rfl rfl rfl hd.futs (fun h => nomatch h) (fun h => absurd h (noAns hs (by rw [hf]; simp) (by rw [hf]; simp)))
  | cancel _ j d f hi hs hf =>
    refine set (setCli s d _) j _ rfl rfl rfl rfl rfl ?_ (fun h => nomatch h) (fun _ => rfl)
    intro f' hf'
    show (if c = d then Cli.step (s.cli d) (.cancel f) else s.cli c).fut f' = _ ∨ (if c = d then Cli.step (s.cli d) (.cancel f) else s.cli c).fut f' = _
    by_cases hcd : c = d
    · subst hcd
      rw [if_pos rfl]
      rcases cancel_fut (s.cli c) f f' with h | h
      · rw [h]; exact hd.futs f' hf'
      · exact .inr h
    · rw [if_neg hcd]; exact hd.futs f' hf'
  | giveUp _ j n hi hs =>
    have := set s j (.raised .timeout) rfl rfl rfl rfl rfl hd.futs (fun h => nomatch h) (fun _ => rfl)
    exact ⟨this.ctl, this.down, this.low, this.nobody, this.futs, this.hi, this.stage⟩
  | note _ k h1 h2 => exact ⟨hd.ctl, hd.down, hd.low, hd.nobody, hd.futs, hd.hi, hd.stage⟩
  | wake _ k i q h1 h2 => exact ⟨hd.ctl, hd.down, hd.low, hd.nobody, hd.futs, hd.hi, hd.stage⟩
  | again _ i id hi hs hw hcs => exact ⟨hd.ctl, hd.down, hd.low, hd.nobody, hd.futs, hd.hi, hd.stage⟩
  | go _ j id g hi hs hw hg =>
    refine set _ j g rfl rfl rfl rfl rfl hd.futs ?_ (fun h => absurd h (notI hs (fun _ h => nomatch h) (fun h => nomatch h)))
    rcases hg with ⟨n, _, rfl⟩ | rfl
    · exact fun h => nomatch h
    · exact fun h => nomatch h
  | made _ n ho => exact ⟨hd.ctl, hd.down, hd.low, hd.nobody, hd.futs, hd.hi, hd.stage⟩
  | returns _ j n hi hs ho =>
    exact set _ j _ rfl rfl rfl rfl rfl hd.futs (fun h => nomatch h) (fun h => absurd h (notI hs (fun _ h => nomatch h) (fun h => nomatch h)))
  | key _ j n hi hs =>
    exact set s j _ rfl rfl rfl rfl rfl hd.futs (fun h => nomatch h) (fun h => absurd h (notI hs (fun _ h => nomatch h) (fun h => nomatch h)))
  | ctlLost _ d =>
    refine ⟨hd.ctl, ?_, hd.low, hd.nobody, hd.futs, hd.hi, hd.stage⟩
    show (if c = d then false else s.up c) = false
    split
    · rfl
    · exact hd.down
  | close _ j d id hi hs =>
    have := set s j (.serving d id true) rfl rfl rfl rfl rfl hd.futs (fun h => nomatch h)
      (fun h => absurd h (notI hs (fun _ h => nomatch h) (fun h => nomatch h)))
    exact ⟨this.ctl, this.down, this.low, this.nobody, this.futs, this.hi, this.stage⟩

theorem dead_exec : ∀ (t : List Ev) (s : St) (l c F i : Nat), Dead s l c F i → Dead (exec s t) l c F i
  | [], _, _, _, _, _, h => h
  | e :: t, s, l, c, F, i, h => by
    have hm := step_micro s e
    refine dead_exec t (step s e) l c F i ?_
    generalize step s e = u at hm
    induction hm with
    | refl => exact h
    | tail _ hx ih => exact dead_micro hx ih

/-- C62 is false. After the control connection to a VNIC is lost it is not made again: the next call for this VNIC, client or
server, can only time out, in every continuation. -/
theorem C62_dead_control (h t : List Ev) (l c : Nat) (k : Kind) (hl : (exec .init h).ctl.get l = some (some c))
    (hr : (exec .init h).ready = true)
    (ho : ∀ j, j < (exec .init h).nCall → ((exec .init h).call j).loc = some l → ((exec .init h).call j).stage ≠ .dialing) :
    let g := ((exec .init (h ++ .ctlLost c :: .call k (some l) :: t)).call (exec .init h).nCall).stage
    (∃ f, g = .opening c f) ∨ g = .raised .timeout := by
  have hc := Core.reachable h
  have hun := unused_reachable h c
  rw [exec_append]
  generalize exec .init h = s at *
  have key : Dead (exec s (.ctlLost c :: .call k (some l) :: t)) l c (s.cli c).nFut s.nCall := by
    refine dead_exec t _ l c _ _ ?_
    generalize hu : step s (.ctlLost c) = u
    have e1 : u.ctl = s.ctl := by rw [← hu]; rfl
    have e2 : u.call = s.call := by rw [← hu]; rfl
    have e3 : u.nCall = s.nCall := by rw [← hu]; rfl
    have e4 : u.cli = s.cli := by rw [← hu]; rfl
    have e5 : u.up c = false := by rw [← hu]; show (if c = c then false else s.up c) = false; rw [if_pos rfl]
    have e6 : u.nCli = s.nCli := by rw [← hu]; rfl
    have e7 : u.ready = true := by rw [← hu]; exact hr
    have hst : step u (.call k (some l)) = openVia (setCall { u with nCall := u.nCall + 1 } u.nCall ⟨k, some l, .service, none⟩) u.nCall c := by
      show newCall u k (some l) = _
      unfold newCall
      dsimp only
      rw [if_pos e7]
      unfold start
      rw [show ((setCall { u with nCall := u.nCall + 1 } u.nCall ⟨k, some l, .service, none⟩).call u.nCall).loc = some l by simp [setCall]]
      dsimp only
      have hx : (setCall { u with nCall := u.nCall + 1 } u.nCall ⟨k, some l, .service, none⟩).ctl.get l = some (some c) := by
        show u.ctl.get l = _; rw [e1]; exact hl
      rw [hx]
      dsimp only
      unfold enter
      rw [hx]
    rw [hst]
    refine ⟨by show u.ctl.get l = _; rw [e1]; exact hl, e5, by show c < u.nCli; rw [e6]; exact hc.ctl l c hl, ?_, ?_,
      by show s.nCall < u.nCall + 1; omega, ?_⟩
    · intro m hm' hl'
      simp only [openVia, setCall, setCli] at hm' hl' ⊢
      by_cases hj : m = u.nCall
      · simp [hj]
      · simp only [if_neg hj] at hl' ⊢
        rw [e2] at hl' ⊢
        exact ho m (by omega) hl'
    · intro f hf
      have hx : ((openVia (setCall { u with nCall := u.nCall + 1 } u.nCall ⟨k, some l, .service, none⟩) u.nCall c).cli c).fut f =
          if f = (s.cli c).nFut then Cli.Fut.pending else (s.cli c).fut f := by
        simp only [openVia, setCall, setCli, if_true]
        rw [e4]; rfl
      rw [hx]
      split
      · exact .inl rfl
      · next hne =>
        left
        exact hun f hf
    · left
      refine ⟨(s.cli c).nFut, Nat.le_refl _, ?_⟩
      simp [openVia, setCall, e3, e4]
  rcases key.stage with ⟨f, _, hx⟩ | hx
  · exact .inl ⟨f, hx⟩
  · exact .inr hx

end Verif.Connect
