import Verif.Lemmas.ConnectorInv
/-! # The waiting calls of the connector -/
namespace Verif.Connect
open Verif.Cli (Kind)

theorem waits_setStage (s : St) (i : Nat) (g : Stage) (j id : Nat) :
    Waits (setStage s i g) j id ↔ (j = i ∧ i < s.nCall ∧ g = .waiting id) ∨ (j ≠ i ∧ Waits s j id) := by
  unfold Waits setStage setCall
  dsimp only
  by_cases h : j = i
  · subst h; rw [if_pos rfl]; simp
  · rw [if_neg h]; simp [h]

/-- Calls that wait are exactly those in the condition, each once. -/
structure QInv (s : St) : Prop where
  nodup : (s.queue ++ s.woken).Nodup
  mem : ∀ i, i ∈ s.queue ++ s.woken ↔ ∃ id, Waits s i id

/-- A change that concerns a call that neither waits before nor after, or no call. -/
theorem QInv.congr {s t : St} (h : QInv s) (h1 : t.queue = s.queue) (h2 : t.woken = s.woken) (h3 : ∀ i, (∃ id, Waits t i id) ↔ ∃ id, Waits s i id) :
    QInv t := ⟨by rw [h1, h2]; exact h.nodup, fun i => by rw [h1, h2, h3]; exact h.mem i⟩

theorem QInv.setStage {s : St} (h : QInv s) (i : Nat) (g : Stage) (h1 : ∀ id, (s.call i).stage ≠ .waiting id) (h2 : ∀ id, g ≠ .waiting id) :
    QInv (setStage s i g) := by
  refine h.congr rfl rfl fun j => ?_
  simp only [waits_setStage]
  constructor
  · rintro ⟨id, ⟨_, _, hx⟩ | ⟨_, hx⟩⟩
    · exact absurd hx (h2 id)
    · exact ⟨id, hx⟩
  · rintro ⟨id, hx⟩
    refine ⟨id, .inr ⟨?_, hx⟩⟩
    rintro rfl
    exact h1 id hx.2

theorem early_not_waiting {g : Stage} (h : Early g) (id : Nat) : g ≠ .waiting id := by
  rintro rfl; exact h

theorem QInv.micro {e : Ev} {s t : St} (h : QInv s) (hm : Micro e s t) : QInv t := by
  cases hm with
  | ready i => exact h.congr rfl rfl fun _ => Iff.rfl
  | fresh k loc =>
    refine h.congr rfl rfl fun j => exists_congr fun id => ?_
    unfold Waits setCall
    dsimp only
    by_cases hj : j = s.nCall
    · rw [if_pos hj]; simp [hj]
    · rw [if_neg hj]
      constructor
      · rintro ⟨h1, h2⟩; exact ⟨by omega, h2⟩
      · rintro ⟨h1, h2⟩; exact ⟨by omega, h2⟩
  | early _ _ i g hi hs hg =>
    refine h.setStage i g (early_not_waiting hs) ?_
    rcases hg with rfl | ⟨r, rfl, _⟩
    · exact fun _ h => nomatch h
    · exact fun _ h => nomatch h
  | dial _ _ i l hi hs hl hctl =>
    have h1 : QInv { s with ctl := if (s.call i).kind = .connect then s.ctl.set l none else s.ctl } := h.congr rfl rfl fun _ => Iff.rfl
    exact h1.setStage i _ (fun id hx => by rw [show _ = Stage.service from hs] at hx; cases hx) (fun _ h => nomatch h)
  | dialed _ i l hi hs hl => exact h.congr rfl rfl fun _ => Iff.rfl
  | ask _ _ i l c hi hs hl hg =>
    refine h.congr rfl rfl fun j => exists_congr fun id => ?_
    unfold Waits openVia setCall setCli
    dsimp only
    by_cases hj : j = i
    · subst hj; rw [if_pos rfl]
      have := early_not_waiting hs id
      simp [this]
    · rw [if_neg hj]
  | response _ c id r h1 h2 => exact h.congr rfl rfl fun _ => Iff.rfl
  | spawned _ c id t p h1 h2 => exact h.congr rfl rfl fun _ => Iff.rfl
  | announce _ c id t p k f ha => exact h.congr rfl rfl fun _ => Iff.rfl
  | conn _ p => exact h.congr rfl rfl fun _ => Iff.rfl
  | data _ n d => exact h.congr rfl rfl fun _ => Iff.rfl
  | lost _ n => exact h.congr rfl rfl fun _ => Iff.rfl
  | entry i _ id hh => exact h.congr rfl rfl fun _ => Iff.rfl
  | enqueue _ i c f id p hi hs hf hcs =>
    have hni : i ∉ s.queue ++ s.woken := by
      rw [h.mem]
      rintro ⟨id', hx⟩
      have := hx.2
      rw [hs] at this; cases this
    constructor
    · show ((s.queue ++ [i]) ++ s.woken).Nodup
      have := h.nodup
      simp only [List.mem_append, not_or] at hni
      rw [List.append_assoc, List.nodup_append] at *
      refine ⟨this.1, List.nodup_cons.mpr ⟨hni.2, this.2.1⟩, ?_⟩
      intro a ha b hb
      rcases List.mem_cons.mp hb with rfl | hb
      · rintro rfl; exact hni.1 ha
      · exact this.2.2 a ha b hb
    · intro j
      show j ∈ (s.queue ++ [i]) ++ s.woken ↔ ∃ id', Waits (Connect.setStage s i (.waiting id)) j id'
      simp only [waits_setStage]
      have hm := h.mem j
      simp only [List.mem_append, List.mem_singleton] at hm ⊢
      by_cases hj : j = i
      · subst hj
        exact ⟨fun _ => ⟨id, .inl ⟨rfl, hi, rfl⟩⟩, fun _ => .inl (.inr rfl)⟩
      · constructor
        · rintro ((hx | hx) | hx)
          · exact (hm.mp (.inl hx)).imp fun _ y => .inr ⟨hj, y⟩
          · exact absurd hx hj
          · exact (hm.mp (.inr hx)).imp fun _ y => .inr ⟨hj, y⟩
        · rintro ⟨id', ⟨hx, _⟩ | ⟨_, hx⟩⟩
          · exact absurd hx hj
          · rcases hm.mpr ⟨id', hx⟩ with hy | hy
            · exact .inl (.inl hy)
            · exact .inr hy
  | proceed _ i c f id p g hi hs hf hg =>
    refine h.setStage i g (fun id hx => by rw [hs] at hx; cases hx) ?_
    rcases hg with ⟨n, _, rfl⟩ | rfl
    · exact fun _ h => nomatch h
    · exact fun _ h => nomatch h
  | serve _ i c f id p hi hs hf hk => exact h.setStage i _ (fun id hx => by rw [hs] at hx; cases hx) (fun _ h => nomatch h)
  | refuse _ i c f hi hs hf => exact h.setStage i _ (fun id hx => by rw [hs] at hx; cases hx) (fun _ h => nomatch h)
  | cancel _ i c f hi hs hf =>
    have h1 : QInv (setCli s c (Cli.step (s.cli c) (.cancel f))) := h.congr rfl rfl fun _ => Iff.rfl
    exact h1.setStage i _ (fun id hx => nomatch hs.symm.trans hx) (fun _ h => nomatch h)
  | giveUp _ i n hi hs =>
    have h1 := h.setStage i (.raised .timeout) (fun id hx => by rw [hs] at hx; cases hx) (fun _ h => nomatch h)
    exact h1.congr rfl rfl fun _ => Iff.rfl
  | note _ k h1 h2 => exact h.congr rfl rfl fun _ => Iff.rfl
  | wake _ k i q h1 h2 =>
    have hp : List.Perm (q ++ (s.woken ++ [i])) (s.queue ++ s.woken) := by
      rw [h2, ← List.append_assoc]
      exact List.perm_append_comm
    exact ⟨hp.nodup_iff.mpr h.nodup, fun j => (hp.mem_iff).trans (h.mem j)⟩
  | again _ i id hi hs hw hcs =>
    have hp : List.Perm ((s.queue ++ [i]) ++ s.woken.erase i) (s.queue ++ s.woken) := by
      rw [List.append_assoc]
      exact (List.perm_cons_erase hw).symm.append_left _
    exact ⟨hp.nodup_iff.mpr h.nodup, fun j => (hp.mem_iff).trans (h.mem j)⟩
  | go _ i id g hi hs hw hg =>
    have hn := List.nodup_append.mp h.nodup
    constructor
    · show (s.queue ++ s.woken.erase i).Nodup
      refine List.nodup_append.mpr ⟨hn.1, hn.2.1.erase i, fun a ha b hb => hn.2.2 a ha b (List.mem_of_mem_erase hb)⟩
    · intro j
      show j ∈ s.queue ++ s.woken.erase i ↔ ∃ id', Waits (Connect.setStage { s with woken := s.woken.erase i } i g) j id'
      have hm := h.mem j
      simp only [waits_setStage, List.mem_append] at hm ⊢
      by_cases hj : j = i
      · subst hj
        constructor
        · rintro (hx | hx)
          · exact absurd rfl (hn.2.2 j hx j hw)
          · exact absurd hx (hn.2.1.not_mem_erase)
        · rintro ⟨id', ⟨_, _, hx⟩ | ⟨hx, _⟩⟩
          · rcases hg with ⟨n, _, rfl⟩ | rfl <;> cases hx
          · exact absurd rfl hx
      · rw [List.mem_erase_of_ne hj, hm]
        constructor
        · rintro ⟨id', hx⟩; exact ⟨id', .inr ⟨hj, hx⟩⟩
        · rintro ⟨id', ⟨hx, _⟩ | ⟨_, hx⟩⟩
          · exact absurd hx hj
          · exact ⟨id', hx⟩
  | made _ n ho => exact h.congr rfl rfl fun _ => Iff.rfl
  | returns _ i n hi hs ho =>
    have h1 : QInv { s with obs := s.obs.del n } := h.congr rfl rfl fun _ => Iff.rfl
    exact h1.setStage i _ (fun id hx => by rw [show _ = Stage.making n from hs] at hx; cases hx) (fun _ h => nomatch h)
  | key _ i n hi hs => exact h.setStage i _ (fun id hx => by rw [hs] at hx; cases hx) (fun _ h => nomatch h)
  | ctlLost _ c => exact h.congr rfl rfl fun _ => Iff.rfl
  | close _ i c id hi hs =>
    have h1 := h.setStage i (.serving c id true) (fun id hx => by rw [hs] at hx; cases hx) (fun _ h => nomatch h)
    exact h1.congr rfl rfl fun _ => Iff.rfl

theorem QInv.init : QInv .init := ⟨by simp [St.init], fun i => by simp [St.init, Waits]⟩

theorem QInv.reachable (h : List Ev) : QInv (exec .init h) :=
  micro_ind (fun _ s => QInv s) QInv.init (fun _ _ _ hc => hc) (fun _ _ _ _ _ hc hm => hc.micro hm) h

/-- What is returned stays returned. -/
theorem returned_micro {e : Ev} {s t : St} (hm : Micro e s t) {j n : Nat} (hr : Returned s j n) : Returned t j n := by
  have set : ∀ (u : St) i g, u.call = s.call → u.nCall = s.nCall → (∀ m, (s.call i).stage ≠ .returned m) → Returned (setStage u i g) j n := by
    intro u i g h1 h2 h3
    unfold Returned setStage setCall
    dsimp only
    by_cases hj : j = i
    · subst hj; exact absurd hr.2 (h3 n)
    · rw [if_neg hj, h1, h2]; exact hr
  have ne : ∀ {i : Nat} {g : Stage}, (s.call i).stage = g → (∀ m, g ≠ .returned m) → ∀ m, (s.call i).stage ≠ .returned m := by
    intro i g h1 h2 m; rw [h1]; exact h2 m
  have en : ∀ {i : Nat}, Early (s.call i).stage → ∀ m, (s.call i).stage ≠ .returned m := by
    intro i h1 m h2; rw [h2] at h1; exact h1
  cases hm with
  | ready i => exact hr
  | fresh k loc =>
    have := hr.1
    refine ⟨Nat.lt_succ_of_lt this, ?_⟩
    show (if j = s.nCall then _ else s.call j).stage = _
    rw [if_neg (by omega)]; exact hr.2
  | early _ _ i g hi hs hg => exact set s i g rfl rfl (en hs)
  | dial _ _ i l hi hs hl hctl => exact set _ i _ rfl rfl (ne hs (fun _ h => nomatch h))
  | dialed _ i l hi hs hl => exact hr
  | ask _ _ i l c hi hs hl hg =>
    unfold Returned openVia setCall setCli
    dsimp only
    by_cases hj : j = i
    · subst hj; exact absurd hr.2 (en hs n)
    · rw [if_neg hj]; exact hr
  | response _ c id r h1 h2 => exact hr
  | spawned _ c id t p h1 h2 => exact hr
  | announce _ c id t p k f ha => exact hr
  | conn _ p => exact hr
  | data _ n d => exact hr
  | lost _ n => exact hr
  | entry i _ id hh => exact hr
  | enqueue _ i c f id p hi hs hf hcs => exact set s i _ rfl rfl (ne hs (fun _ h => nomatch h))
  | proceed _ i c f id p g hi hs hf hg => exact set s i _ rfl rfl (ne hs (fun _ h => nomatch h))
  | serve _ i c f id p hi hs hf hk => exact set s i _ rfl rfl (ne hs (fun _ h => nomatch h))
  | refuse _ i c f hi hs hf => exact set s i _ rfl rfl (ne hs (fun _ h => nomatch h))
  | cancel _ i c f hi hs hf => exact set _ i _ rfl rfl (ne hs (fun _ h => nomatch h))
  | giveUp _ i n hi hs => exact set s i _ rfl rfl (ne hs (fun _ h => nomatch h))
  | note _ k h1 h2 => exact hr
  | wake _ k i q h1 h2 => exact hr
  | again _ i id hi hs hw hcs => exact hr
  | go _ i id g hi hs hw hg => exact set _ i _ rfl rfl (ne hs (fun _ h => nomatch h))
  | made _ n ho => exact hr
  | returns _ i n hi hs ho => exact set _ i _ rfl rfl (ne hs (fun _ h => nomatch h))
  | key _ i n hi hs => exact set s i _ rfl rfl (ne hs (fun _ h => nomatch h))
  | ctlLost _ c => exact hr
  | close _ i c id hi hs => exact set s i _ rfl rfl (ne hs (fun _ h => nomatch h))

/-- An application that runs is watched, or was returned. -/
def Watched (s : St) : Prop := ∀ n f, RunsFor s n f → s.obs.get n ≠ none ∨ ∃ j, Returned s j n

theorem Watched.absorb {h : List Ev} {s : St} (hc : Core h s) (hw : Watched s) (e : Callback.Ev) : Watched (absorb s e) := by
  obtain ⟨l, h1, _⟩ := Callback.step_new hc.cbi e
  rintro n f ⟨k, hk⟩
  have hk' : Callback.Eff.built n k f ∈ s.cb.out ++ l := by rw [← h1]; exact hk
  have hg : (Connect.absorb s e).obs.get n = if n ∈ fresh s e then some false else s.obs.get n := foldl_get _ _ _
  by_cases hn : n ∈ fresh s e
  · left; rw [hg, if_pos hn]; simp
  · rw [hg, if_neg hn]
    rcases List.mem_append.mp hk' with hk' | hk'
    · exact hw n f ⟨k, hk'⟩
    · exact absurd ((mem_fresh h1).mpr ⟨k, f, hk'⟩) hn

theorem Watched.micro {h : List Ev} {e : Ev} {s t : St} (hc : Core h s) (hw : Watched s) (hm : Micro e s t) : Watched t := by
  have keep : t.cb.out = s.cb.out → t.obs = s.obs → Watched t := by
    rintro h1 h2 n f ⟨k, hk⟩
    rcases hw n f ⟨k, h1 ▸ hk⟩ with hx | ⟨j, hx⟩
    · left; rw [h2]; exact hx
    · exact .inr ⟨j, returned_micro hm hx⟩
  cases hm with
  | announce _ c id t p k f ha => exact hw.absorb hc _
  | conn _ p => exact hw.absorb hc _
  | data _ n d => exact hw.absorb hc _
  | lost _ n => exact hw.absorb hc _
  | made _ n ho =>
    rintro m f hk
    show (s.obs.set n true).get m ≠ none ∨ _
    rw [Dict.get_set]
    split
    · left; simp
    · exact hw m f hk
  | returns _ i n hi hs ho =>
    rintro m f hk
    by_cases hmn : m = n
    · subst hmn
      exact .inr ⟨i, hi, by simp [setStage, setCall]⟩
    · rcases hw m f hk with hx | ⟨j, hx⟩
      · left
        show (s.obs.del n).get m ≠ none
        rw [Dict.get_del hc.obswf, if_neg (Ne.symm hmn)]; exact hx
      · exact .inr ⟨j, returned_micro (.returns s i n hi hs ho) hx⟩
  | _ => exact keep rfl rfl

theorem Watched.reachable (h : List Ev) : Watched (exec .init h) :=
  (micro_ind (fun h s => Core h s ∧ Watched s) ⟨Core.init, fun n f h => by simp [RunsFor, St.init, Callback.St.init] at h⟩
    (fun _ e _ hc => ⟨hc.1.mono e, hc.2⟩) (fun _ _ _ _ he hc hm => ⟨hc.1.micro he hm, hc.2.micro hc.1 hm⟩) h).2

/-- A call that waits although its connection is there has been woken or will be notified. -/
def Noted (s : St) : Prop := ∀ i id, Waits s i id → i ∉ s.woken → Callback.conns s.cb id ≠ [] → 1 ≤ s.notes

theorem Noted.absorb {h : List Ev} {s : St} (hc : Core h s) (hn : Noted s) (e : Callback.Ev) : Noted (absorb s e) := by
  obtain ⟨l, h1, _, h3, _⟩ := Callback.step_new hc.cbi e
  intro i id hw hk hcs
  show 1 ≤ s.notes + (fresh s e).length
  by_cases hx : Callback.conns s.cb id = []
  · cases hl : Callback.conns (Connect.absorb s e).cb id with
    | nil => exact absurd hl hcs
    | cons n r =>
      rcases h3 n id (by show n ∈ Callback.conns (Connect.absorb s e).cb id; rw [hl]; simp) with hy | ⟨k, a, q, hy, _⟩
      · rw [hx] at hy; cases hy
      · have : n ∈ fresh s e := (mem_fresh h1).mpr ⟨k, a, hy⟩
        have := List.length_pos_of_mem this
        omega
  · have := hn i id hw hk hx
    omega

theorem Noted.setStage {s : St} (hn : Noted s) (i : Nat) (g : Stage) (hg : ∀ id, g ≠ .waiting id) : Noted (setStage s i g) := by
  intro j id hw hk hcs
  rcases (waits_setStage s i g j id).mp hw with ⟨_, _, hx⟩ | ⟨_, hx⟩
  · exact absurd hx (hg id)
  · exact hn j id hx hk hcs

theorem Noted.micro {h : List Ev} {e : Ev} {s t : St} (hc : Core h s) (hn : Noted s) (he : e ≠ .notify) (hm : Micro e s t) : Noted t := by
  cases hm with
  | ready i => exact hn
  | fresh k loc =>
    intro j id hw hk hcs
    refine hn j id ?_ hk hcs
    have h1 : j < s.nCall + 1 := hw.1
    have h2 : (if j = s.nCall then (⟨k, loc, .service, none⟩ : Call) else s.call j).stage = .waiting id := hw.2
    by_cases hj : j = s.nCall
    · rw [if_pos hj] at h2; cases h2
    · rw [if_neg hj] at h2; exact ⟨by omega, h2⟩
  | early _ _ i g hi hs hg =>
    refine hn.setStage i g ?_
    rcases hg with rfl | ⟨r, rfl, _⟩
    · exact fun _ h => nomatch h
    · exact fun _ h => nomatch h
  | dial _ _ i l hi hs hl hctl =>
    have h1 : Noted { s with ctl := if (s.call i).kind = .connect then s.ctl.set l none else s.ctl } := hn
    exact h1.setStage i _ (fun _ h => nomatch h)
  | dialed _ i l hi hs hl => exact hn
  | ask _ _ i l c hi hs hl hg =>
    intro j id hw hk hcs
    refine hn j id ?_ hk hcs
    have h2 : (if j = i then ({ s.call i with stage := .opening c (s.cli c).nFut, via := some (c, (s.cli c).count + 1) } : Call)
      else s.call j).stage = .waiting id := hw.2
    by_cases hj : j = i
    · rw [if_pos hj] at h2; cases h2
    · rw [if_neg hj] at h2; exact ⟨hw.1, h2⟩
  | response _ c id r h1 h2 => exact hn
  | spawned _ c id t p h1 h2 => exact hn
  | announce _ c id t p k f ha => exact hn.absorb hc _
  | conn _ p => exact hn.absorb hc _
  | data _ n d => exact hn.absorb hc _
  | lost _ n => exact hn.absorb hc _
  | entry i _ id hh =>
    intro j id' hw hk hcs
    refine hn j id' hw hk ?_
    intro hx
    apply hcs
    show ((s.cb.spawn.set id []).get id').getD [] = []
    rw [Dict.get_set]
    split
    · rfl
    · exact hx
  | enqueue _ i c f id p hi hs hf hcs =>
    intro j id' hw hk hx
    rcases (waits_setStage s i _ j id').mp hw with ⟨_, _, hy⟩ | ⟨_, hy⟩
    · cases hy; exact absurd hcs hx
    · exact hn j id' hy hk hx
  | proceed _ i c f id p g hi hs hf hg =>
    refine hn.setStage i g ?_
    rcases hg with ⟨n, _, rfl⟩ | rfl
    · exact fun _ h => nomatch h
    · exact fun _ h => nomatch h
  | serve _ i c f id p hi hs hf hk => exact hn.setStage i _ (fun _ h => nomatch h)
  | refuse _ i c f hi hs hf => exact hn.setStage i _ (fun _ h => nomatch h)
  | cancel _ i c f hi hs hf =>
    have h1 : Noted (setCli s c (Cli.step (s.cli c) (.cancel f))) := hn
    exact h1.setStage i _ (fun _ h => nomatch h)
  | giveUp _ i n hi hs => exact hn.setStage i _ (fun _ h => nomatch h)
  | note _ k h1 h2 => exact absurd rfl he
  | wake _ k i q h1 h2 => exact absurd rfl he
  | again _ i id hi hs hw hcs =>
    intro j id' hx hk hy
    by_cases hj : j = i
    · subst hj
      have : Stage.waiting id' = .waiting id := hx.2.symm.trans hs
      cases this; exact absurd hcs hy
    · refine hn j id' hx ?_ hy
      intro hz; exact hk ((List.mem_erase_of_ne hj).mpr hz)
  | go _ i id g hi hs hw hg =>
    intro j id' hx hk hy
    rcases (waits_setStage _ i g j id').mp hx with ⟨_, _, hz⟩ | ⟨hj, hz⟩
    · rcases hg with ⟨n, _, rfl⟩ | rfl <;> cases hz
    · refine hn j id' hz ?_ hy
      intro h0; exact hk ((List.mem_erase_of_ne hj).mpr h0)
  | made _ n ho => exact hn
  | returns _ i n hi hs ho =>
    have h1 : Noted { s with obs := s.obs.del n } := hn
    exact h1.setStage i _ (fun _ h => nomatch h)
  | key _ i n hi hs => exact hn.setStage i _ (fun _ h => nomatch h)
  | ctlLost _ c => exact hn
  | close _ i c id hi hs => exact hn.setStage i _ (fun _ h => nomatch h)

theorem Noted.step {h : List Ev} {s : St} (hc : Core h s) (hq : QInv s) (hn : Noted s)
    (ha : ∀ i j id id', Waits s i id → Waits s j id' → i = j) (e : Ev) : Noted (step s e) := by
  by_cases he : e = .notify
  · subst he
    show Noted (notify s)
    unfold notify
    split
    · exact hn
    · next k h1 h2 =>
      intro i id hw hk hcs
      have := (hq.mem i).mpr ⟨id, hw⟩
      rw [h2] at this
      exact absurd this (by simpa using hk)
    · next k i q h1 h2 =>
      intro j id hw hk hcs
      have hw' : Waits s j id := hw
      obtain ⟨id', hi⟩ := (hq.mem i).mp (by rw [h2]; simp)
      have : j = i := ha j i id id' hw' hi
      subst this
      exact absurd (show j ∈ s.woken ++ [j] by simp) hk
  · have hm := step_micro s e
    have hc' := hc.mono e
    have he' : e ∈ h ++ [e] := by simp
    generalize Connect.step s e = t at hm
    have : Core (h ++ [e]) t ∧ Noted t := by
      induction hm with
      | refl => exact ⟨hc', hn⟩
      | tail _ hx ih => exact ⟨ih.1.micro he' hx, ih.2.micro ih.1 he hx⟩
    exact this.2

theorem Alone.prefix {a b : List Ev} (h : Alone (a ++ b)) : Alone a := by
  intro x y hxy
  exact h x (y ++ b) (by rw [hxy, List.append_assoc])

theorem Noted.reachable (h : List Ev) (ha : Alone h) : Noted (exec .init h) := by
  have key : ∀ (b a : List Ev), Alone (a ++ b) → Noted (exec .init a) → Noted (exec .init (a ++ b)) := by
    intro b
    induction b with
    | nil => intro a _ hn; rw [List.append_nil]; exact hn
    | cons e b ih =>
      intro a ha hn
      have : a ++ e :: b = (a ++ [e]) ++ b := by simp
      rw [this] at ha ⊢
      refine ih (a ++ [e]) ha ?_
      rw [exec_append]
      exact hn.step (Core.reachable a) (QInv.reachable a) (fun i j id id' h1 h2 => ha a (e :: b) (by simp) i j id id' h1 h2) e
  have := key h [] (by simpa using ha) (fun i id hw => by simp [exec, St.init, Waits] at hw)
  simpa using this

end Verif.Connect
