import Verif.Spec.Launch
import Verif.Props.Promiscuous
/-! # Invariant of the VNIC daemon -/
namespace Verif.Launch

/-- What is scheduled in each mode. `safe`: the reconnecting listener was always alerted. -/
def Sched (s : St) (safe : Prop) : Mode → Prom.Phase → Prop
  | .waiting t0, p => p = .idle ∧ t0 ≤ s.now ∧ s.live = notConnectedStr ∧
      ((∃ due, t0 + 30 ≤ due ∧ due ≤ s.now + 30 ∧ OnlyTimer s due) ∨ (∃ k, OnlyTask s k ∧ s.task k = some .failed) ∨ (¬ safe ∧ Dead s))
  | .trying, p => s.live = notConnectedStr ∧
      ∃ k, OnlyTask s k ∧ ((p = .idle ∧ s.task k = some .dialing) ∨ ∃ tx, p = .opening tx ∧ s.task k = some (.opening tx))
  | .linked tx, p => p = .up tx ∧ s.live = connectedStr ∧ OnlyLink s tx

structure Inv (z n d i : Nat) (safe : Prop) (l : Nat) (s : St) (m : Mode) (p : Prom.Phase) : Prop where
  trace : Trace s.out m
  net : Prom.Inv z n d i s.net p l
  quiet : ∀ tx, Prom.Eff.close tx ∉ s.net.out
  sched : Sched s safe m p
  exact : ∀ t tx, s.out.getLast? = some (t, Out.down tx) → s.timers = [t + 30] ∨ ¬ safe
  fresh : ∀ k, s.nTask ≤ k → s.task k = none

theorem raised_false {z n d i l : Nat} {a b : Prom.St} {p : Prom.Phase} (h : Prom.Inv z n d i b p l) : raised a b = false := by
  unfold raised
  rw [decide_eq_false_iff_not]
  intro hm
  exact h.noraise (List.mem_of_mem_drop hm)

/-- `writeStatus` changes nothing but the file. -/
theorem writeStatus_eq (c : Cfg) (w : Write) (s : St) (x : Str) :
    ∃ f, (writeStatus c w s x).1 = { s with files := f } ∧ ((writeStatus c w s x).2 = false ↔ w = .ok) := by
  cases w <;> simp [writeStatus]
  all_goals exact ⟨_, rfl⟩

/-- The alert of a new link changes nothing but the file. -/
theorem alert_made (c : Cfg) (w : Write) (s : St) : ∃ f, (alert c w s .connectionMade).1 = { s with files := f } := by
  obtain ⟨f, h1, h2⟩ := writeStatus_eq c w s connectedStr
  unfold alert statusAlert connectAlert
  split
  · dsimp only
    cases h : writeStatus c w s connectedStr with
    | mk s1 b => rw [h] at h1; cases b <;> exact ⟨f, h1⟩
  · exact ⟨f, h1⟩

/-- The alert of a loss sets the timer, or writing the file failed before. -/
theorem alert_lost (c : Cfg) (w : Write) (s : St) : ∃ f,
    (alert c w s .connectionLost).1 = { s with files := f, timers := s.timers ++ [s.now + 30] } ∨
    (c.statusFirst = true ∧ w ≠ .ok ∧ (alert c w s .connectionLost).1 = { s with files := f }) := by
  unfold alert statusAlert connectAlert
  by_cases hc : c.statusFirst = true
  · rw [if_pos hc]
    obtain ⟨f, h1, h2⟩ := writeStatus_eq c w s disconnectedStr
    dsimp only
    cases h : writeStatus c w s disconnectedStr with
    | mk s1 b =>
      rw [h] at h1 h2
      dsimp only at h1 h2
      cases b
      · exact ⟨f, .inl (by rw [h1]; rfl)⟩
      · exact ⟨f, .inr ⟨hc, fun hw => (by have := h2.2 hw; cases this), h1⟩⟩
  · rw [if_neg hc]
    obtain ⟨f, h1, h2⟩ := writeStatus_eq c w (callLater s) disconnectedStr
    exact ⟨f, .inl (by dsimp only; rw [h1]; rfl)⟩

theorem update_quiet {s : Prom.St} {l tx : Nat} (h : Prom.Eff.close tx ∈ (Prom.update s l).out) : Prom.Eff.close tx ∈ s.out := by
  unfold Prom.update Prom.change Prom.St.emit at h
  split at h
  · split at h
    · split at h <;> simpa using h
    · simpa using h
  · exact h

theorem setLevel_quiet {s : Prom.St} {l : Option Int} {tx : Nat} (h : Prom.Eff.close tx ∈ (Prom.setLevel s l).out) :
    Prom.Eff.close tx ∈ s.out := by
  unfold Prom.setLevel at h
  split at h
  · have := update_quiet h
    exact this
  · exact h

theorem made_quiet {s : Prom.St} {m tx : Nat} (h : Prom.Eff.close tx ∈ (Prom.made s m).out) : Prom.Eff.close tx ∈ s.out := by
  unfold Prom.made at h
  dsimp only at h
  have : ∀ x : Prom.St, ∀ a, Prom.Eff.close tx ∈ (Prom.change x m a).out → Prom.Eff.close tx ∈ x.out := by
    intro x a
    unfold Prom.change Prom.St.emit
    split <;> simp
  split at h
  · have h2 := update_quiet h
    have h3 := this { s with up := fun n => if n = m then true else s.up n } _ h2
    exact h3
  · have h3 := this { s with up := fun n => if n = m then true else s.up n } _ h
    exact h3

theorem factory_quiet {s : Prom.St} {tx : Nat} (hl : s.link = none) (h : Prom.Eff.close tx ∈ (Prom.factory s).out) :
    Prom.Eff.close tx ∈ s.out := by
  unfold Prom.factory at h
  rw [hl] at h
  exact h

theorem mono_sched {s : St} {a b : Prop} {m : Mode} {p : Prom.Phase} (hab : b → a) (h : Sched s a m p) : Sched s b m p := by
  cases m with
  | waiting t0 => exact ⟨h.1, h.2.1, h.2.2.1, h.2.2.2.imp id (Or.imp id fun x => ⟨fun hb => x.1 (hab hb), x.2⟩)⟩
  | trying => exact h
  | linked => exact h

theorem Inv.mono {z n d i l : Nat} {a b : Prop} {s : St} {m : Mode} {p : Prom.Phase} (hab : b → a) (h : Inv z n d i a l s m p) :
    Inv z n d i b l s m p :=
  ⟨h.trace, h.net, h.quiet, mono_sched hab h.sched, fun t tx e => (h.exact t tx e).imp id fun x hb => x (hab hb), h.fresh⟩

theorem Inv.init {c : Cfg} {z n d i : Nat} {old : Str} {w : Write} {s : St} (h : start c (addr z n d i) old w = some s) (safe : Prop) :
    Inv z n d i safe 0 s .trying .idle := by
  unfold start at h
  obtain ⟨f, h1, h2⟩ := writeStatus_eq c w ⟨.init (addr z n d i), 0, [], fun _ => none, 0, [], notConnectedStr, [old], []⟩ disconnectedStr
  cases hw : writeStatus c w ⟨.init (addr z n d i), 0, [], fun _ => none, 0, [], notConnectedStr, [old], []⟩ disconnectedStr with
  | mk s1 b =>
    rw [hw] at h h1
    cases b with
    | true => cases h
    | false =>
      dsimp only at h h1
      cases h
      subst h1
      refine ⟨.first 0, Prom.Inv.init z n d i, by simp [Prom.St.init, connect], ⟨rfl, 0, ⟨rfl, ?_, rfl⟩, .inl ⟨rfl, rfl⟩⟩, ?_, ?_⟩
      · intro j
        simp only [Trying, connect]
        by_cases hj : j = 0 <;> simp [hj]
      · intro t tx hh; simp [connect] at hh
      · intro k hk
        simp only [connect] at hk ⊢
        rw [if_neg (by omega)]

/-- The effect of one event on the level. -/
def evLevel (l : Nat) : Ev → Nat
  | .setLevel x => Prom.asked x
  | _ => l

/-- Whether the event keeps the daemon safe. -/
def evSafe (c : Cfg) : Ev → Prop
  | .lost _ w => c.statusFirst = false ∨ w = .ok
  | _ => True

theorem one_task {s : St} {k j : Nat} {t : Task} (h : OnlyTask s k) (ht : s.task j = some t) (hn : ∀ tx, t ≠ .made tx) : j = k := by
  apply (h.2.1 j).1
  cases t with
  | dialing => exact .inl ht
  | failed => exact .inr (.inl ht)
  | opening tx => exact .inr (.inr ⟨tx, ht⟩)
  | made tx => exact absurd rfl (hn tx)

theorem not_trying_made {s : St} {k tx : Nat} (h : s.task k = some (.made tx)) : ¬ Trying s k := by
  rintro (h1 | h1 | ⟨_, h1⟩) <;> rw [h] at h1 <;> cases h1

theorem not_trying_none {s : St} {k : Nat} (h : s.task k = none) : ¬ Trying s k := by
  rintro (h1 | h1 | ⟨_, h1⟩) <;> rw [h] at h1 <;> cases h1

/-- Ending or finishing the only task leaves none. -/
theorem no_task {s s' : St} {k : Nat} (h : ∀ j, Trying s j ↔ j = k) (hk : ¬ Trying s' k) (ho : ∀ j, j ≠ k → s'.task j = s.task j) :
    ∀ j, ¬ Trying s' j := by
  intro j hj
  by_cases e : j = k
  · subst e; exact hk hj
  · apply e
    apply (h j).1
    unfold Trying at hj ⊢
    rwa [ho j e] at hj

theorem same_task {s s' : St} {k : Nat} (h : ∀ j, Trying s j ↔ j = k) (hk : Trying s' k) (ho : ∀ j, j ≠ k → s'.task j = s.task j) :
    ∀ j, Trying s' j ↔ j = k := by
  intro j
  constructor
  · intro hj
    apply Classical.byContradiction
    intro e
    apply e
    apply (h j).1
    unfold Trying at hj ⊢
    rwa [ho j e] at hj
  · rintro rfl; exact hk

/-- A task that is none or done may go. -/
theorem drop_done {s : St} {k : Nat} (hk : ¬ Trying s k) (j : Nat) : Trying (setTask s k none) j ↔ Trying s j := by
  unfold Trying setTask
  dsimp only
  by_cases e : j = k
  · subst e
    rw [if_pos rfl]
    constructor
    · rintro (h | h | ⟨_, h⟩) <;> cases h
    · intro h; exact absurd h hk
  · rw [if_neg e]

theorem sched_congr {s s' : St} {safe : Prop} {m : Mode} {p : Prom.Phase} (h : Sched s safe m p) (h1 : s'.timers = s.timers)
    (h2 : s'.links = s.links) (h3 : ∀ j, Trying s' j ↔ Trying s j) (h4 : ∀ j t, (∀ tx, t ≠ .made tx) → s.task j = some t → s'.task j = some t)
    (h5 : s.now ≤ s'.now) (h6 : s'.live = s.live) : Sched s' safe m p := by
  have hT : ∀ due, OnlyTimer s due → OnlyTimer s' due := fun due h => ⟨h1 ▸ h.1, fun k hk => h.2.1 k ((h3 k).1 hk), h2 ▸ h.2.2⟩
  have hK : ∀ k, OnlyTask s k → OnlyTask s' k := fun k h => ⟨h1 ▸ h.1, fun j => (h3 j).trans (h.2.1 j), h2 ▸ h.2.2⟩
  have hD : Dead s → Dead s' := fun h => ⟨h1 ▸ h.1, fun k hk => h.2.1 k ((h3 k).1 hk), h2 ▸ h.2.2⟩
  cases m with
  | waiting t0 =>
    obtain ⟨a, b, c, d⟩ := h
    refine ⟨a, by omega, h6 ▸ c, ?_⟩
    rcases d with ⟨due, x, x', y⟩ | ⟨k, x, y⟩ | ⟨x, y⟩
    · exact .inl ⟨due, x, by omega, hT _ y⟩
    · exact .inr (.inl ⟨k, hK _ x, h4 _ _ (fun _ h => nomatch h) y⟩)
    · exact .inr (.inr ⟨x, hD y⟩)
  | trying =>
    obtain ⟨a, k, b, c⟩ := h
    refine ⟨h6 ▸ a, k, hK _ b, ?_⟩
    rcases c with ⟨x, y⟩ | ⟨tx, x, y⟩
    · exact .inl ⟨x, h4 _ _ (fun _ h => nomatch h) y⟩
    · exact .inr ⟨tx, x, h4 _ _ (fun _ h => nomatch h) y⟩
  | linked tx =>
    obtain ⟨a, b, c⟩ := h
    exact ⟨a, h6 ▸ b, h1 ▸ c.1, fun k hk => c.2.1 k ((h3 k).1 hk), h2 ▸ c.2.2⟩

theorem trace_last_dial {l : List (Nat × Out)} {m : Mode} (h : Trace l m) (t : Nat) (o : Out) (hl : l.getLast? = some (t, o)) :
    match o with
    | .dial => m = .trying
    | .refused => m = .waiting t
    | .up tx => m = .linked tx
    | .down _ => m = .waiting t := by
  cases h <;> simp at hl <;> obtain ⟨rfl, rfl⟩ := hl <;> rfl

theorem Inv.step {c : Cfg} {z n d i l : Nat} {safe : Prop} {s : St} {m : Mode} {p : Prom.Phase} (h : Inv z n d i safe l s m p) (e : Ev) :
    ∃ m' p', Inv z n d i (safe ∧ evSafe c e) (evLevel l e) (step c s e) m' p' := by
  have hsame : ∃ m' p', Inv z n d i (safe ∧ evSafe c e) l s m' p' := ⟨m, p, h.mono And.left⟩
  cases e with
  | wait x =>
    refine ⟨m, p, h.trace, h.net, h.quiet, ?_, fun t tx e => (h.exact t tx e).imp id fun x hb => x hb.1, h.fresh⟩
    exact sched_congr (mono_sched And.left h.sched) rfl rfl (fun _ => Iff.rfl) (fun _ _ _ x => x) (Nat.le_add_right _ _) rfl
  | setLevel x =>
    refine ⟨m, p, h.trace, ?_, fun tx hh => h.quiet tx (setLevel_quiet hh), ?_, fun t tx e => (h.exact t tx e).imp id fun x hb => x hb.1, h.fresh⟩
    · have := (h.net.step (e := .setLevel x) (p' := p) (by cases p <;> rfl)).1
      exact this
    · exact sched_congr (mono_sched And.left h.sched) rfl rfl (fun _ => Iff.rfl) (fun _ _ _ x => x) (Nat.le_refl _) rfl
  | fire due =>
    unfold Launch.step
    dsimp only
    split
    case isFalse => exact hsame
    case isTrue hd =>
    obtain ⟨hd, hn⟩ := hd
    have hs := h.sched
    cases m with
    | trying => obtain ⟨_, k, hk, _⟩ := hs; rw [hk.1] at hd; cases hd
    | linked tx => rw [hs.2.2.1] at hd; cases hd
    | waiting t0 =>
      obtain ⟨hp, ht, hlive, hs⟩ := hs
      rcases hs with ⟨due', hle, hle', hT⟩ | ⟨k, hk, _⟩ | ⟨_, hD⟩
      · rw [hT.1] at hd
        rw [List.mem_singleton] at hd
        subst hd
        refine ⟨.trying, p, .dial _ t0 h.trace (by show t0 + 30 ≤ s.now; omega), h.net, h.quiet, ⟨hlive, s.nTask, ⟨?_, ?_, hT.2.2⟩, .inl ⟨hp, ?_⟩⟩, ?_, ?_⟩
        · simp [connect, hT.1]
        · intro j
          unfold Trying connect
          dsimp only
          by_cases hj : j = s.nTask
          · simp [hj]
          · rw [if_neg hj]
            constructor
            · intro hh; exact absurd hh (hT.2.1 j)
            · intro hh; exact absurd hh hj
        · simp [connect]
        · intro t tx hh; simp [connect] at hh
        · intro k hk
          simp only [connect] at hk ⊢
          rw [if_neg (by omega)]
          exact h.fresh k (by omega)
      · rw [hk.1] at hd; cases hd
      · rw [hD.1] at hd; cases hd
  | refuse k =>
    unfold Launch.step
    dsimp only
    split
    case isFalse => exact hsame
    case isTrue hk =>
    have hs := h.sched
    cases m with
    | linked tx => exact absurd (.inl hk) (hs.2.2.2.1 k)
    | waiting t0 =>
      rcases hs.2.2.2 with ⟨due', hle, hle', hT⟩ | ⟨j, hj, hf⟩ | ⟨_, hD⟩
      · exact absurd (.inl hk) (hT.2.1 k)
      · have := one_task hj hk (fun _ h => nomatch h)
        subst this
        rw [hk] at hf; cases hf
      · exact absurd (.inl hk) (hD.2.1 k)
    | trying =>
      obtain ⟨hlive, j, hj, hs⟩ := hs
      have := one_task hj hk (fun _ h => nomatch h)
      subst this
      rcases hs with ⟨hp, _⟩ | ⟨tx, _, hf⟩
      · refine ⟨.waiting s.now, p, .refused _ h.trace, h.net, h.quiet,
          ⟨hp, Nat.le_refl _, hlive, .inr (.inl ⟨k, ⟨hj.1, ?_, hj.2.2⟩, ?_⟩)⟩, ?_, ?_⟩
        · apply same_task hj.2.1
          · exact .inr (.inl (by simp [setTask]))
          · intro j hj; simp [setTask, hj]
        · simp [setTask]
        · intro t tx hh; simp [setTask] at hh
        · intro k' hk'
          simp only [setTask] at hk' ⊢
          split
          · rename_i e; subst e; rw [h.fresh _ hk'] at hk; cases hk
          · exact h.fresh _ hk'
      · rw [hk] at hf; cases hf
  | accept k =>
    unfold Launch.step
    dsimp only
    split
    case isFalse => exact hsame
    case isTrue hk =>
    have hs := h.sched
    cases m with
    | linked tx => exact absurd (.inl hk) (hs.2.2.2.1 k)
    | waiting t0 =>
      rcases hs.2.2.2 with ⟨due', hle, hle', hT⟩ | ⟨j, hj, hf⟩ | ⟨_, hD⟩
      · exact absurd (.inl hk) (hT.2.1 k)
      · have := one_task hj hk (fun _ h => nomatch h)
        subst this
        rw [hk] at hf; cases hf
      · exact absurd (.inl hk) (hD.2.1 k)
    | trying =>
      obtain ⟨hlive, j, hj, hs⟩ := hs
      have := one_task hj hk (fun _ h => nomatch h)
      subst this
      rcases hs with ⟨hp, _⟩ | ⟨tx, _, hf⟩
      · subst hp
        refine ⟨.trying, .opening s.net.nTx, h.trace, ?_, fun tx hh => h.quiet tx (factory_quiet h.net.phase.2 hh),
          ⟨hlive, k, ⟨hj.1, ?_, hj.2.2⟩, .inr ⟨_, rfl, ?_⟩⟩, ?_, ?_⟩
        · exact (h.net.step (e := .factory) (p' := .opening s.net.nTx) rfl).1
        · apply same_task hj.2.1
          · exact .inr (.inr ⟨s.net.nTx, by simp [setTask]⟩)
          · intro j hj; simp [setTask, hj]
        · simp [setTask]
        · intro t tx hh
          have := trace_last_dial h.trace t _ hh
          cases this
        · intro k' hk'
          simp only [setTask] at hk' ⊢
          split
          · rename_i e; subst e; rw [h.fresh _ hk'] at hk; cases hk
          · exact h.fresh _ hk'
      · rw [hk] at hf; cases hf
  | made k w =>
    unfold Launch.step
    dsimp only
    split
    case h_2 => exact hsame
    case h_1 tx hk =>
    have hs := h.sched
    cases m with
    | linked tx' => exact absurd (.inr (.inr ⟨tx, hk⟩)) (hs.2.2.2.1 k)
    | waiting t0 =>
      rcases hs.2.2.2 with ⟨due', hle, hle', hT⟩ | ⟨j, hj, hf⟩ | ⟨_, hD⟩
      · exact absurd (.inr (.inr ⟨tx, hk⟩)) (hT.2.1 k)
      · have := one_task hj hk (fun _ h => nomatch h)
        subst this
        rw [hk] at hf; cases hf
      · exact absurd (.inr (.inr ⟨tx, hk⟩)) (hD.2.1 k)
    | trying =>
      obtain ⟨hlive, j, hj, hs⟩ := hs
      have := one_task hj hk (fun _ h => nomatch h)
      subst this
      rcases hs with ⟨_, hf⟩ | ⟨tx', hp, hf⟩
      · rw [hk] at hf; cases hf
      · rw [hk] at hf; cases hf
        subst hp
        have hnet := (h.net.step (e := .made tx) (p' := .up tx) (by simp [Prom.nextPhase])).1
        have hr : raised s.net (Prom.made s.net tx) = false := raised_false (a := s.net) hnet
        unfold connectionMade
        dsimp only
        rw [show (setTask s k (some (.made tx))).net = s.net from rfl, hr, if_neg (by simp)]
        obtain ⟨f, hf⟩ := alert_made c w
          { setTask s k (some (.made tx)) with net := Prom.made s.net tx, links := s.links ++ [tx], out := s.out ++ [(s.now, .up tx)], live := connectedStr }
        simp only [setTask] at hf ⊢
        rw [hf]
        refine ⟨.linked tx, .up tx, .up _ _ h.trace, hnet, fun tx hh => h.quiet tx (made_quiet hh),
          ⟨rfl, rfl, hj.1, ?_, by simp [hj.2.2]⟩, ?_, ?_⟩
        · apply no_task hj.2.1
          · exact not_trying_made (tx := tx) (by simp)
          · intro j hj; simp [hj]
        · intro t tx hh; simp at hh
        · intro k' hk'
          dsimp only at hk' ⊢
          split
          · rename_i e; subst e; rw [h.fresh _ hk'] at hk; cases hk
          · exact h.fresh _ hk'
  | lost tx w =>
    unfold Launch.step
    dsimp only
    split
    case isFalse => exact hsame
    case isTrue hm =>
    have hs := h.sched
    cases m with
    | trying => obtain ⟨_, k, hk, _⟩ := hs; rw [hk.2.2] at hm; cases hm
    | waiting t0 =>
      rcases hs.2.2.2 with ⟨due', hle, hle', hT⟩ | ⟨j, hj, hf⟩ | ⟨_, hD⟩
      · rw [hT.2.2] at hm; cases hm
      · rw [hj.2.2] at hm; cases hm
      · rw [hD.2.2] at hm; cases hm
    | linked tx' =>
      obtain ⟨hp, hlive, ht, hk, hl⟩ := hs
      rw [hl, List.mem_singleton] at hm
      subst hm
      subst hp
      have hnet := (h.net.step (e := .lost tx) (p' := .idle) (by simp [Prom.nextPhase])).1
      unfold connectionLost
      dsimp only
      obtain ⟨f, hf⟩ := alert_lost c w
        { s with net := Prom.lost s.net tx, links := s.links.filter (· ≠ tx), out := s.out ++ [(s.now, .down tx)], live := notConnectedStr }
      have hl' : s.links.filter (· ≠ tx) = [] := by rw [hl]; simp
      rcases hf with hf | ⟨hc, hw, hf⟩
      · rw [hf]
        refine ⟨.waiting s.now, .idle, .down _ _ h.trace, hnet, h.quiet, ⟨rfl, Nat.le_refl _, rfl, .inl ⟨s.now + 30, Nat.le_refl _, Nat.le_refl _, ?_, hk, hl'⟩⟩, ?_, h.fresh⟩
        · simp [ht]
        · intro t tx hh
          simp at hh
          left; simp [ht, hh.1]
      · rw [hf]
        have hns : ¬ (safe ∧ evSafe c (.lost tx w)) := by
          rintro ⟨_, x | x⟩
          · rw [hc] at x; cases x
          · exact hw x
        exact ⟨.waiting s.now, .idle, .down _ _ h.trace, hnet, h.quiet, ⟨rfl, Nat.le_refl _, rfl, .inr (.inr ⟨hns, ht, hk, hl'⟩)⟩,
          fun _ _ _ => .inr hns, h.fresh⟩
  | finish k =>
    unfold Launch.step
    dsimp only
    split
    case h_3 => exact hsame
    case h_1 hk =>
      have hs := h.sched
      have hfr : ∀ k', s.nTask ≤ k' → (setTask s k none).task k' = none := by
        intro k' hk'
        simp only [setTask]
        split
        · rfl
        · exact h.fresh _ hk'
      cases m with
      | linked tx' => exact absurd (.inr (.inl hk)) (hs.2.2.2.1 k)
      | trying =>
        obtain ⟨_, j, hj, hs⟩ := hs
        have := one_task hj hk (fun _ h => nomatch h)
        subst this
        rcases hs with ⟨_, hf⟩ | ⟨tx', hp, hf⟩ <;> rw [hk] at hf <;> cases hf
      | waiting t0 =>
        obtain ⟨hp, ht, hlive, hs⟩ := hs
        rcases hs with ⟨due', hle, hle', hT⟩ | ⟨j, hj, hf⟩ | ⟨_, hD⟩
        · exact absurd (.inr (.inl hk)) (hT.2.1 k)
        · have := one_task hj hk (fun _ h => nomatch h)
          subst this
          unfold connectFinished
          rw [if_pos rfl]
          refine ⟨.waiting t0, p, h.trace, h.net, h.quiet, ⟨hp, ht, hlive, .inl ⟨s.now + 30, by omega, Nat.le_refl _, ?_, ?_, hj.2.2⟩⟩, ?_, hfr⟩
          · simp [callLater, setTask, hj.1, reconnectDelay]
          · apply no_task hj.2.1
            · exact not_trying_none (by simp [callLater, setTask])
            · intro j hj; simp [callLater, setTask, hj]
          · intro t tx hh
            rcases h.exact t tx hh with x | x
            · rw [hj.1] at x; cases x
            · exact .inr fun hb => x hb.1
        · exact absurd (.inr (.inl hk)) (hD.2.1 k)
    case h_2 tx hk =>
      unfold connectFinished
      rw [if_neg (by simp)]
      refine ⟨m, p, h.trace, h.net, h.quiet, ?_, fun t tx e => (h.exact t tx e).imp id fun x hb => x hb.1, ?_⟩
      · refine sched_congr (s' := setTask s k none) (mono_sched And.left h.sched) rfl rfl (drop_done (not_trying_made hk)) ?_ ?_ ?_
        · intro j t ht hj
          simp only [setTask]
          split
          · rename_i e; subst e; rw [hk] at hj; cases hj; exact absurd rfl (ht tx)
          · exact hj
        · exact Nat.le_refl _
        · rfl
      · intro k' hk'
        simp only [setTask]
        split
        · rfl
        · exact h.fresh _ hk'

theorem exec_append (c : Cfg) : ∀ (h : List Ev) (s : St) (h' : List Ev), exec c s (h ++ h') = exec c (exec c s h) h'
  | [], _, _ => rfl
  | _ :: h, _, h' => exec_append c h _ h'

def levelsOf (h : List Ev) : List Prom.Ev := h.filterMap fun
  | .setLevel l => some (.setLevel l)
  | _ => none

theorem levelFrom_cons (l : Nat) (e : Ev) (h : List Ev) :
    Prom.levelFrom l (levelsOf (e :: h)) = Prom.levelFrom (evLevel l e) (levelsOf h) := by
  cases e <;> rfl

theorem Inv.exec {c : Cfg} {z n d i : Nat} : ∀ (h : List Ev) {safe : Prop} {l : Nat} {s : St} {m : Mode} {p : Prom.Phase},
    Inv z n d i safe l s m p →
    ∃ m' p', Inv z n d i (safe ∧ ∀ e ∈ h, evSafe c e) (Prom.levelFrom l (levelsOf h)) (exec c s h) m' p'
  | [], _, _, _, m, p, hi => ⟨m, p, hi.mono And.left⟩
  | e :: h, safe, l, s, m, p, hi => by
    obtain ⟨m1, p1, h1⟩ := hi.step (c := c) e
    obtain ⟨m2, p2, h2⟩ := Inv.exec (c := c) h h1
    rw [levelFrom_cons]
    refine ⟨m2, p2, h2.mono ?_⟩
    rintro ⟨a, b⟩
    exact ⟨⟨a, b e (List.mem_cons_self ..)⟩, fun e' he' => b e' (List.mem_cons_of_mem _ he')⟩

theorem safe_ev {c : Cfg} {h : List Ev} (hs : Safe c h) : ∀ e ∈ h, evSafe c e := by
  intro e he
  cases e with
  | lost tx w =>
    rcases hs with hs | hs
    · exact .inl hs
    · exact .inr (hs tx w he)
  | _ => trivial

theorem Inv.reachable {c : Cfg} {z n d i : Nat} {old : Str} {w : Write} {s : St} (h : start c (addr z n d i) old w = some s) (es : List Ev) :
    ∃ m p, Inv z n d i (Safe c es) (levelAfter es) (Launch.exec c s es) m p := by
  obtain ⟨m, p, hi⟩ := Inv.exec (c := c) es (Inv.init h True)
  exact ⟨m, p, hi.mono fun hs => ⟨trivial, safe_ev hs⟩⟩

end Verif.Launch
