import Verif.Lemmas.Shell
/-! # Lemmas: the commands of the shell in a history -/
namespace Verif.Shell

/-- What lasts. -/
structure Lasts (s s' : St) : Prop where
  nObj : s.nObj ≤ s'.nObj
  same : ∀ o, o < s.nObj → (s'.obj o).txt = (s.obj o).txt ∧ (s'.obj o).mode = (s.obj o).mode ∧ (s'.obj o).dflt = (s.obj o).dflt ∧ (s'.obj o).user = (s.obj o).user
  pods : ∀ o n p, o < s.nObj → (s.obj o).pods.get n = some p → (s'.obj o).pods.get n = some p
  subs : ∀ o w o', o < s.nObj → (s.obj o).subs.get w = some o' → (s'.obj o).subs.get w = some o'
  commands : ∀ c o, s.commands.get c = some o → s'.commands.get c = some o
  fin : ∀ n b, s.fin.get n = some b → s'.fin.get n = some b
  out : s.out <+: s'.out
  nTask : s.nTask ≤ s'.nTask

theorem Lasts.refl (s : St) : Lasts s s :=
  ⟨Nat.le_refl _, fun _ _ => ⟨rfl, rfl, rfl, rfl⟩, fun _ _ _ _ h => h, fun _ _ _ _ h => h, fun _ _ h => h, fun _ _ h => h, List.prefix_refl _, Nat.le_refl _⟩

theorem Lasts.trans {s t u : St} (h : Lasts s t) (g : Lasts t u) : Lasts s u where
  nObj := Nat.le_trans h.nObj g.nObj
  same := fun o ho => by
    obtain ⟨a, b, c, d⟩ := h.same o ho
    obtain ⟨a', b', c', d'⟩ := g.same o (Nat.lt_of_lt_of_le ho h.nObj)
    exact ⟨a'.trans a, b'.trans b, c'.trans c, d'.trans d⟩
  pods := fun o n p ho hp => g.pods o n p (Nat.lt_of_lt_of_le ho h.nObj) (h.pods o n p ho hp)
  subs := fun o w o' ho hp => g.subs o w o' (Nat.lt_of_lt_of_le ho h.nObj) (h.subs o w o' ho hp)
  commands := fun c o hc => g.commands c o (h.commands c o hc)
  fin := fun n b hb => g.fin n b (h.fin n b hb)
  out := h.out.trans g.out
  nTask := Nat.le_trans h.nTask g.nTask

theorem Frame.lasts {s s' : St} (h : Frame s s') : Lasts s s' where
  nObj := Nat.le_of_eq h.nObj.symm
  same := fun o _ => by rw [h.obj]; exact ⟨rfl, rfl, rfl, rfl⟩
  pods := fun o n p _ hp => by rw [h.obj]; exact hp
  subs := fun o n p _ hp => by rw [h.obj]; exact hp
  commands := fun c o hc => by rw [h.commands]; exact hc
  fin := fun n b hb => by rw [h.fin]; exact hb
  out := h.out
  nTask := h.nTask

theorem Lasts.alloc (s : St) (o : Obj) : Lasts s (alloc s o) where
  nObj := Nat.le_succ _
  same := fun i hi => by simp [Shell.alloc, upd, Nat.ne_of_lt hi]
  pods := fun i n p hi hp => by simpa [Shell.alloc, upd, Nat.ne_of_lt hi] using hp
  subs := fun i n p hi hp => by simpa [Shell.alloc, upd, Nat.ne_of_lt hi] using hp
  commands := fun _ _ h => h
  fin := fun _ _ h => h
  out := List.prefix_refl _
  nTask := Nat.le_refl _

theorem get_set_keep {α β : Type} [DecidableEq α] {d : Dict α β} {k k' : α} {v v' : β} (h : d.has k = false) (h' : d.get k' = some v') : (d.set k v).get k' = some v' := by
  have : k ≠ k' := by
    rintro rfl
    simp [Dict.has, h'] at h
  rw [Dict.get_set_ne d v this]; exact h'

/-- `__registerCommand` of a free name. -/
theorem Lasts.add {s : St} (o : Nat) (hs : (s.obj 0).subs.has (s.obj o).txt = false) (h0 : 0 < s.nObj) : Lasts s (addCommand s o) := by
  unfold addCommand
  simp only
  split
  · exact (Frame.emit s _).lasts
  · next hc =>
    have hn : ¬ 0 = s.nObj := by omega
    refine ⟨Nat.le_succ _, ?_, ?_, ?_, ?_, fun _ _ h => h, List.prefix_refl _, Nat.le_refl _⟩
    · intro i hi
      simp only [Shell.alloc, upd]
      by_cases h : i = 0
      · subst h; simp [hn]
      · simp [h, Nat.ne_of_lt hi]
    · intro i n p hi hp
      simp only [Shell.alloc, upd]
      by_cases h : i = 0
      · subst h; simpa [hn] using hp
      · simpa [h, Nat.ne_of_lt hi] using hp
    · intro i w o' hi hp
      simp only [Shell.alloc, upd]
      by_cases h : i = 0
      · subst h; simp only [hn, if_true, if_false]; exact get_set_keep hs hp
      · simpa [h, Nat.ne_of_lt hi] using hp
    · intro c i hi
      exact get_set_keep (by simpa using hc) hi

/-- The shell's own objects, and the subcommands of `help`. -/
structure Inv (s : St) : Prop where
  three : 3 ≤ s.nObj
  help : (s.obj 0).txt = "help".toList ∧ (s.obj 0).mode = .sub ∧ (s.obj 0).dflt = some ⟨.help none, none⟩ ∧ (s.obj 0).user = false
  batch : s.obj 1 = ⟨"batch".toList, .standard, none, [(1, ⟨.batch, none⟩)], [], false⟩
  quit : s.obj 2 = ⟨"quit".toList, .standard, some ⟨.quit, none⟩, [], [], false⟩
  low : ∀ c o, s.commands.get c = some o → o < s.nObj ∧ (s.obj o).txt = c
  subs : ∀ o w o', o < s.nObj → (s.obj o).subs.get w = some o' → o' < s.nObj
  own : s.commands.get "help".toList = some 0 ∧ s.commands.get "batch".toList = some 1 ∧ s.commands.get "quit".toList = some 2
  unknown : ∀ c, s.commands.get c = none → (s.obj 0).subs.get c = none
  known : ∀ c, s.commands.has c = true → ∃ o, (s.obj 0).subs.get c = some o ∧ s.obj o = ⟨c, .single, some ⟨.help (some c), none⟩, [], [], false⟩
  nice : ∀ o, o < s.nObj → (s.obj o).mode = .single → (s.obj o).dflt ≠ none
  zero : ∀ o, o < s.nObj → (s.obj o).pods.get 0 = none

theorem Inv.init : Inv .init where
  three := by decide
  help := by decide
  batch := by decide
  quit := by decide
  low := fun c o h => by
    have hm := Dict.mem_of_get h
    have : St.init.commands = [("help".toList, 0), ("batch".toList, 1), ("quit".toList, 2)] := by decide
    rw [this] at hm
    simp only [List.mem_cons, Prod.mk.injEq, List.not_mem_nil, or_false] at hm
    rcases hm with ⟨rfl, rfl⟩ | ⟨rfl, rfl⟩ | ⟨rfl, rfl⟩ <;> decide
  subs := fun o w o' ho h => by
    have hn : St.init.nObj = 6 := by decide
    rw [hn] at ho ⊢
    have hm := Dict.mem_of_get h
    have h0 : (St.init.obj 0).subs = [("help".toList, 3), ("batch".toList, 4), ("quit".toList, 5)] := by decide
    have hx : ∀ o, o < 6 → o ≠ 0 → (St.init.obj o).subs = [] := by decide
    by_cases e : o = 0
    · subst e
      rw [h0] at hm
      simp only [List.mem_cons, Prod.mk.injEq, List.not_mem_nil, or_false] at hm
      rcases hm with ⟨_, rfl⟩ | ⟨_, rfl⟩ | ⟨_, rfl⟩ <;> decide
    · rw [hx o ho e] at hm; cases hm
  own := by decide
  unknown := fun c h => by
    have hk : (St.init.obj 0).subs.keys = St.init.commands.keys := by decide
    rw [Dict.get_eq_none_iff] at h ⊢
    rw [hk]; exact h
  known := fun c h => by
    rw [Dict.has_iff] at h
    have : St.init.commands.keys = ["help".toList, "batch".toList, "quit".toList] := by decide
    rw [this] at h
    simp only [List.mem_cons, List.not_mem_nil, or_false] at h
    rcases h with rfl | rfl | rfl
    · exact ⟨3, by decide, by decide⟩
    · exact ⟨4, by decide, by decide⟩
    · exact ⟨5, by decide, by decide⟩
  nice := by decide
  zero := by decide

theorem Inv.frame {s s' : St} (hi : Inv s) (h : Frame s s') : Inv s' := by
  obtain ⟨n, ob, c, f, o, nt, t⟩ := h
  refine ⟨?_, ?_, ?_, ?_, ?_, ?_, ?_, ?_, ?_, ?_, ?_⟩
  · rw [n]; exact hi.three
  · rw [ob]; exact hi.help
  · rw [ob]; exact hi.batch
  · rw [ob]; exact hi.quit
  · rw [c, n, ob]; exact hi.low
  · rw [n, ob]; exact hi.subs
  · rw [c]; exact hi.own
  · rw [c, ob]; exact hi.unknown
  · rw [c, ob]; exact hi.known
  · rw [n, ob]; exact hi.nice
  · rw [n, ob]; exact hi.zero

/-- An object of the application changes. -/
theorem Inv.set {s : St} (hi : Inv s) {o : Nat} {x : Obj} (hu : (s.obj o).user = true) (h1 : x.txt = (s.obj o).txt) (h2 : x.mode = (s.obj o).mode)
    (h3 : x.dflt = (s.obj o).dflt) (hp : x.pods.get 0 = .none) (hs : ∀ w o', x.subs.get w = .some o' → o' < s.nObj) : Inv { s with obj := upd s.obj o x } := by
  have h0 : ¬ 0 = o := by rintro rfl; rw [hi.help.2.2.2] at hu; cases hu
  have h1' : ¬ 1 = o := by rintro rfl; rw [hi.batch] at hu; cases hu
  have h2' : ¬ 2 = o := by rintro rfl; rw [hi.quit] at hu; cases hu
  refine ⟨hi.three, ?_, ?_, ?_, ?_, ?_, hi.own, ?_, ?_, ?_, ?_⟩
  · simpa [upd, h0] using hi.help
  · simpa [upd, h1'] using hi.batch
  · simpa [upd, h2'] using hi.quit
  · intro c i hc
    refine ⟨(hi.low c i hc).1, ?_⟩
    simp only [upd]
    split
    · next e => subst e; rw [h1]; exact (hi.low c i hc).2
    · exact (hi.low c i hc).2
  · intro i w o' hi' hx
    simp only [upd] at hx
    split at hx
    · exact hs w o' hx
    · exact hi.subs i w o' hi' hx
  · intro c hc
    simpa [upd, h0] using hi.unknown c hc
  · intro c hc
    obtain ⟨i, g1, g2⟩ := hi.known c hc
    refine ⟨i, by simpa [upd, h0] using g1, ?_⟩
    simp only [upd]
    split
    · next e => subst e; rw [g2] at hu; cases hu
    · exact g2
  · intro i hi' hm
    simp only [upd] at hm ⊢
    split at hm
    · next e => subst e; rw [if_pos rfl, h3]; exact hi.nice i hi' (h2 ▸ hm)
    · next e => rw [if_neg e]; exact hi.nice i hi' hm
  · intro i hi'
    simp only [upd]
    split
    · exact hp
    · exact hi.zero i hi'

theorem Inv.alloc {s : St} (hi : Inv s) {o : Obj} (h1 : o.mode = .single → o.dflt ≠ .none) (h2 : o.pods = []) (h3 : o.subs = []) : Inv (alloc s o) := by
  have t := hi.three
  refine ⟨Nat.le_succ_of_le t, ?_, ?_, ?_, ?_, ?_, hi.own, ?_, ?_, ?_, ?_⟩
  · simpa [Shell.alloc, upd, show ¬ 0 = s.nObj by omega] using hi.help
  · simpa [Shell.alloc, upd, show ¬ 1 = s.nObj by omega] using hi.batch
  · simpa [Shell.alloc, upd, show ¬ 2 = s.nObj by omega] using hi.quit
  · intro c i hc
    have := (hi.low c i hc).1
    simp only [Shell.alloc, upd]
    refine ⟨by omega, ?_⟩
    rw [if_neg (by omega)]; exact (hi.low c i hc).2
  · intro i w o' hi' hx
    simp only [Shell.alloc, upd] at hx hi' ⊢
    split at hx
    · rw [h3] at hx; cases hx
    · have := hi.subs i w o' (by omega) hx; omega
  · intro c hc
    simpa [Shell.alloc, upd, show ¬ 0 = s.nObj by omega] using hi.unknown c hc
  · intro c hc
    obtain ⟨i, g1, g2⟩ := hi.known c hc
    have := hi.subs 0 c i (by omega) g1
    refine ⟨i, by simpa [Shell.alloc, upd, show ¬ 0 = s.nObj by omega] using g1, ?_⟩
    simp only [Shell.alloc, upd]
    rw [if_neg (by omega)]; exact g2
  · intro i hi' hm
    simp only [Shell.alloc, upd] at hm hi' ⊢
    split at hm
    · next e => rw [if_pos e]; exact h1 hm
    · next e => rw [if_neg e]; exact hi.nice i (by omega) hm
  · intro i hi'
    simp only [Shell.alloc, upd] at hi' ⊢
    split
    · rw [h2]; rfl
    · exact hi.zero i (by omega)

theorem Inv.free {s : St} (hi : Inv s) {c : Str} (h : s.commands.has c = false) : (s.obj 0).subs.has c = false := by
  have := hi.unknown c (by simpa [Dict.has] using h)
  simp [Dict.has, this]

theorem Inv.add {s : St} (hi : Inv s) {o : Nat} (ho : o < s.nObj) : Inv (addCommand s o) := by
  unfold addCommand
  simp only
  split
  · exact hi.frame (.emit _ _)
  · next hc =>
    have hc : s.commands.has (s.obj o).txt = false := by simpa using hc
    have t := hi.three
    have hn : ¬ 0 = s.nObj := by omega
    have keep : ∀ c i, s.commands.get c = .some i → (s.commands.set (s.obj o).txt o).get c = .some i := fun c i h => get_set_keep hc h
    have hs := hi.free hc
    refine ⟨Nat.le_succ_of_le t, ?_, ?_, ?_, ?_, ?_, ?_, ?_, ?_, ?_, ?_⟩
    · simpa [Shell.alloc, upd, hn] using hi.help
    · simpa [Shell.alloc, upd, show ¬ 1 = s.nObj by omega] using hi.batch
    · simpa [Shell.alloc, upd, show ¬ 2 = s.nObj by omega] using hi.quit
    · intro c i h
      simp only [Shell.alloc] at h ⊢
      rw [Dict.get_set] at h
      have key : i < s.nObj ∧ (s.obj i).txt = c := by
        split at h
        · next e => cases h; exact ⟨ho, e⟩
        · exact hi.low c i h
      refine ⟨by omega, ?_⟩
      simp only [upd]
      by_cases e : i = 0
      · subst e; simpa [hn] using key.2
      · simpa [e, show ¬ i = s.nObj by omega] using key.2
    · intro i w o' hi' hx
      simp only [Shell.alloc, upd] at hx hi' ⊢
      by_cases e : i = 0
      · subst e
        simp only [hn, if_true, if_false] at hx
        rw [Dict.get_set] at hx
        split at hx
        · cases hx; omega
        · have := hi.subs 0 w o' (by omega) hx; omega
      · simp only [e, if_false] at hx
        split at hx
        · cases hx
        · have := hi.subs i w o' (by omega) hx; omega
    · exact ⟨keep _ _ hi.own.1, keep _ _ hi.own.2.1, keep _ _ hi.own.2.2⟩
    · intro c h
      simp only [Shell.alloc, upd, hn, if_true, if_false] at h ⊢
      rw [Dict.get_set] at h ⊢
      split at h
      · cases h
      · next e => rw [if_neg e]; exact hi.unknown c h
    · intro c h
      simp only [Shell.alloc, upd, hn, if_true, if_false] at h ⊢
      rw [Dict.has, Dict.get_set] at h
      rw [Dict.get_set]
      split at h
      · next e => rw [if_pos e]; refine ⟨_, rfl, ?_⟩; rw [if_neg (by omega), if_pos rfl, e]
      · next e =>
        rw [if_neg e]
        obtain ⟨i, g1, g2⟩ := hi.known c h
        have := hi.subs 0 c i (by omega) g1
        have hne : i ≠ 0 := by rintro rfl; have := congrArg Obj.mode g2; rw [hi.help.2.1] at this; cases this
        exact ⟨i, g1, by rw [if_neg hne, if_neg (by omega)]; exact g2⟩
    · intro i hi' hm
      simp only [Shell.alloc, upd] at hm hi' ⊢
      by_cases e : i = 0
      · subst e; simp only [hn, if_true, if_false] at hm ⊢; rw [hi.help.2.1] at hm; cases hm
      · simp only [e, if_false] at hm ⊢
        split at hm
        · next e' => rw [if_pos e']; simp
        · next e' => rw [if_neg e']; exact hi.nice i (by omega) hm
    · intro i hi'
      simp only [Shell.alloc, upd] at hi' ⊢
      by_cases e : i = 0
      · subst e; simp only [hn, if_true, if_false]; exact hi.zero 0 (by omega)
      · simp only [e, if_false]
        split
        · rfl
        · exact hi.zero i (by omega)

/-- Everything but tasks, outputs and futures. -/
structure Still (s s' : St) : Prop where
  nObj : s'.nObj = s.nObj
  obj : s'.obj = s.obj
  commands : s'.commands = s.commands
  fin : s'.fin = s.fin
  out : s.out <+: s'.out
  nTask : s.nTask ≤ s'.nTask

theorem Still.refl (s : St) : Still s s := ⟨rfl, rfl, rfl, rfl, List.prefix_refl _, Nat.le_refl _⟩

theorem Still.trans {s t u : St} (h : Still s t) (g : Still t u) : Still s u :=
  ⟨g.nObj.trans h.nObj, g.obj.trans h.obj, g.commands.trans h.commands, g.fin.trans h.fin, h.out.trans g.out, Nat.le_trans h.nTask g.nTask⟩

theorem Frame.still {s s' : St} (h : Frame s s') : Still s s' := ⟨h.nObj, h.obj, h.commands, h.fin, h.out, h.nTask⟩

theorem Still.lasts {s s' : St} (h : Still s s') : Lasts s s' where
  nObj := Nat.le_of_eq h.nObj.symm
  same := fun o _ => by rw [h.obj]; exact ⟨rfl, rfl, rfl, rfl⟩
  pods := fun o n p _ hp => by rw [h.obj]; exact hp
  subs := fun o n p _ hp => by rw [h.obj]; exact hp
  commands := fun c o hc => by rw [h.commands]; exact hc
  fin := fun n b hb => by rw [h.fin]; exact hb
  out := h.out
  nTask := h.nTask

theorem Inv.still {s s' : St} (hi : Inv s) (h : Still s s') : Inv s' := by
  obtain ⟨n, ob, c, f, o, nt⟩ := h
  refine ⟨?_, ?_, ?_, ?_, ?_, ?_, ?_, ?_, ?_, ?_, ?_⟩
  · rw [n]; exact hi.three
  · rw [ob]; exact hi.help
  · rw [ob]; exact hi.batch
  · rw [ob]; exact hi.quit
  · rw [c, n, ob]; exact hi.low
  · rw [n, ob]; exact hi.subs
  · rw [c]; exact hi.own
  · rw [c, ob]; exact hi.unknown
  · rw [c, ob]; exact hi.known
  · rw [n, ob]; exact hi.nice
  · rw [n, ob]; exact hi.zero

theorem still_after (s : St) (t : Nat) (l : Str) (r : Res) : Still s (afterLine s t l r) := by
  unfold afterLine
  split
  · exact ⟨rfl, rfl, rfl, rfl, List.prefix_append _ _, Nat.le_refl _⟩
  · exact ⟨rfl, rfl, rfl, rfl, List.prefix_append _ _, Nat.le_refl _⟩
  · exact ⟨rfl, rfl, rfl, rfl, List.prefix_refl _, Nat.le_refl _⟩

theorem still_run (e : Env) (s : St) (t : Nat) : Still s (runTask e s t) := by
  unfold runTask
  split
  · exact .refl _
  · split
    · exact ⟨rfl, rfl, rfl, rfl, List.prefix_refl _, Nat.le_refl _⟩
    · unfold feed
      simp only
      refine Still.trans ?_ (still_after _ _ _ _)
      refine Still.trans ?_ (Frame.emit _ _).still
      refine Still.trans ?_ (frame_line _ _ _).still
      exact ⟨rfl, rfl, rfl, rfl, List.prefix_append _ _, Nat.le_refl _⟩
  · split
    · exact .refl _
    · exact ⟨rfl, rfl, rfl, rfl, List.prefix_refl _, Nat.le_refl _⟩
    · exact ⟨rfl, rfl, rfl, rfl, List.prefix_append _ _, Nat.le_refl _⟩

theorem Inv.step {s : St} (hi : Inv s) (e : Ev) : Inv (step s e) ∧ Lasts s (step s e) := by
  cases e with
  | new txt mode dflt =>
    simp only [Shell.step]
    split
    · exact ⟨hi.frame (.emit _ _), (Frame.emit _ _).lasts⟩
    · next h =>
      refine ⟨hi.alloc ?_ rfl rfl, .alloc _ _⟩
      intro hm hd
      refine h ⟨hm, ?_⟩
      cases dflt with
      | none => rfl
      | some x => cases hd
  | configure o n p =>
    simp only [Shell.step]
    split
    · next hm =>
      simp only [mine, Bool.and_eq_true, decide_eq_true_eq] at hm
      unfold Shell.configure
      split
      · exact ⟨hi.frame (.emit _ _), (Frame.emit _ _).lasts⟩
      · split
        · exact ⟨hi.frame (.emit _ _), (Frame.emit _ _).lasts⟩
        · next hd =>
          split
          · exact ⟨hi.frame (.emit _ _), (Frame.emit _ _).lasts⟩
          · next hn =>
            have hd : (s.obj o).pods.has n.toNat = false := by
              refine Bool.eq_false_iff.mpr fun hx => hd ⟨hx, by omega⟩
            refine ⟨hi.set hm.2 rfl rfl rfl ?_ (fun w o' hx => hi.subs o w o' hm.1 hx), ?_⟩
            · rw [Dict.get_set_ne _ _ (by omega)]; exact hi.zero o hm.1
            · refine ⟨Nat.le_refl _, ?_, ?_, ?_, fun _ _ h => h, fun _ _ h => h, List.prefix_refl _, Nat.le_refl _⟩
              · intro i _; simp only [upd]; split
                · next e => subst e; exact ⟨rfl, rfl, rfl, rfl⟩
                · exact ⟨rfl, rfl, rfl, rfl⟩
              · intro i k q _ hq; simp only [upd]; split
                · next e => subst e; exact get_set_keep hd hq
                · exact hq
              · intro i w q _ hq; simp only [upd]; split
                · next e => subst e; exact hq
                · exact hq
    · exact ⟨hi, .refl _⟩
  | configureSub o o' =>
    simp only [Shell.step]
    split
    · next hm =>
      simp only [mine, Bool.and_eq_true, decide_eq_true_eq] at hm
      unfold Shell.configureSub
      split
      · exact ⟨hi.frame (.emit _ _), (Frame.emit _ _).lasts⟩
      · split
        · exact ⟨hi.frame (.emit _ _), (Frame.emit _ _).lasts⟩
        · next hd =>
          have hd : (s.obj o).subs.has (s.obj o').txt = false := by simpa using hd
          refine ⟨hi.set hm.1.2 rfl rfl rfl (hi.zero o hm.1.1) ?_, ?_⟩
          · intro w x hx
            rw [Dict.get_set] at hx
            split at hx
            · cases hx; exact hm.2.1
            · exact hi.subs o w x hm.1.1 hx
          · refine ⟨Nat.le_refl _, ?_, ?_, ?_, fun _ _ h => h, fun _ _ h => h, List.prefix_refl _, Nat.le_refl _⟩
            · intro i _; simp only [upd]; split
              · next e => subst e; exact ⟨rfl, rfl, rfl, rfl⟩
              · exact ⟨rfl, rfl, rfl, rfl⟩
            · intro i k q _ hq; simp only [upd]; split
              · next e => subst e; exact hq
              · exact hq
            · intro i w q _ hq; simp only [upd]; split
              · next e => subst e; exact get_set_keep hd hq
              · exact hq
    · exact ⟨hi, .refl _⟩
  | register o =>
    simp only [Shell.step]
    split
    · next hm =>
      simp only [mine, Bool.and_eq_true, decide_eq_true_eq] at hm
      unfold Shell.register
      split
      · exact ⟨hi.frame (.emit _ _), (Frame.emit _ _).lasts⟩
      · refine ⟨hi.add hm.1, ?_⟩
        by_cases hc : s.commands.has (s.obj o).txt = true
        · unfold addCommand
          simp only
          rw [if_pos hc]
          exact (Frame.emit _ _).lasts
        · have hc : s.commands.has (s.obj o).txt = false := by simpa using hc
          exact .add o (hi.free hc) (by have := hi.three; omega)
    · exact ⟨hi, .refl _⟩
  | line l e => exact ⟨hi.frame (frame_line e s l), (frame_line e s l).lasts⟩
  | done n ok =>
    simp only [Shell.step]
    split
    · exact ⟨hi, .refl _⟩
    · next h =>
      have h : s.fin.has n = false := by simpa using h
      exact ⟨⟨hi.three, hi.help, hi.batch, hi.quit, hi.low, hi.subs, hi.own, hi.unknown, hi.known, hi.nice, hi.zero⟩, Nat.le_refl _, fun _ _ => ⟨rfl, rfl, rfl, rfl⟩, fun _ _ _ _ h => h, fun _ _ _ _ h => h, fun _ _ h => h,
        fun k b hb => get_set_keep h hb, List.prefix_refl _, Nat.le_refl _⟩
  | run t e =>
    simp only [Shell.step]
    split
    · exact ⟨hi.still (still_run e s t), (still_run e s t).lasts⟩
    · exact ⟨hi, .refl _⟩

theorem Inv.exec {s : St} (hi : Inv s) (h : List Ev) : Inv (exec s h) ∧ Lasts s (exec s h) := by
  induction h generalizing s with
  | nil => exact ⟨hi, .refl _⟩
  | cons e h ih =>
    obtain ⟨h1, h2⟩ := hi.step e
    obtain ⟨h3, h4⟩ := ih h1
    exact ⟨h3, h2.trans h4⟩

theorem Inv.reachable (h : List Ev) : Inv (Shell.exec .init h) := (Inv.exec .init h).1

theorem exec_append (a b : List Ev) (s : St) : exec s (a ++ b) = exec (exec s a) b := by
  induction a generalizing s with
  | nil => rfl
  | cons e a ih => exact ih _

end Verif.Shell
