import Verif.Lemmas.ShellBatch
import Verif.Props.Shell
/-! # C67: batches -/
namespace Verif.Shell

/-- **C67.** A batch feeds the lines of its file to the shell, in order and without gaps. -/
theorem C67_prefix (h : List Ev) (t : Nat) (ls : List Str) (hs : .started t ls ∈ (exec .init h).out) : fedBy t (exec .init h).out <+: ls := by
  obtain ⟨_, h2⟩ := (Batches.reachable h).file t ls hs
  exact ⟨_, h2⟩

/-- **C67.** A batch is one run of one file. -/
theorem C67_one_file (h : List Ev) (t : Nat) (ls ls' : List Str) (hs : .started t ls ∈ (exec .init h).out) (hs' : .started t ls' ∈ (exec .init h).out) : ls = ls' :=
  ((Batches.reachable h).file t ls hs).2.symm.trans ((Batches.reachable h).file t ls' hs').2

/-- **C67.** A batch feeds a line only after all earlier ones: they were accepted, they gave something to wait for, and it has completed. -/
theorem C67_order (h : List Ev) (t i : Nat) (hi : i + 1 < (fedBy t (exec .init h).out).length) :
    ∃ f, (results t (exec .init h).out)[i]? = some (.ok (.fut f)) ∧ Completed (exec .init h) f := by
  have hb := Batches.reachable h
  generalize exec .init h = s at hb hi ⊢
  have ht : t < s.nTask := by
    refine Decidable.byContradiction fun hx => ?_
    rw [(hb.fresh t (by omega)).1] at hi
    simp at hi
  have hl := hb.len t
  have hw := hb.wait t ht
  have all : ∀ rs r, results t s.out = rs ++ [r] → (∀ r ∈ rs, Good s r) → ∃ f, (results t s.out)[i]? = some (.ok (.fut f)) ∧ Completed s f := by
    intro rs r h1 h2
    have hlen : i < rs.length := by rw [h1] at hl; simp at hl; omega
    obtain ⟨f, g1, g2⟩ := h2 _ (List.getElem_mem hlen)
    exact ⟨f, by rw [h1, List.getElem?_append_left hlen, List.getElem?_eq_getElem hlen, g1], g2⟩
  have good : (∀ r ∈ results t s.out, Good s r) → ∃ f, (results t s.out)[i]? = some (.ok (.fut f)) ∧ Completed s f := by
    intro h2
    have hlen : i < (results t s.out).length := by omega
    obtain ⟨f, g1, g2⟩ := h2 _ (List.getElem_mem hlen)
    exact ⟨f, by rw [List.getElem?_eq_getElem hlen, g1], g2⟩
  unfold WaitOk at hw
  split at hw
  · exact good hw
  · obtain ⟨rs, ls, h1, _, h3⟩ := hw
    exact all rs _ h1 h3
  · rcases hw with ⟨_, h2⟩ | ⟨rs, r, _, _, h1, _, h3, _, _⟩
    · exact good h2
    · exact all rs r h1 h3

/-- **C67.** A batch that is over has fed all its lines, and all of them have completed; or the last line that it fed failed, gave nothing to wait for, or its command
failed later, and the user was told so. -/
theorem C67_over (h : List Ev) (t : Nat) (ls : List Str) (hs : .started t ls ∈ (exec .init h).out) (ho : ((exec .init h).task t).wait = .over) :
    (fedBy t (exec .init h).out = ls ∧ ∀ r ∈ results t (exec .init h).out, ∃ f, r = .ok (.fut f) ∧ Completed (exec .init h) f) ∨
    ∃ r l, (results t (exec .init h).out).getLast? = some r ∧ (fedBy t (exec .init h).out).getLast? = some l ∧ .say (.batchFailed l) ∈ (exec .init h).out ∧
      (r = .failed ∨ r = .ok .plain ∨ ∃ f, r = .ok (.fut f) ∧ Failed (exec .init h) f) := by
  have hb := Batches.reachable h
  generalize exec .init h = s at hb hs ho ⊢
  obtain ⟨h1, h2⟩ := hb.file t ls hs
  have hw := hb.wait t h1
  unfold WaitOk at hw
  rw [ho] at hw
  rcases hw with ⟨g1, g2⟩ | ⟨rs, r, ls', l, g1, g2, _, g4, g5⟩
  · rw [g1, List.append_nil] at h2
    exact .inl ⟨h2, g2⟩
  · exact .inr ⟨r, l, by rw [g1]; simp, by rw [g2]; simp, g5, g4⟩

/-- **C67.** A batch gets stuck only on a command that has not completed: otherwise its next step feeds the next line, or ends it, or lets it go on. -/
theorem C67_progress (h : List Ev) (e : Env) (t : Nat) (ht : t < (exec .init h).nTask) (ho : ((exec .init h).task t).wait ≠ .over) :
    (∃ f, (results t (exec .init h).out).getLast? = some (.ok (.fut f)) ∧ ¬ Completed (exec .init h) f ∧ ¬ Failed (exec .init h) f) ∨
    ((exec .init (h ++ [.run t e])).task t).wait = .over ∨ (∃ f l, ((exec .init h).task t).wait = .on f l) ∧ ((exec .init (h ++ [.run t e])).task t).wait = .ready ∨
    ∃ l, fedBy t (exec .init (h ++ [.run t e])).out = fedBy t (exec .init h).out ++ [l] := by
  have hb := Batches.reachable h
  have hb' := Batches.reachable (h ++ [.run t e])
  rw [exec_append] at hb' ⊢
  generalize exec .init h = s at hb hb' ht ho ⊢
  simp only [exec, step] at hb' ⊢
  rw [if_pos ht] at hb' ⊢
  have hw := hb.wait t ht
  unfold WaitOk at hw
  cases hx : (s.task t).wait with
  | over => exact absurd hx ho
  | ready =>
    cases hl : (s.task t).left with
    | nil => exact .inr (.inl (by simp [runTask, hx, hl, upd]))
    | cons l ls =>
      refine .inr (.inr (.inr ⟨l, ?_⟩))
      have hr : runTask e s t = feed e s t l ls := by unfold runTask; rw [hx]; dsimp only; rw [hl]
      rw [hr]
      unfold feed
      simp only
      obtain ⟨k, ho, hk, hc⟩ := spawn_line e (emit { s with task := upd s.task t { s.task t with left := ls } } [.fed t l]) l
      generalize lineReceived e (emit { s with task := upd s.task t { s.task t with left := ls } } [.fed t l]) l = x at ho ⊢
      have aft : ∀ (s : St) (r : Res), fedBy t (afterLine s t l r).out = fedBy t s.out := by
        intro s r
        unfold afterLine
        split <;> simp [emit, fedBy_append, fedBy]
      rw [aft]
      simp [emit, ho, fedBy_append, fedBy, hk.fedBy]
  | on f l =>
    rw [hx] at hw
    obtain ⟨rs, ls, h1, _, _⟩ := hw
    have hr : runTask e s t = match done s f with
        | none => s
        | some true => { s with task := upd s.task t { s.task t with wait := .ready } }
        | some false => { emit s [.say (.batchFailed l)] with task := upd s.task t { s.task t with wait := .over } } := by
      unfold runTask; rw [hx]; rfl
    cases hd : done s f with
    | none =>
      refine .inl ⟨f, by rw [h1]; simp, ?_, ?_⟩
      · cases f with
        | user n => intro h; simp only [done] at hd; simp only [Completed] at h; rw [hd] at h; cases h
        | batch u => intro h; simp only [done] at hd; simp only [Completed] at h; rw [if_pos h] at hd; cases hd
      · cases f with
        | user n => intro h; simp only [done] at hd; simp only [Failed] at h; rw [hd] at h; cases h
        | batch u => exact fun h => h
    | some b =>
      rw [hr, hd]
      cases b with
      | true => exact .inr (.inr (.inl ⟨⟨f, l, rfl⟩, by simp [upd]⟩))
      | false => exact .inr (.inl (by simp [upd]))

/-! ## What does not hold -/

/-- C67 is false for commands that give nothing to wait for, as all of the shell's own and every ordinary callback: whatever happens, a batch never goes beyond such a line. -/
theorem C67_false_plain (h : List Ev) (t i : Nat) (r : Res) (hr : (results t (exec .init h).out)[i]? = some r) (hp : r = .ok .plain ∨ r = .failed) :
    (fedBy t (exec .init h).out).length = i + 1 := by
  have hb := Batches.reachable h
  have hlen := hb.len t
  have hi : i < (results t (exec .init h).out).length := by
    refine Decidable.byContradiction fun hx => ?_
    rw [List.getElem?_eq_none (by omega)] at hr; cases hr
  by_cases hx : i + 1 < (fedBy t (exec .init h).out).length
  · obtain ⟨f, g1, _⟩ := C67_order h t i hx
    rw [hr] at g1
    rcases hp with rfl | rfl <;> cases g1
  · omega

/-- The file of `env`: `net add x`, `quit`. The callback of `net add` gives a future; `quit` is fed when it has completed. -/
def batch1 : List Ev := setup ++ [.line "batch b".toList env, .run 0 env]
def batch2 : List Ev := batch1 ++ [.run 0 env, .done 30 true, .run 0 env, .run 0 env, .run 0 env]

theorem batch_started : .started 0 ["net add x\n".toList, "quit\n".toList] ∈ (exec .init batch1).out := by decide +kernel

example : fedBy 0 (exec .init batch1).out = ["net add x\n".toList] ∧ ((exec .init batch1).task 0).wait ≠ .over ∧
    fedBy 0 (exec .init batch2).out = ["net add x\n".toList, "quit\n".toList] ∧ ((exec .init batch2).task 0).wait = .over ∧
    results 0 (exec .init batch2).out = [.ok (.fut (.user 30)), .ok .plain] ∧ calls (exec .init batch1) (exec .init batch2) = [(.quit, [])] ∧
    .say (.batchFailed "quit\n".toList) ∈ (exec .init batch2).out := by decide +kernel

/-- A file with `help` twice: the shell runs `help` once and says that the batch failed. -/
theorem C67_false_help : fedBy 0 (exec .init [.line "batch b".toList { env with file := fun _ => .lines ["help\n".toList, "help\n".toList] }, .run 0 env, .run 0 env]).out = ["help\n".toList] ∧
    ((exec .init [.line "batch b".toList { env with file := fun _ => .lines ["help\n".toList, "help\n".toList] }, .run 0 env, .run 0 env]).task 0).wait = .over ∧
    .say (.batchFailed "help\n".toList) ∈ (exec .init [.line "batch b".toList { env with file := fun _ => .lines ["help\n".toList, "help\n".toList] }, .run 0 env, .run 0 env]).out := by decide +kernel

/-- A blank line ends a batch. -/
theorem C67_false_blank (e : Env) (s : St) : (lineReceived e s "\n".toList).2 = .failed := by
  have h : Shlex.stripLine "\n".toList = [] := by decide
  unfold lineReceived
  rw [if_pos h]

end Verif.Shell
