import Verif.Spec.Shell
import Verif.Lemmas.Dict
import Verif.Lemmas.Shlex
/-! # Lemmas: the shell -/
namespace Verif.Shell
open Verif.Shlex (Line pySpace stripLine split)

theorem stripKey_bare (w : Str) : stripKey w = bare w := by
  unfold stripKey bare
  split
  · simp
  · next h =>
    rw [if_neg]
    rintro ⟨r, rfl⟩
    exact h r rfl

theorem dropWhile_split {α} (p : α → Bool) (l : List α) : ∃ a, l = a ++ l.dropWhile p ∧ (∀ c ∈ a, p c = true) ∧ ∀ c, (l.dropWhile p).head? = some c → p c = false := by
  induction l with
  | nil => exact ⟨[], rfl, by simp, by simp⟩
  | cons x l ih =>
    rw [List.dropWhile_cons]
    split
    · next hx =>
      obtain ⟨a, h1, h2, h3⟩ := ih
      exact ⟨x :: a, by rw [List.cons_append, ← h1], by simpa [hx] using h2, h3⟩
    · next hx => exact ⟨[], rfl, by simp, by simp [hx]⟩

theorem dropWhile_all {α} {p : α → Bool} {a b : List α} (h : ∀ c ∈ a, p c = true) (h' : ∀ c, b.head? = some c → p c = false) : (a ++ b).dropWhile p = b := by
  induction a with
  | nil =>
    cases b with
    | nil => rfl
    | cons x b => rw [List.nil_append, List.dropWhile_cons, if_neg]; simp [h' x rfl]
  | cons x a ih => rw [List.cons_append, List.dropWhile_cons, if_pos (h x (by simp))]; exact ih (fun c hc => h c (by simp [hc]))

/-- `str.strip` removes the white space at the ends. -/
theorem trim_iff (l m : Str) : Trim l m ↔ stripLine l = m := by
  constructor
  · rintro ⟨a, b, rfl, h1, h2, h3, h4⟩
    unfold stripLine
    by_cases hm : m = []
    · subst hm
      have : (a ++ [] ++ b).dropWhile pySpace = [] := by
        have := dropWhile_all (p := pySpace) (a := a ++ b) (b := []) (by intro c hc; rcases List.mem_append.mp hc with hc | hc; exact h1 c hc; exact h2 c hc) (by simp)
        simpa using this
      rw [this]; rfl
    · rw [List.append_assoc, dropWhile_all h1]
      · rw [List.reverse_append, dropWhile_all (by simpa using h2), List.reverse_reverse]
        intro c hc
        rw [List.head?_reverse] at hc
        exact h4 c hc
      · intro c hc
        rw [List.head?_append] at hc
        cases hx : m.head? with
        | none => rw [List.head?_eq_none_iff] at hx; exact absurd hx hm
        | some y => rw [hx] at hc; simp at hc; subst hc; exact h3 _ hx
  · rintro rfl
    unfold stripLine
    obtain ⟨a, h1, h2, h3⟩ := dropWhile_split pySpace l
    obtain ⟨b, g1, g2, g3⟩ := dropWhile_split pySpace (l.dropWhile pySpace).reverse
    generalize hx : (l.dropWhile pySpace).reverse.dropWhile pySpace = m at *
    have e : l.dropWhile pySpace = m.reverse ++ b.reverse := by rw [← List.reverse_append, ← g1, List.reverse_reverse]
    refine ⟨a, b.reverse, by rw [List.append_assoc, ← e]; exact h1, h2, by simpa using g2, ?_, ?_⟩
    · intro c hc
      refine h3 c ?_
      rw [e, List.head?_append, hc]; rfl
    · intro c hc
      rw [List.getLast?_reverse] at hc
      exact g3 c hc

theorem called_append (a b : List Eff) : called (a ++ b) = called a ++ called b := by
  induction a with
  | nil => rfl
  | cons x a ih => cases x <;> simp [called, ih]

/-- What `invoke` and the rest do to the state. -/
structure Frame (s s' : St) : Prop where
  nObj : s'.nObj = s.nObj
  obj : s'.obj = s.obj
  commands : s'.commands = s.commands
  fin : s'.fin = s.fin
  out : s.out <+: s'.out
  nTask : s.nTask ≤ s'.nTask
  task : ∀ t, t < s.nTask → s'.task t = s.task t

theorem Frame.refl (s : St) : Frame s s := ⟨rfl, rfl, rfl, rfl, List.prefix_refl _, Nat.le_refl _, fun _ _ => rfl⟩

theorem Frame.trans {s t u : St} (h : Frame s t) (g : Frame t u) : Frame s u :=
  ⟨g.nObj.trans h.nObj, g.obj.trans h.obj, g.commands.trans h.commands, g.fin.trans h.fin, h.out.trans g.out, Nat.le_trans h.nTask g.nTask,
    fun i hi => (g.task i (Nat.lt_of_lt_of_le hi h.nTask)).trans (h.task i hi)⟩

theorem Frame.emit (s : St) (l : List Eff) : Frame s (emit s l) := ⟨rfl, rfl, rfl, rfl, List.prefix_append _ _, Nat.le_refl _, fun _ _ => rfl⟩

theorem frame_batch (e : Env) (s : St) (vs : List Val) : Frame s (runBatch e s vs).1 := by
  unfold runBatch
  split
  · split
    · exact .emit _ _
    · exact .emit _ _
    · exact ⟨rfl, rfl, rfl, rfl, List.prefix_append _ _, Nat.le_succ _, fun t ht => if_neg (Nat.ne_of_lt ht)⟩
  · exact .emit _ _

theorem frame_runCb (e : Env) (s : St) (c : Cb) (vs : List Val) : Frame s (runCb e s c vs).1 := by
  unfold runCb
  split
  · split
    · exact .emit _ _
    · exact .refl _
    · exact .refl _
  · exact .refl _
  · exact frame_batch e s vs
  · exact .refl _

theorem frame_invoke (e : Env) (s : St) (p : Pod) (args : List Str) : Frame s (invoke e s p args).1 := by
  unfold invoke
  simp only
  split
  · exact (Frame.emit s _).trans (.emit _ _)
  · exact (Frame.emit s _).trans (.emit _ _)
  · exact ((Frame.emit s _).trans (.emit _ _)).trans (frame_runCb ..)

theorem frame_process (e : Env) (s : St) : ∀ (ws : List Str) (o : Nat), Frame s (process e s o ws).1 := by
  intro ws
  have hs : ∀ o ws, Frame s (singleton e s o ws).1 := by
    intro o ws; unfold singleton; split
    · exact frame_invoke ..
    · exact .emit _ _
  induction ws with
  | nil =>
    intro o
    unfold process
    split
    · exact hs _ _
    · unfold bareWord
      split
      · exact frame_invoke ..
      · split <;> exact .emit _ _
  | cons w ws ih =>
    intro o
    unfold process
    split
    · exact hs _ _
    · unfold counted
      split
      · exact frame_invoke ..
      · exact .emit _ _
    · split
      · exact .emit _ _
      · exact ih _

theorem frame_line (e : Env) (s : St) (l : Str) : Frame s (lineReceived e s l).1 := by
  unfold lineReceived
  split
  · exact .refl _
  · split
    · exact .emit _ _
    · unfold command
      split
      · exact .emit _ _
      · split
        · exact .emit _ _
        · exact frame_process ..

/-! ## One line -/

/-- A part of the shell that runs no callback and fails. -/
def Nothing (s : St) (x : St × Res) : Prop := calls s x.1 = [] ∧ x.2 = .failed

theorem calls_emit (s : St) (l : List Eff) : calls s (emit s l) = called l := by
  unfold calls emit; simp

theorem Nothing.emit (s : St) (l : List Eff) (h : called l = []) : Nothing s (emit s l, .failed) := ⟨by rw [calls_emit, h], rfl⟩

theorem process_means {e : Env} {s : St} {o : Nat} {ws : List Str} {p : Pod} {args : List Str} (h : Means s o ws p args) : process e s o ws = invoke e s p args := by
  have hb : ∀ ws : List Str, ws.map bare = ws.map stripKey := fun ws => by congr 1; funext w; exact (stripKey_bare w).symm
  induction h with
  | single o ws p h1 h2 =>
    rw [hb]
    cases ws with
    | nil => unfold process; rw [h1]; dsimp only; unfold singleton; rw [h2]
    | cons w ws => unfold process; rw [h1]; dsimp only; unfold singleton; rw [h2]
  | alone o p h1 h2 =>
    unfold process
    split
    · next h => exact absurd h h1
    · unfold bareWord; rw [h2]
  | count o ws p h1 h2 h3 =>
    rw [hb]
    cases ws with
    | nil => exact absurd rfl h2
    | cons w ws => unfold process; rw [h1]; dsimp only; unfold counted; rw [h3]
  | sub o o' w ws p args h1 h2 _ ih => unfold process; rw [h1]; dsimp only; rw [h2]; exact ih

theorem process_nothing {e : Env} {s : St} : ∀ (ws : List Str) (o : Nat), (∀ p args, ¬ Means s o ws p args) → Nothing s (process e s o ws) := by
  intro ws
  induction ws with
  | nil =>
    intro o h
    unfold process
    split
    · next hm =>
      unfold singleton
      split
      · next p hp => exact absurd (.single o [] p hm hp) (h p _)
      · exact .emit _ _ rfl
    · next hm =>
      unfold bareWord
      split
      · next p hp => exact absurd (.alone o p (fun x => hm x) hp) (h p _)
      · split <;> exact .emit _ _ rfl
  | cons w ws ih =>
    intro o h
    unfold process
    split
    · next hm =>
      unfold singleton
      split
      · next p hp => exact absurd (.single o _ p hm hp) (h p _)
      · exact .emit _ _ rfl
    · next hm =>
      unfold counted
      split
      · next p hp => exact absurd (.count o _ p hm (by simp) hp) (h p _)
      · exact .emit _ _ rfl
    · next hm =>
      split
      · exact .emit _ _ rfl
      · next o' ho => exact ih o' (fun p args hx => h p args (.sub o o' w ws p args hm ho hx))

theorem line_means {e : Env} {s : St} {l : Str} {p : Pod} {args : List Str} (h : Commands s l p args) : lineReceived e s l = invoke e s p args := by
  obtain ⟨m, ws, c, rest, o, h1, h2, h3, h4, h5⟩ := h
  rw [trim_iff] at h1
  subst h1
  have hs := (Shlex.lex_iff (stripLine l)).1 ws |>.mpr h2
  have hne : stripLine l ≠ [] := by
    intro hx
    rw [hx] at hs
    cases hs
    simp at h3
  unfold lineReceived
  rw [if_neg hne]
  have hs' : split (stripLine l) = .ok ws := hs
  rw [hs']
  dsimp only
  rw [h3]
  unfold command
  dsimp only
  rw [h4]
  exact process_means h5

theorem line_nothing {e : Env} {s : St} {l : Str} (h : ∀ p args, ¬ Commands s l p args) : Nothing s (lineReceived e s l) := by
  unfold lineReceived
  split
  · exact ⟨by simp [calls, called], rfl⟩
  · split
    · exact .emit _ _ rfl
    · next ws hs =>
      unfold command
      split
      · exact .emit _ _ rfl
      · next c rest hw =>
        split
        · exact .emit _ _ rfl
        · next o ho =>
          refine process_nothing _ _ fun p args hx => h p args ?_
          exact ⟨_, ws, c, rest, o, (trim_iff _ _).mpr rfl, ((Shlex.lex_iff _).1 ws).mp hs, hw, ho, hx⟩

end Verif.Shell
