import Verif.Spec.VnicApi
import Verif.Lemmas.Launch
import Verif.Props.Launch
import Verif.Props.Logging
/-! # Lemmas on a VNIC under its management API -/
namespace Verif.VnicApi
open Verif.Spmp (Res)

theorem call_some {c : Cfg} {s : St} {v : Str} {args : List Str} {f} (h : (api c).get v = some f) : call c s v args = ((f args s).1, some (f args s).2) := by
  unfold call
  rw [h]

theorem get_skip {α β : Type} [DecidableEq α] {a k : α} (b : β) (t : Dict α β) (h : k ≠ a) : Dict.get ((a, b) :: t) k = t.get k := by
  rw [Dict.get, if_neg (Ne.symm h)]

/-- The verbs, one by one. -/
theorem api_get (c : Cfg) (v : Str) :
    (v = "set-promiscuity-level".toList ∧ (api c).get v = some (setProm c v)) ∨
    (v = "set-log-level".toList ∧ (api c).get v = some (setLogLevel c v)) ∨
    (v ≠ "set-promiscuity-level".toList ∧ v ≠ "set-log-level".toList ∧
      (((api c).get v = none ∧ v ∉ verbs) ∨ (v ∈ verbs ∧ ∃ a, (api c).get v = some (ask c v a)))) := by
  by_cases h1 : v = "verbs".toList
  · subst h1; exact .inr (.inr ⟨by decide, by decide, .inr ⟨by decide, _, rfl⟩⟩)
  by_cases h2 : v = "get-promiscuity-level".toList
  · subst h2; exact .inr (.inr ⟨by decide, by decide, .inr ⟨by decide, _, rfl⟩⟩)
  by_cases h3 : v = "set-promiscuity-level".toList
  · subst h3; exact .inl ⟨rfl, rfl⟩
  by_cases h4 : v = "all-log-levels".toList
  · subst h4; exact .inr (.inr ⟨by decide, by decide, .inr ⟨by decide, _, rfl⟩⟩)
  by_cases h5 : v = "get-log-level".toList
  · subst h5; exact .inr (.inr ⟨by decide, by decide, .inr ⟨by decide, _, rfl⟩⟩)
  by_cases h6 : v = "set-log-level".toList
  · subst h6; exact .inr (.inl ⟨rfl, rfl⟩)
  by_cases h7 : v = "switch-live".toList
  · subst h7; exact .inr (.inr ⟨by decide, by decide, .inr ⟨by decide, _, rfl⟩⟩)
  refine .inr (.inr ⟨h3, h6, .inl ⟨?_, ?_⟩⟩)
  · unfold api
    rw [get_skip _ _ h1, get_skip _ _ h2, get_skip _ _ h3, get_skip _ _ h4, get_skip _ _ h5, get_skip _ _ h6, get_skip _ _ h7]
    rfl
  · simp only [verbs, List.mem_cons, List.not_mem_nil, or_false]
    rintro (h | h | h | h | h | h | h)
    · exact h1 h
    · exact h2 h
    · exact h3 h
    · exact h4 h
    · exact h5 h
    · exact h6 h
    · exact h7 h

theorem ask_same (c : Cfg) (v : Str) (a : St → Str) (args : List Str) (s : St) : (ask c v a args s).1 = s := by
  unfold ask
  split <;> rfl

/-- Requests other than the two that set something change nothing. -/
theorem request_same (c : Cfg) (s : St) (v : Str) (args : List Str) (h1 : v ≠ "set-promiscuity-level".toList) (h2 : v ≠ "set-log-level".toList) :
    (call c s v args).1 = s := by
  rcases api_get c v with ⟨h, _⟩ | ⟨h, _⟩ | ⟨_, _, ⟨h, _⟩ | ⟨_, a, h⟩⟩
  · exact absurd h h1
  · exact absurd h h2
  · unfold call; rw [h]
  · rw [call_some h]; exact ask_same ..

theorem prom_call (c : Cfg) (s : St) (args : List Str) :
    call c s "set-promiscuity-level".toList args =
      ((setProm c "set-promiscuity-level".toList args s).1, some (setProm c "set-promiscuity-level".toList args s).2) := call_some rfl

theorem log_call (c : Cfg) (s : St) (args : List Str) :
    call c s "set-log-level".toList args =
      ((setLogLevel c "set-log-level".toList args s).1, some (setLogLevel c "set-log-level".toList args s).2) := call_some rfl

theorem setLogLevel_d (c : Cfg) (v : Str) (args : List Str) (s : St) : (setLogLevel c v args s).1.d = s.d := by
  unfold setLogLevel
  split
  · split <;> rfl
  · rfl

theorem setProm_rest (c : Cfg) (v : Str) (args : List Str) (s : St) : (setProm c v args s).1 = { s with d := (setProm c v args s).1.d } := by
  unfold setProm
  split
  · split <;> rfl
  · rfl

theorem daemonEvents_cons (e : Ev) (h : List Ev) : daemonEvents (e :: h) = daemonEvents [e] ++ daemonEvents h := by
  unfold daemonEvents
  rw [List.flatMap_cons, List.flatMap_cons, List.flatMap_nil, List.append_nil]

theorem d_step (c : Cfg) (s : St) (e : Ev) : (step c s e).d = Launch.exec c.daemon s.d (daemonEvents [e]) := by
  cases e with
  | env e => rfl
  | packet set => cases set <;> rfl
  | request v args =>
    show (call c s v args).1.d = _
    by_cases h1 : v = "set-promiscuity-level".toList
    · subst h1
      rw [prom_call]
      rcases args with _ | ⟨a, _ | ⟨b, as⟩⟩
      · rfl
      · unfold setProm daemonEvents
        simp only [List.flatMap_cons, List.flatMap_nil, List.append_nil, if_pos]
        cases pyInt a <;> rfl
      · rfl
    · have he : daemonEvents [.request v args] = [] := by
        rcases args with _ | ⟨a, _ | ⟨b, as⟩⟩
        · rfl
        · unfold daemonEvents
          rw [List.flatMap_cons]
          dsimp only
          rw [if_neg h1]; rfl
        · rfl
      rw [he]
      by_cases h2 : v = "set-log-level".toList
      · subst h2
        rw [log_call]
        exact setLogLevel_d ..
      · rw [request_same c s v args h1 h2]; rfl

theorem d_exec (c : Cfg) : ∀ (h : List Ev) (s : St), (exec c s h).d = Launch.exec c.daemon s.d (daemonEvents h)
  | [], _ => rfl
  | e :: h, s => by
    rw [daemonEvents_cons, Launch.exec_append, ← d_step]
    exact d_exec c h _

theorem exec_append (c : Cfg) : ∀ (a b : List Ev) (s : St), exec c s (a ++ b) = exec c (exec c s a) b
  | [], _, _ => rfl
  | e :: a, b, s => exec_append c a b (step c s e)

theorem getLastD_append {α : Type} (a b : List α) (d : α) : (a ++ b).getLastD d = b.getLastD (a.getLastD d) := by
  cases b with
  | nil => simp
  | cons x b => rw [List.getLastD_eq_getLast?, List.getLastD_eq_getLast?, List.getLast?_append]; simp

/-! ## The level -/

theorem levelsAsked_cons (e : Ev) (h : List Ev) : levelsAsked (e :: h) = levelsAsked [e] ++ levelsAsked h := by
  unfold levelsAsked
  rw [List.flatMap_cons, List.flatMap_cons, List.flatMap_nil, List.append_nil]

def clamp (l : Int) : Nat := (min (max l 0) 4).toNat

theorem levelFrom_append (l : Nat) (a b : List Prom.Ev) : Prom.levelFrom l (a ++ b) = Prom.levelFrom (Prom.levelFrom l a) b := by
  induction a generalizing l with
  | nil => rfl
  | cons e a ih => rw [List.cons_append, Prom.levelFrom_cons, ih, ← Prom.levelFrom_cons]

/-- The events that set the level. -/
def sets (h : List Launch.Ev) : List Prom.Ev := h.filterMap fun
  | .setLevel l => some (.setLevel l)
  | _ => none

theorem asked_getD (l : Option Int) : Prom.asked l = clamp (l.getD 0) := by cases l <;> rfl

theorem sets_step (e : Ev) (d : Int) : Prom.levelFrom (clamp d) (sets (daemonEvents [e])) = clamp ((levelsAsked [e]).getLastD d) := by
  cases e with
  | env e =>
    cases e with
    | setLevel l => exact asked_getD l
    | _ => rfl
  | packet set => cases set <;> rfl
  | request v args =>
    rcases args with _ | ⟨a, _ | ⟨b, as⟩⟩
    · rfl
    · unfold daemonEvents levelsAsked
      simp only [List.flatMap_cons, List.flatMap_nil, List.append_nil]
      by_cases hv : v = "set-promiscuity-level".toList
      · rw [if_pos hv, if_pos hv]; cases pyInt a <;> rfl
      · rw [if_neg hv, if_neg hv]; rfl
    · rfl

theorem sets_all : ∀ (h : List Ev) (d : Int), Prom.levelFrom (clamp d) (sets (daemonEvents h)) = clamp ((levelsAsked h).getLastD d)
  | [], _ => rfl
  | e :: h, d => by
    rw [daemonEvents_cons, levelsAsked_cons, getLastD_append]
    have : sets (daemonEvents [e] ++ daemonEvents h) = sets (daemonEvents [e]) ++ sets (daemonEvents h) := List.filterMap_append ..
    rw [this, levelFrom_append, sets_step]
    exact sets_all h _

theorem level_eq (h : List Ev) : Launch.levelAfter (daemonEvents h) = promLevel h := sets_all h 0

/-! ## Logging -/

theorem start_some {c : Cfg} {a : Addr} {old : Str} {w : Launch.Write} {s : St} (h : start c a old w = some s) :
    Launch.start c.daemon a old w = some s.d ∧ s.level = "NONE".toList ∧ s.calls = 1 ∧ c.fileOk 0 = true ∧
      s.log = (Logging.enablePreset c.aux true .init .dbg).1 := by
  unfold start at h
  cases hk : c.fileOk 0 with
  | false => rw [hk] at h; exact absurd h (by simp [Logging.enablePreset, Logging.enableFile, Logging.newFile])
  | true =>
    rw [hk] at h
    have hf : (Logging.enablePreset c.aux true .init .dbg).2 = false := rfl
    cases hp : Logging.enablePreset c.aux true .init .dbg with
    | mk log f =>
      rw [hp] at h hf
      dsimp only at hf
      subst hf
      dsimp only at h
      cases hl : Launch.start c.daemon a old w with
      | none => rw [hl] at h; cases h
      | some d => rw [hl] at h; cases h; exact ⟨rfl, rfl, rfl, rfl, rfl⟩

/-- Logging raises for the levels that cannot be set. -/
theorem raises (aux : List Str) (file : Bool) (s : Logging.St) (l : Str) :
    (Logging.enablePreset aux file s (preset l)).2 = false ↔ Settable file l := by
  unfold preset Settable
  by_cases h1 : l = "NONE".toList
  · subst h1; rw [if_pos rfl]; exact ⟨fun _ => .inl (by simp), fun _ => rfl⟩
  rw [if_neg h1]
  by_cases h2 : l = "MINIMAL".toList
  · subst h2; rw [if_pos rfl]; cases file <;> simp [Logging.enablePreset, Logging.enableFile, Logging.newFile]
  rw [if_neg h2]
  by_cases h3 : l = "QUIET".toList
  · subst h3; rw [if_pos rfl]; cases file <;> simp [Logging.enablePreset, Logging.enableFile, Logging.newFile]
  rw [if_neg h3]
  by_cases h4 : l = "VERBOSE".toList
  · subst h4; rw [if_pos rfl]; cases file <;> simp [Logging.enablePreset, Logging.enableFile, Logging.newFile]
  rw [if_neg h4]
  by_cases h5 : l = "DEBUG".toList
  · subst h5; rw [if_pos rfl]; cases file <;> simp [Logging.enablePreset, Logging.enableFile, Logging.newFile]
  rw [if_neg h5]
  by_cases h6 : l = "TEST".toList
  · subst h6; rw [if_pos rfl]; exact ⟨fun _ => .inl (by simp), fun _ => rfl⟩
  rw [if_neg h6]
  by_cases h7 : l = "MAX".toList
  · subst h7; rw [if_pos rfl]; cases file <;> simp [Logging.enablePreset, Logging.enableFile, Logging.newFile]
  rw [if_neg h7]
  refine ⟨fun h => absurd h (by simp [Logging.enablePreset]), fun h => ?_⟩
  simp only [List.mem_cons, List.not_mem_nil, or_false] at h
  rcases h with (h | h) | ⟨h | h | h | h | h, _⟩
  · exact absurd h h1
  · exact absurd h h6
  · exact absurd h h2
  · exact absurd h h3
  · exact absurd h h4
  · exact absurd h h5
  · exact absurd h h7

theorem logRequests_cons (e : Ev) (h : List Ev) : logRequests (e :: h) = logRequests [e] ++ logRequests h := by
  unfold logRequests
  rw [List.flatMap_cons, List.flatMap_cons, List.flatMap_nil, List.append_nil]

/-- The calls of `EnablePresetLogging`, numbered from `n`. -/
def presets (ok : Nat → Bool) : Nat → List Str → List Logging.Ev
  | _, [] => []
  | n, l :: ls => .preset (preset l) (ok n) :: presets ok (n + 1) ls

theorem presets_append (ok : Nat → Bool) : ∀ (a b : List Str) (n : Nat), presets ok n (a ++ b) = presets ok n a ++ presets ok (n + a.length) b
  | [], _, _ => rfl
  | x :: a, b, n => by
    rw [List.cons_append, presets, presets, presets_append ok a b (n + 1), List.length_cons, Nat.add_assoc, Nat.add_comm 1]
    rfl

theorem good_append (ok : Nat → Bool) : ∀ (a b : List Str) (n : Nat), goodFrom ok n (a ++ b) = goodFrom ok n a ++ goodFrom ok (n + a.length) b
  | [], _, _ => rfl
  | x :: a, b, n => by
    rw [List.cons_append, goodFrom, goodFrom, good_append ok a b (n + 1), List.length_cons, Nat.add_assoc, Nat.add_comm 1]
    split <;> rfl

/-- One event, for logging. -/
theorem log_step (c : Cfg) (s : St) (e : Ev) :
    (step c s e).log = Logging.exec c.aux s.log (presets c.fileOk s.calls (logRequests [e])) ∧
    (step c s e).calls = s.calls + (logRequests [e]).length ∧
    (step c s e).level = (goodFrom c.fileOk s.calls (logRequests [e])).getLastD s.level := by
  cases e with
  | env e => exact ⟨rfl, rfl, rfl⟩
  | packet set => cases set <;> exact ⟨rfl, rfl, rfl⟩
  | request v args =>
    show (call c s v args).1.log = _ ∧ (call c s v args).1.calls = _ ∧ (call c s v args).1.level = _
    by_cases h2 : v = "set-log-level".toList
    · subst h2
      rw [log_call]
      rcases args with _ | ⟨a, _ | ⟨b, as⟩⟩
      · exact ⟨rfl, rfl, rfl⟩
      · have hl : logRequests [.request "set-log-level".toList [a]] = [a] := by
          unfold logRequests
          rw [List.flatMap_cons]
          dsimp only
          rw [if_pos rfl]; rfl
        rw [hl]
        have hr := raises c.aux (c.fileOk s.calls) s.log a
        show _ = (Logging.enablePreset c.aux (c.fileOk s.calls) s.log (preset a)).1 ∧ _ ∧ _ = (if _ then [a] else []).getLastD s.level
        unfold setLogLevel
        dsimp only
        cases hp : Logging.enablePreset c.aux (c.fileOk s.calls) s.log (preset a) with
        | mk log f =>
          rw [hp] at hr
          dsimp only at hr
          cases f with
          | true => rw [if_neg (fun x => absurd (hr.2 x) (by simp))]; exact ⟨rfl, rfl, rfl⟩
          | false => rw [if_pos (hr.1 rfl)]; exact ⟨rfl, rfl, rfl⟩
      · exact ⟨rfl, rfl, rfl⟩
    · have hl : logRequests [.request v args] = [] := by
        rcases args with _ | ⟨a, _ | ⟨b, as⟩⟩
        · rfl
        · unfold logRequests
          rw [List.flatMap_cons]
          dsimp only
          rw [if_neg h2]; rfl
        · rfl
      rw [hl]
      by_cases h1 : v = "set-promiscuity-level".toList
      · subst h1
        rw [prom_call]
        dsimp only
        rw [setProm_rest]
        exact ⟨rfl, rfl, rfl⟩
      · rw [request_same c s v args h1 h2]; exact ⟨rfl, rfl, rfl⟩

theorem logging_append (aux : List Str) : ∀ (a b : List Logging.Ev) (s : Logging.St), Logging.exec aux s (a ++ b) = Logging.exec aux (Logging.exec aux s a) b
  | [], _, _ => rfl
  | e :: a, b, s => logging_append aux a b (Logging.step aux s e)

theorem log_exec (c : Cfg) : ∀ (h : List Ev) (s : St),
    (exec c s h).log = Logging.exec c.aux s.log (presets c.fileOk s.calls (logRequests h)) ∧
    (exec c s h).calls = s.calls + (logRequests h).length ∧
    (exec c s h).level = (goodFrom c.fileOk s.calls (logRequests h)).getLastD s.level
  | [], _ => ⟨rfl, rfl, rfl⟩
  | e :: h, s => by
    obtain ⟨h1, h2, h3⟩ := log_step c s e
    obtain ⟨i1, i2, i3⟩ := log_exec c h (step c s e)
    rw [logRequests_cons, presets_append, good_append, logging_append, getLastD_append, List.length_append]
    refine ⟨?_, ?_, ?_⟩
    · exact i1.trans (by rw [h1, h2])
    · exact i2.trans (by rw [h2]; omega)
    · exact i3.trans (by rw [h2, h3])

end Verif.VnicApi
