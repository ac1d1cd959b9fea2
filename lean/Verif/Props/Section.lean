import Verif.Spec.Section
import Verif.Lemmas.Dict
/-! # C96: read-only views of the configuration -/
namespace Verif.Section

/-- C96. A read-only view does not let anything be changed with the plain operations, whatever happens through other views before: setting an entry and saving raise, and
the section and the file are as before. -/
theorem C96_plain (s : St) (o : Op) (ho : plain o = true) : (step s true o).1 = s ∧
    ((∃ k v, o = .setItem k v) ∨ o = .save → (step s true o).2 = .raised .readOnly) := by
  cases o with
  | getItem k =>
    refine ⟨?_, fun h => ?_⟩
    · simp only [step]; split <;> rfl
    · rcases h with ⟨_, _, h⟩ | h <;> cases h
  | setItem k v => exact ⟨rfl, fun _ => rfl⟩
  | save => exact ⟨rfl, fun _ => rfl⟩
  | delItem k => cases ho
  | update l => cases ho
  | setDefault k v => cases ho
  | pop k => cases ho
  | clear => cases ho
  | rawSet k v => cases ho
  | _ => exact ⟨rfl, fun h => by rcases h with ⟨_, _, h⟩ | h <;> cases h⟩

/-- C96. So in any history in which read-only views are used with the plain operations only, they make no difference. -/
theorem C96_readOnly_partial : ∀ (h : List (Bool × Op)) (s : St), (∀ o, (true, o) ∈ h → plain o = true) → exec s h = exec s (writers h)
  | [], _, _ => rfl
  | (ro, o) :: h, s, hp => by
    have ih := fun s => C96_readOnly_partial h s fun o ho => hp o (List.mem_cons_of_mem _ ho)
    cases ro with
    | false => exact ih _
    | true =>
      have := (C96_plain s o (hp o (List.mem_cons_self ..))).1
      rw [exec, this, ih]
      rfl

/-- C96. What is written through a view that is not read-only is what every view shows, and it is in the file after the next save. -/
theorem C96_write (s : St) (k v : Str) (ro : Bool) : let s' := (step s false (.setItem k v)).1
    (step s' ro (.getItem k)).2 = .value (some v) ∧ (step s' false .save).1.saved = s'.sec ∧ s'.saved = s.saved := by
  refine ⟨?_, rfl, rfl⟩
  show (step (put s k v) ro (.getItem k)).2 = _
  simp only [step, put, Dict.get_set_self]

/-- C96. All views read alike: `get` gives what `[]` gives and `None` when that raises; a key in its stored form is listed exactly when it can be read; `in` looks in that list. -/
theorem C96_read (s : St) (ro : Bool) : (∀ k v, (step s ro (.getItem k)).2 = .value (some v) ↔ (step s ro (.get k)).2 = .value (some v)) ∧
    (∀ k, (step s ro (.getItem k)).2 = .raised .key ↔ (step s ro (.get k)).2 = .value none) ∧
    ∃ l, (step s ro .iter).2 = .keys l ∧ (∀ k, Routes.norm k ∈ l ↔ ∃ v, (step s ro (.getItem k)).2 = .value (some v)) ∧
      ∀ k, (step s ro (.contains k)).2 = .bool (decide (k ∈ l)) := by
  refine ⟨fun k v => ?_, fun k => ?_, s.sec.keys, rfl, fun k => ?_, fun _ => rfl⟩
  · simp only [step]; cases s.sec.get (Routes.norm k) <;> simp
  · simp only [step]; cases s.sec.get (Routes.norm k) <;> simp
  · rw [Dict.mem_keys_iff]; simp only [step]; cases s.sec.get (Routes.norm k) <;> simp

/-- So `in` is false for a key that is not in its stored form, although `[]` finds it. -/
theorem C96_false_in (s : St) (ro : Bool) (k v : Str) (hs : ∀ x ∈ s.sec.keys, Routes.norm x = x) (hk : Routes.norm k ≠ k) (hv : s.sec.get (Routes.norm k) = some v) :
    (step s ro (.getItem k)).2 = .value (some v) ∧ (step s ro (.contains k)).2 = .bool false := by
  refine ⟨by simp only [step, hv], ?_⟩
  have : k ∉ s.sec.keys := fun h => hk (hs k h)
  simp [step, this]

/-- C96 is false for deletions: `del` through a read-only view removes the entry for everybody, and the next save of anybody removes it from the file. -/
theorem C96_false_delete (s : St) (k v : Str) (hk : s.sec.get (Routes.norm k) = some v) :
    (step s true (.delItem k)) = ({ s with sec := s.sec.del (Routes.norm k) }, .done) ∧
    (exec s [(true, .delItem k), (false, .save)]).saved = s.sec.del (Routes.norm k) := by
  have : step s true (.delItem k) = ({ s with sec := s.sec.del (Routes.norm k) }, .done) := by simp only [step, drop, hk]
  exact ⟨this, by simp only [exec, this]; rfl⟩

/-- ... and for everything that the section itself provides: `update`, `setdefault`, `pop`, `clear`, and the section that `rawSection` gives. -/
theorem C96_false_update (s : St) (k v : Str) : (step s true (.update [(k, v)])).1 = (step s false (.setItem k v)).1 ∧ (step s true (.rawSet k v)).1 = (step s false (.setItem k v)).1 ∧
    (step s true .clear).1.sec = [] := ⟨rfl, rfl, rfl⟩

/-- A section with one entry. -/
def one : St := ⟨[("vnic1".toList, "sw".toList)], [("vnic1".toList, "sw".toList)]⟩

example : (step one true (.setItem "vnic1".toList "x".toList)) = (one, .raised .readOnly) := by decide +kernel
example : exec one [(true, .delItem "VNIC1".toList), (false, .save)] = ⟨[], []⟩ := by decide +kernel
example : exec one [(true, .setItem "a".toList "b".toList), (false, .setItem "A".toList "c".toList), (true, .save), (true, .contains "A".toList)] =
    ⟨[("vnic1".toList, "sw".toList), ("a".toList, "c".toList)], [("vnic1".toList, "sw".toList)]⟩ := by decide +kernel

example : (step one true (.getItem "VNIC1".toList)).2 = .value (some "sw".toList) ∧ (step one true (.contains "VNIC1".toList)).2 = .bool false :=
  C96_false_in one true _ _ (by decide +kernel) (by decide +kernel) (by decide +kernel)

end Verif.Section
