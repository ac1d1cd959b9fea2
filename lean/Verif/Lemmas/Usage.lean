import Verif.Lemmas.ShellInv
import Verif.Spec.Usage
/-! # Lemmas: the names of subcommands, and the lines of `help` -/
namespace Verif.Shell

/-- Subcommands are kept under their names. -/
structure Named (s : St) : Prop where
  wf : ∀ o, Dict.WF (s.obj o).subs
  named : ∀ o w o', (s.obj o).subs.get w = some o' → o' < s.nObj ∧ (s.obj o').txt = w
  cwf : Dict.WF s.commands

theorem Named.via {s s' : St} (hn : Named s) (hl : Lasts s s') (hc : Dict.WF s'.commands)
    (h : ∀ o, (s'.obj o).subs = (s.obj o).subs ∨ (s'.obj o).subs = [] ∨ ∃ i, i < s'.nObj ∧ (s'.obj o).subs = (s.obj o).subs.set (s'.obj i).txt i) : Named s' := by
  have old : ∀ o w o', (s.obj o).subs.get w = some o' → o' < s'.nObj ∧ (s'.obj o').txt = w := fun o w o' hg => by
    obtain ⟨h1, h2⟩ := hn.named o w o' hg
    exact ⟨Nat.lt_of_lt_of_le h1 hl.nObj, (hl.same o' h1).1.trans h2⟩
  refine ⟨fun o => ?_, fun o w o' hg => ?_, hc⟩
  · rcases h o with e | e | ⟨i, _, e⟩
    · rw [e]; exact hn.wf o
    · rw [e]; exact .nil
    · rw [e]; exact (hn.wf o).set _ _
  · rcases h o with e | e | ⟨i, hi, e⟩
    · rw [e] at hg; exact old o w o' hg
    · rw [e] at hg; cases hg
    · rw [e, Dict.get_set] at hg
      split at hg
      · next hw => cases hg; exact ⟨hi, hw⟩
      · exact old o w o' hg

theorem Named.still {s s' : St} (hn : Named s) (h : Still s s') : Named s' :=
  hn.via h.lasts (by rw [h.commands]; exact hn.cwf) fun o => .inl (by rw [h.obj])

/-- Nothing is at addresses that are not allocated. -/
def Fresh (s : St) : Prop := ∀ o, s.nObj ≤ o → (s.obj o).subs = []

theorem Fresh.alloc {s : St} (h : Fresh s) (x : Obj) : Fresh (alloc s x) := fun o ho => by
  simp only [Shell.alloc] at ho ⊢
  simp only [upd, show ¬ o = s.nObj by omega, if_false]
  exact h o (by omega)

theorem Fresh.add {s : St} (h : Fresh s) (i : Nat) (h0 : 0 < s.nObj) : Fresh (addCommand s i) := by
  unfold addCommand
  simp only
  split
  · exact h
  · intro o ho
    simp only [Shell.alloc] at ho ⊢
    simp only [upd, show ¬ o = s.nObj by omega, show ¬ o = 0 by omega, if_false]
    exact h o (by omega)

theorem Named.init : Named .init := by
  have h : ∀ o, o < 6 → (∀ p ∈ (St.init.obj o).subs, p.2 < 6 ∧ (St.init.obj p.2).txt = p.1) ∧ (St.init.obj o).subs.keys.Nodup := by decide
  have h' : ∀ o, ¬ o < 6 → (St.init.obj o).subs = [] := fun o ho => by
    have hf : Fresh St.init := by
      unfold St.init
      refine Fresh.add (Fresh.add (Fresh.add (Fresh.alloc (Fresh.alloc (Fresh.alloc (fun _ _ => rfl) _) _) _) _ ?_) _ ?_) _ ?_ <;> decide
    refine hf o ?_
    have : St.init.nObj = 6 := by decide
    omega
  refine ⟨fun o => ?_, fun o w o' hg => ?_, ?_⟩
  · by_cases ho : o < 6
    · exact (h o ho).2
    · rw [h' o ho]; exact .nil
  · by_cases ho : o < 6
    · exact (h o ho).1 _ (Dict.mem_of_get hg)
    · rw [h' o ho] at hg; cases hg
  · show (St.init.commands.keys).Nodup
    decide

theorem Named.step {s : St} (hi : Inv s) (hn : Named s) (e : Ev) : Named (step s e) := by
  have hl := (hi.step e).2
  have quiet : ∀ k, Named (emit s k) := fun k => hn.still (Frame.emit s k).still
  cases e with
  | new txt mode dflt =>
    simp only [Shell.step] at hl ⊢
    split
    · exact quiet _
    · next h =>
      rw [if_neg h] at hl
      refine hn.via hl hn.cwf fun o => ?_
      simp only [alloc, upd]
      split
      · exact .inr (.inl rfl)
      · exact .inl rfl
  | configure o n p =>
    simp only [Shell.step] at hl ⊢
    split
    · next hm =>
      rw [if_pos hm] at hl
      unfold Shell.configure at hl ⊢
      split
      · exact quiet _
      · next h1 =>
        rw [if_neg h1] at hl
        split
        · exact quiet _
        · next h2 =>
          rw [if_neg h2] at hl
          split
          · exact quiet _
          · next h3 =>
            rw [if_neg h3] at hl
            refine hn.via hl hn.cwf fun i => .inl ?_
            simp only [upd]
            split
            · next e => subst e; rfl
            · rfl
    · exact hn
  | configureSub o o' =>
    simp only [Shell.step] at hl ⊢
    split
    · next hm =>
      rw [if_pos hm] at hl
      simp only [mine, Bool.and_eq_true, decide_eq_true_eq] at hm
      unfold Shell.configureSub at hl ⊢
      split
      · exact quiet _
      · next h1 =>
        rw [if_neg h1] at hl
        split
        · exact quiet _
        · next h2 =>
          rw [if_neg h2] at hl
          refine hn.via hl hn.cwf fun i => ?_
          by_cases e : i = o
          · subst e
            refine .inr (.inr ⟨o', hm.2.1, ?_⟩)
            rw [(hl.same o' hm.2.1).1]
            simp [upd]
          · exact .inl (by simp [upd, e])
    · exact hn
  | register o =>
    simp only [Shell.step] at hl ⊢
    split
    · next hm =>
      rw [if_pos hm] at hl
      simp only [mine, Bool.and_eq_true, decide_eq_true_eq] at hm
      unfold Shell.register at hl ⊢
      split
      · exact quiet _
      · next h1 =>
        rw [if_neg h1] at hl
        unfold addCommand at hl ⊢
        simp only at hl ⊢
        split
        · exact quiet _
        · next h2 =>
          rw [if_neg h2] at hl
          have h0 := hi.three
          refine hn.via hl (hn.cwf.set _ _) fun i => ?_
          by_cases e : i = 0
          · subst e
            refine .inr (.inr ⟨s.nObj, by simp [alloc], ?_⟩)
            simp [alloc, upd, show ¬ 0 = s.nObj by omega, show ¬ s.nObj = 0 by omega]
          · by_cases e' : i = s.nObj
            · exact .inr (.inl (by simp [alloc, upd, e, e', show ¬ s.nObj = 0 by omega]))
            · exact .inl (by simp [alloc, upd, e, e'])
    · exact hn
  | line l e => exact hn.still (frame_line e s l).still
  | done n ok =>
    simp only [Shell.step] at hl ⊢
    split
    · exact hn
    · exact ⟨hn.wf, hn.named, hn.cwf⟩
  | run t e =>
    simp only [Shell.step]
    split
    · exact hn.still (still_run e s t)
    · exact hn

theorem Named.exec {s : St} (hi : Inv s) (hn : Named s) (h : List Ev) : Named (Shell.exec s h) := by
  induction h generalizing s with
  | nil => exact hn
  | cons e h ih => exact ih (hi.step e).1 (.step hi hn e)

theorem Named.reachable (h : List Ev) : Named (Shell.exec .init h) := Named.init.exec .init h

theorem mem_vals {α β : Type} [DecidableEq α] {d : Dict α β} (h : Dict.WF d) {v : β} : v ∈ d.vals ↔ ∃ k, d.get k = some v := by
  simp only [Dict.vals, List.mem_map, Prod.exists, exists_eq_right]
  exact exists_congr fun k => (Dict.get_iff_mem h).symm

theorem gather_none {f : Nat → Option (List Str)} {l : List Nat} : gather f l = none ↔ ∃ o ∈ l, f o = none := by
  induction l with
  | nil => simp [gather]
  | cons o l ih =>
    unfold gather
    cases hf : f o with
    | none => simp [hf]
    | some a =>
      cases hg : gather f l with
      | none => simpa [hf] using ih.mp hg
      | some b =>
        simp only [reduceCtorEq, false_iff, List.mem_cons, exists_eq_or_imp, hf, false_or]
        intro hx
        rw [ih.mpr hx] at hg
        cases hg

theorem gather_mem {f : Nat → Option (List Str)} {l : List Nat} {r : List Str} (h : gather f l = some r) (x : Str) :
    x ∈ r ↔ ∃ o ∈ l, ∃ a, f o = some a ∧ x ∈ a := by
  induction l generalizing r with
  | nil => simp only [gather, Option.some.injEq] at h; subst h; simp
  | cons o l ih =>
    unfold gather at h
    split at h
    · cases h
    · next a ha =>
      split at h
      · cases h
      · next b hb =>
        cases h
        rw [List.mem_append, ih hb]
        simp [ha]

theorem deep_iff {x : Texts} {d : Nat → Str} {p : Nat → Nat → Str} {s : St} (hn : Named s) (k o : Nat) : listing x d p s k o = none ↔ Deep s k o := by
  induction k generalizing o with
  | zero => simp [listing, Deep]
  | succ k ih =>
    unfold listing Deep
    split
    · next hm => simp [hm]
    · next hm => simp [hm]
    · next hm =>
      simp only [hm, true_and]
      split
      · next hg =>
        obtain ⟨o', ho, h⟩ := gather_none.mp hg
        obtain ⟨w, hw⟩ := (mem_vals (hn.wf o)).mp ho
        simp only [true_iff]
        exact ⟨w, o', hw, (ih o').mp h⟩
      · next ls hg =>
        simp only [reduceCtorEq, false_iff]
        rintro ⟨w, o', hw, h⟩
        have := gather_none.mpr ⟨o', (mem_vals (hn.wf o)).mpr ⟨w, hw⟩, (ih o').mpr h⟩
        rw [this] at hg
        cases hg

/-- The end of a line: the suffix, and the further text. -/
inductive Tail (x : Texts) (d : Nat → Str) (p : Nat → Nat → Str) (i : Nat) : Form → Str → Prop
  | any : Tail x d p i .any ("/*".toList ++ d i)
  | alone : Tail x d p i (.count 0) ("/0".toList ++ d i)
  | usage (n : Nat) (u : Str) : 0 < n → x.usage i n = some u → u ≠ [] → Tail x d p i (.count n) (' ' :: u ++ p i n)
  | number (n : Nat) : 0 < n → (x.usage i n = none ∨ x.usage i n = some []) → Tail x d p i (.count n) ('/' :: natStr n ++ p i n)

theorem spaced_cons (w v : Str) (ws : List Str) : spaced (w :: v :: ws) = w ++ ' ' :: spaced (v :: ws) := rfl

theorem podLine_tail {x : Texts} {d : Nat → Str} {p : Nat → Nat → Str} {s : St} {i n : Nat} (h : 0 < n) (l : Str) :
    l = podLine x p s i n ↔ ∃ t, Tail x d p i (.count n) t ∧ l = (s.obj i).txt ++ t := by
  unfold podLine
  split
  · next c u hu =>
    constructor
    · rintro rfl
      exact ⟨_, .usage n (c :: u) h hu (by simp), by simp⟩
    · rintro ⟨t, ht, rfl⟩
      cases ht with
      | alone => omega
      | usage _ v _ hv _ => rw [hu] at hv; cases hv; simp
      | number _ _ hv => rw [hu] at hv; simp at hv
  · next hu =>
    constructor
    · rintro rfl
      refine ⟨_, .number n h ?_, by simp⟩
      cases hx : x.usage i n with
      | none => exact .inl rfl
      | some v => cases v with
        | nil => exact .inr rfl
        | cons c u => exact absurd hx (hu c u)
    · rintro ⟨t, ht, rfl⟩
      cases ht with
      | alone => omega
      | usage _ v _ hv hne => cases v with
        | nil => exact absurd rfl hne
        | cons c u => exact absurd hv (hu c u)
      | number _ _ hv => simp

theorem dflt_mem {d : Nat → Str} {s : St} {i : Nat} (l : Str) : l ∈ dfltLines d s i ↔ (s.obj i).dflt ≠ none ∧
    (((s.obj i).mode = .single ∧ l = (s.obj i).txt ++ ("/*".toList ++ d i)) ∨ ((s.obj i).mode ≠ .single ∧ l = (s.obj i).txt ++ ("/0".toList ++ d i))) := by
  unfold dfltLines
  split
  · next h => simp [h]
  · next q h =>
    split
    · next hm => simp [h, hm]
    · next hm =>
      have hm : (s.obj i).mode ≠ .single := hm
      simp [h, hm]

theorem listing_mem {x : Texts} {d : Nat → Str} {p : Nat → Nat → Str} {s : St} (hi : Inv s) (hn : Named s) (k o : Nat) (ho : o < s.nObj) (ls : List Str)
    (h : listing x d p s k o = some ls) (l : Str) :
    l ∈ ls ↔ ∃ ws f i t, Way s o ws f i ∧ Tail x d p i f t ∧ l = spaced ((s.obj o).txt :: ws) ++ t := by
  induction k generalizing o ls l with
  | zero => cases h
  | succ k ih =>
    unfold listing at h
    split at h
    · next hm =>
      cases h
      rw [dflt_mem]
      constructor
      · rintro ⟨h1, ⟨_, rfl⟩ | ⟨h2, _⟩⟩
        · exact ⟨[], .any, o, _, .single o hm h1, .any, rfl⟩
        · exact absurd hm h2
      · rintro ⟨ws, f, i, t, hw, ht, rfl⟩
        cases hw with
        | single _ _ h2 => cases ht; exact ⟨h2, .inl ⟨hm, rfl⟩⟩
        | alone _ h1 _ => exact absurd hm h1
        | count _ _ _ h1 _ => rw [hm] at h1; cases h1
        | sub _ _ _ _ _ _ h1 _ _ => rw [hm] at h1; cases h1
    · next hm =>
      cases h
      rw [List.mem_append, dflt_mem, List.mem_map]
      constructor
      · rintro (⟨h1, ⟨h2, _⟩ | ⟨h2, rfl⟩⟩ | ⟨n, hk, rfl⟩)
        · rw [hm] at h2; cases h2
        · exact ⟨[], .count 0, o, _, .alone o h2 h1, .alone, rfl⟩
        · obtain ⟨q, hq⟩ := Dict.mem_keys_iff.mp hk
          have h0 : 0 < n := Nat.pos_of_ne_zero fun e => by rw [e, hi.zero o ho] at hq; cases hq
          obtain ⟨t, ht, e⟩ := (podLine_tail (d := d) h0 _).mp (Eq.refl (podLine x p s o n))
          exact ⟨[], .count n, o, t, .count o n q hm hq, ht, e⟩
      · rintro ⟨ws, f, i, t, hw, ht, rfl⟩
        cases hw with
        | single _ h1 _ => rw [hm] at h1; cases h1
        | alone _ h1 h2 =>
          cases ht with
          | alone => exact .inl ⟨h2, .inr ⟨h1, rfl⟩⟩
          | usage _ _ h0 => omega
          | number _ h0 => omega
        | count _ n q h1 h2 =>
          have h0 : 0 < n := Nat.pos_of_ne_zero fun e => by rw [e, hi.zero o ho] at h2; cases h2
          exact .inr ⟨n, Dict.mem_keys_iff.mpr ⟨q, h2⟩, ((podLine_tail h0 _).mpr ⟨t, ht, rfl⟩).symm⟩
        | sub _ _ _ _ _ _ h1 _ _ => rw [hm] at h1; cases h1
    · next hm =>
      split at h
      · cases h
      · next r hr =>
        cases h
        rw [List.mem_append, dflt_mem, List.mem_map]
        constructor
        · rintro (⟨h1, ⟨h2, _⟩ | ⟨h2, rfl⟩⟩ | ⟨m, hm', rfl⟩)
          · rw [hm] at h2; cases h2
          · exact ⟨[], .count 0, o, _, .alone o h2 h1, .alone, rfl⟩
          · obtain ⟨o', ho', a, ha, hx⟩ := (gather_mem hr m).mp hm'
            obtain ⟨w, hw⟩ := (mem_vals (hn.wf o)).mp ho'
            obtain ⟨hl, ht⟩ := hn.named o w o' hw
            obtain ⟨ws, f, i, t, h1, h2, rfl⟩ := (ih o' hl a ha m).mp hx
            refine ⟨w :: ws, f, i, t, .sub o o' i w ws f hm hw h1, h2, ?_⟩
            rw [spaced_cons, ht]
            simp
        · rintro ⟨ws, f, i, t, hw, ht, rfl⟩
          cases hw with
          | single _ h1 _ => rw [hm] at h1; cases h1
          | alone _ h1 h2 =>
            cases ht with
            | alone => exact .inl ⟨h2, .inr ⟨h1, rfl⟩⟩
            | usage _ _ h0 => omega
            | number _ h0 => omega
          | count _ _ _ h1 _ => rw [hm] at h1; cases h1
          | sub _ o' _ w ws _ _ hg hw' =>
            obtain ⟨hl, hx⟩ := hn.named o w o' hg
            have ho' := (mem_vals (hn.wf o)).mpr ⟨w, hg⟩
            cases ha : listing x d p s k o' with
            | none => rw [gather_none.mpr ⟨o', ho', ha⟩] at hr; cases hr
            | some a =>
              refine .inr ⟨spaced (w :: ws) ++ t, (gather_mem hr _).mpr ⟨o', ho', a, ha, (ih o' hl a ha _).mpr ⟨ws, f, i, t, hw', ht, by rw [hx]⟩⟩, ?_⟩
              rw [spaced_cons]
              simp

theorem tail_usage {x : Texts} {i : Nat} {f : Form} {t : Str} : Tail x (fun _ => []) (fun _ _ => []) i f t ↔ Suffix x i f t := by
  constructor
  · intro h
    cases h with
    | any => exact .any
    | alone => exact .alone
    | usage n u h1 h2 h3 => rw [List.append_nil]; exact .usage n u h1 h2 h3
    | number n h1 h2 => rw [List.append_nil]; exact .number n h1 h2
  · intro h
    cases h with
    | any => exact .any
    | alone => exact .alone
    | usage n u h1 h2 h3 => have := Tail.usage (d := fun _ => []) (p := fun _ _ => []) n u h1 h2 h3; rwa [List.append_nil] at this
    | number n h1 h2 => have := Tail.number (d := fun _ => []) (p := fun _ _ => []) n h1 h2; rwa [List.append_nil] at this

theorem tail_help {x : Texts} {i : Nat} {f : Form} {t : Str} :
    Tail x (fun i => under (x.help i)) (fun i n => under (x.podHelp i n)) i f t ↔ ∃ u, Suffix x i f u ∧ t = u ++ under (helpFor x i f) := by
  constructor
  · intro h
    cases h with
    | any => exact ⟨_, .any, rfl⟩
    | alone => exact ⟨_, .alone, rfl⟩
    | usage n u h1 h2 h3 =>
      refine ⟨_, .usage n u h1 h2 h3, ?_⟩
      cases n with
      | zero => omega
      | succ n => rfl
    | number n h1 h2 =>
      refine ⟨_, .number n h1 h2, ?_⟩
      cases n with
      | zero => omega
      | succ n => rfl
  · rintro ⟨u, h, rfl⟩
    cases h with
    | any => exact .any
    | alone => exact .alone
    | usage n u h1 h2 h3 =>
      cases n with
      | zero => omega
      | succ n => exact .usage (n + 1) u h1 h2 h3
    | number n h1 h2 =>
      cases n with
      | zero => omega
      | succ n => exact .number (n + 1) h1 h2

end Verif.Shell
