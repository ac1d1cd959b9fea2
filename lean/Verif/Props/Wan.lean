import Verif.Spec.Wan
import Verif.Lemmas.Dict
/-! # C39–C41: the routes of the WAN -/
set_option linter.unusedSectionVars false
namespace Verif.Wan
variable {P : Type} [DecidableEq P]

/-! ## Entries of the table -/

def ent (t : Table P) (s d : P) : Option (List P) := (row t s).get d

theorem row_set (t : Table P) (p s : P) (w : Dict P (List P)) : row (t.set p w) s = if p = s then w else row t s := by
  unfold row; rw [Dict.get_set]; split <;> rfl

theorem ent_setEnt (t : Table P) (a b s d : P) (l : List P) :
    ent (setEnt t a b l) s d = if a = s ∧ b = d then some l else ent t s d := by
  unfold ent setEnt
  rw [row_set]
  by_cases h : a = s
  · subst h; rw [if_pos rfl, Dict.get_set]; simp
  · simp [h]

theorem keys_setEnt {t : Table P} {a : P} (b : P) (l : List P) (h : a ∈ t.keys) : (setEnt t a b l).keys = t.keys := by
  unfold setEnt; rw [Dict.keys_set, if_pos h]

/-- The rows are dictionaries. -/
def RWF (t : Table P) : Prop := ∀ s, Dict.WF (row t s)

theorem RWF.setEnt {t : Table P} (h : RWF t) (a b : P) (l : List P) : RWF (setEnt t a b l) := by
  intro s
  unfold Wan.setEnt
  rw [row_set]
  split
  · exact (h a).set _ _
  · exact h s

/-! ## Clearing -/

theorem get_delAll {w : Dict P (List P)} (hw : Dict.WF w) : ∀ (ks : List P) (d : P),
    Dict.WF (ks.foldl Dict.del w) ∧ (ks.foldl Dict.del w).get d = if d ∈ ks then none else w.get d := by
  intro ks
  induction ks generalizing w with
  | nil => intro d; exact ⟨hw, by simp⟩
  | cons k ks ih =>
    intro d
    refine ⟨(ih (hw.del k) d).1, ?_⟩
    rw [List.foldl_cons, (ih (hw.del k) d).2, Dict.get_del hw]
    by_cases h1 : d ∈ ks
    · simp [h1]
    · by_cases h2 : k = d
      · simp [h2]
      · simp [h1, h2, Ne.symm h2]

theorem clearRow_spec {r : P} {w : Dict P (List P)} (hw : Dict.WF w) (d : P) :
    Dict.WF (clearRow r w) ∧ (clearRow r w).get d = if d = r then none else (w.get d).filter (fun l => decide (r ∉ l)) := by
  have h1 : Dict.WF (dropDest r w) := by unfold dropDest; split; exact hw.del r; exact hw
  have h2 : ∀ d, (dropDest r w).get d = if d = r then none else w.get d := by
    intro d
    unfold dropDest
    split
    · rw [Dict.get_del hw]; simp [eq_comm]
    · next h =>
      split
      · next h3 =>
        subst h3
        exact Dict.get_eq_none_iff.mpr (fun hh => h (Dict.has_iff.mpr hh))
      · rfl
  refine ⟨(get_delAll h1 _ d).1, ?_⟩
  unfold clearRow
  rw [(get_delAll h1 _ d).2, h2]
  by_cases hd : d = r
  · simp [hd]
  · rw [if_neg hd, if_neg hd]
    cases hg : w.get d with
    | none => simp
    | some l =>
      have hk : d ∈ (dropDest r w).keys := Dict.mem_keys_iff.mpr ⟨l, by rw [h2, if_neg hd, hg]⟩
      have hm : d ∈ toRemove r (dropDest r w) ↔ r ∈ l := by
        unfold toRemove
        rw [List.mem_filter, h2, if_neg hd, hg]
        simp [hk]
      by_cases hr : r ∈ l
      · rw [if_pos (hm.mpr hr)]; simp [Option.filter, hr]
      · rw [if_neg (fun h => hr (hm.mp h))]; simp [Option.filter, hr]

theorem clearFold (r : P) : ∀ (ks : List P) (t : Table P), ks.Nodup → (∀ k ∈ ks, k ∈ t.keys) →
    (ks.foldl (fun t p => t.set p (clearRow r (row t p))) t).keys = t.keys ∧
    ∀ s, row (ks.foldl (fun t p => t.set p (clearRow r (row t p))) t) s = if s ∈ ks then clearRow r (row t s) else row t s := by
  intro ks
  induction ks with
  | nil => intro t _ _; exact ⟨rfl, by simp⟩
  | cons k ks ih =>
    intro t hn hk
    have hn := List.nodup_cons.mp hn
    have hkeys : (t.set k (clearRow r (row t k))).keys = t.keys := by
      rw [Dict.keys_set, if_pos (hk k (List.mem_cons_self ..))]
    obtain ⟨i1, i2⟩ := ih (t.set k (clearRow r (row t k))) hn.2 (fun x hx => by rw [hkeys]; exact hk x (List.mem_cons_of_mem _ hx))
    refine ⟨by rw [List.foldl_cons, i1, hkeys], fun s => ?_⟩
    rw [List.foldl_cons, i2, row_set]
    by_cases h : k = s
    · subst h; simp [hn.1]
    · simp [h, Ne.symm h]

theorem clear_spec {t : Table P} {r : P} (hw : Dict.WF t) (hr : RWF t) (hk : r ∈ t.keys) :
    (clear t r).keys = t.keys ∧ RWF (clear t r) ∧
    ∀ s d, ent (clear t r) s d = if s = r ∨ d = r then none else (ent t s d).filter (fun l => decide (r ∉ l)) := by
  have k1 : (t.set r []).keys = t.keys := by rw [Dict.keys_set, if_pos hk]
  obtain ⟨c1, c2⟩ := clearFold r (t.set r []).keys (t.set r []) (hw.set _ _) (fun _ h => h)
  have hr' : RWF (t.set r []) := by
    intro s; rw [row_set]; split
    · exact Dict.WF.nil
    · exact hr s
  have hrow : ∀ s, row (clear t r) s = if s ∈ t.keys then clearRow r (row (t.set r []) s) else row (t.set r []) s := by
    intro s; unfold clear; rw [c2 s, k1]
  refine ⟨by unfold clear; rw [c1, k1], fun s => ?_, fun s d => ?_⟩
  · rw [hrow]; split
    · exact (clearRow_spec (hr' s) s).1
    · exact hr' s
  · unfold ent
    rw [hrow]
    by_cases hs : s = r
    · subst hs
      rw [if_pos hk, (clearRow_spec (hr' s) d).2, row_set]
      simp
    · rw [row_set, if_neg (Ne.symm hs)]
      by_cases hm : s ∈ t.keys
      · rw [if_pos hm, (clearRow_spec (hr s) d).2]; simp [hs]
      · rw [if_neg hm]
        have : row t s = [] := by unfold row; rw [Dict.get_eq_none_iff.mpr hm]; rfl
        rw [this]
        by_cases hd : d = r <;> simp [hs, hd]

/-! ## Walks -/

theorem Walk.append {E : P → P → Prop} : ∀ {l1 : List P} {u v w : P} {l2 : List P}, Walk E u l1 v → Walk E v l2 w → Walk E u (l1 ++ l2) w
  | [], u, v, w, l2, h1, h2 => by cases h1; exact h2
  | x :: l, u, v, w, l2, h1, h2 => ⟨h1.1, h1.2.append h2⟩

theorem Walk.mono {E F : P → P → Prop} : ∀ {l : List P} {u v : P}, Walk E u l v → (∀ a b, E a b → (a = u ∨ a ∈ l) → b ∈ l → F a b) → Walk F u l v
  | [], _, _, h, _ => h
  | x :: l, u, v, h, hm => ⟨hm u x h.1 (.inl rfl) (List.mem_cons_self ..),
      h.2.mono fun a b hab ha hb => hm a b hab (.inr (ha.elim (fun e => by rw [e]; exact List.mem_cons_self ..) (List.mem_cons_of_mem _)))
        (List.mem_cons_of_mem _ hb)⟩

/-- A walk is cut at each of its nodes. -/
theorem Walk.cut {E : P → P → Prop} : ∀ {a : List P} {u v i : P} {b : List P}, Walk E u (a ++ i :: b) v → Walk E u (a ++ [i]) i ∧ Walk E i b v
  | [], _, _, _, _, h => ⟨⟨h.1, rfl⟩, h.2⟩
  | _ :: a, _, _, _, _, h => ⟨⟨h.1, (Walk.cut (a := a) h.2).1⟩, (Walk.cut (a := a) h.2).2⟩

theorem Walk.last {E : P → P → Prop} : ∀ {l : List P} {u v : P}, Walk E u l v → (h : l ≠ []) → l.getLast h = v
  | [x], _, _, h, _ => h.2
  | x :: y :: l, _, _, h, _ => by rw [List.getLast_cons (by simp)]; exact Walk.last (l := y :: l) h.2 (by simp)

theorem mem_of_dropLast {x : P} {l : List P} (h : x ∈ l.dropLast) : x ∈ l := (List.dropLast_subset l) h

theorem first_split (i : P) : ∀ {w : List P}, i ∈ w → ∃ a b, w = a ++ i :: b ∧ i ∉ a
  | x :: w, h => by
    by_cases hx : x = i
    · exact ⟨[], w, by simp [hx], by simp⟩
    · obtain ⟨a, b, h1, h2⟩ := first_split i (w := w) ((List.mem_cons.mp h).resolve_left (Ne.symm hx))
      exact ⟨x :: a, b, by simp [h1], by simp [h2, Ne.symm hx]⟩

theorem last_split (i : P) : ∀ {w : List P}, i ∈ w → ∃ a b, w = a ++ i :: b ∧ i ∉ b
  | x :: w, h => by
    by_cases hx : i ∈ w
    · obtain ⟨a, b, h1, h2⟩ := last_split i hx
      exact ⟨x :: a, b, by simp [h1], h2⟩
    · exact ⟨[], w, by simp [(List.mem_cons.mp h).resolve_right hx], hx⟩

/-! ## Shortest paths -/

/-- The table contains walks of the graph, and all direct connections. -/
structure Sound (E : P → P → Prop) (t : Table P) : Prop where
  walk : ∀ s d l, ent t s d = some l → l ≠ [] ∧ Walk E s l d
  edges : ∀ s d, E s d → ent t s d = some [d]
  diag : ∀ s l, ent t s s = some l → E s s

/-- What the loop over the intermediate prefix `i` does to the table. -/
structure Better (i : P) (t u : Table P) : Prop where
  keys : u.keys = t.keys
  le : ∀ s d l, ent t s d = some l → ∃ l', ent u s d = some l' ∧ l'.length ≤ l.length
  fixed : ∀ s d, s = i ∨ d = i → ent u s d = ent t s d

theorem Better.refl (i : P) (t : Table P) : Better i t t := ⟨rfl, fun _ _ l h => ⟨l, h, Nat.le_refl _⟩, fun _ _ _ => rfl⟩

theorem Better.trans {i : P} {t u v : Table P} (h1 : Better i t u) (h2 : Better i u v) : Better i t v := by
  refine ⟨h2.keys.trans h1.keys, fun s d l h => ?_, fun s d h => (h2.fixed s d h).trans (h1.fixed s d h)⟩
  obtain ⟨l1, a, b⟩ := h1.le s d l h
  obtain ⟨l2, c, e⟩ := h2.le s d l1 a
  exact ⟨l2, c, Nat.le_trans e b⟩

/-- One turn. -/
theorem relax_cases (i s : P) (t : Table P) (d : P) :
    (relax i s t d = t ∧ (i ≠ s → i ≠ d → s ≠ d → ∀ l1 l2, ent t s i = some l1 → ent t i d = some l2 → l1 ≠ [] → l2 ≠ [] →
        ∃ l, ent t s d = some l ∧ l.length ≤ l1.length + l2.length)) ∨
    ∃ l1 l2, i ≠ s ∧ i ≠ d ∧ s ≠ d ∧ ent t s i = some l1 ∧ ent t i d = some l2 ∧ l1 ≠ [] ∧ l2 ≠ [] ∧ relax i s t d = setEnt t s d (l1 ++ l2) ∧
      ∀ c, ent t s d = some c → (l1 ++ l2).length < c.length := by
  unfold relax ent
  by_cases h : i = s ∨ i = d ∨ s = d
  · rw [if_pos h]; left; exact ⟨rfl, fun h1 h2 h3 => absurd h (by simp [h1, h2, h3])⟩
  · rw [if_neg h]
    have h1 : i ≠ s := fun e => h (.inl e)
    have h2 : i ≠ d := fun e => h (.inr (.inl e))
    have h3 : s ≠ d := fun e => h (.inr (.inr e))
    split
    · next a l1 b l2 e1 e2 =>
      split
      · next e3 =>
        right
        exact ⟨_, _, h1, h2, h3, e1, e2, by simp, by simp, rfl, fun c hc => by rw [e3] at hc; cases hc⟩
      · next cur e3 =>
        split
        · next hgt =>
          right
          refine ⟨_, _, h1, h2, h3, e1, e2, by simp, by simp, rfl, fun c hc => ?_⟩
          rw [e3] at hc; cases hc; exact hgt
        · next hgt =>
          left
          refine ⟨rfl, fun _ _ _ x1 x2 y1 y2 _ _ => ⟨cur, e3, ?_⟩⟩
          rw [e1] at y1; rw [e2] at y2; cases y1; cases y2
          simp at hgt ⊢; omega
    · next hno =>
      left
      refine ⟨rfl, fun _ _ _ x1 x2 y1 y2 n1 n2 => ?_⟩
      cases x1 with
      | nil => exact absurd rfl n1
      | cons a l1 => cases x2 with
        | nil => exact absurd rfl n2
        | cons b l2 => exact (hno a l1 b l2 y1 y2).elim

theorem relax_better {i s d : P} {t : Table P} (hs : s ∈ t.keys) : Better i t (relax i s t d) := by
  rcases relax_cases i s t d with ⟨h, _⟩ | ⟨l1, l2, h1, h2, h3, e1, e2, n1, n2, h, hc⟩
  · rw [h]; exact .refl i t
  · rw [h]
    refine ⟨keys_setEnt _ _ hs, fun a b l hl => ?_, fun a b hab => ?_⟩
    · rw [ent_setEnt]
      split
      · next hh =>
        obtain ⟨rfl, rfl⟩ := hh
        exact ⟨_, rfl, Nat.le_of_lt (hc l hl)⟩
      · exact ⟨l, hl, Nat.le_refl _⟩
    · rw [ent_setEnt, if_neg]
      rintro ⟨rfl, rfl⟩
      rcases hab with rfl | rfl
      · exact h1 rfl
      · exact h2 rfl

theorem Sound.relax {E : P → P → Prop} {i s d : P} {t : Table P} (h : Sound E t) : Sound E (relax i s t d) := by
  rcases relax_cases i s t d with ⟨hh, _⟩ | ⟨l1, l2, h1, h2, h3, e1, e2, n1, n2, hh, hc⟩
  · rw [hh]; exact h
  · rw [hh]
    refine ⟨fun a b l hl => ?_, fun a b hab => ?_, fun a l hl => ?_⟩
    · rw [ent_setEnt] at hl
      split at hl
      · next hab =>
        obtain ⟨rfl, rfl⟩ := hab
        cases hl
        exact ⟨by simp [n1], (h.walk _ _ _ e1).2.append (h.walk _ _ _ e2).2⟩
      · exact h.walk a b l hl
    · rw [ent_setEnt, if_neg]
      · exact h.edges a b hab
      · rintro ⟨rfl, rfl⟩
        have := hc _ (h.edges _ _ hab)
        have p1 := List.length_pos_iff.mpr n1
        have p2 := List.length_pos_iff.mpr n2
        rw [List.length_append, List.length_singleton] at this; omega
    · rw [ent_setEnt, if_neg] at hl
      · exact h.diag a l hl
      · rintro ⟨rfl, rfl⟩; exact h3 rfl

theorem RWF.relax {i s d : P} {t : Table P} (h : RWF t) : RWF (relax i s t d) := by
  rcases relax_cases i s t d with ⟨hh, _⟩ | ⟨l1, l2, h1, h2, h3, e1, e2, n1, n2, hh, hc⟩
  · rw [hh]; exact h
  · rw [hh]; exact h.setEnt _ _ _

/-- After the turn for `i`, `s`, `d` the entry is at least as good as going through `i`. -/
theorem relax_done {E : P → P → Prop} {i s d : P} {t : Table P} (h : Sound E t) (h1 : i ≠ s) (h2 : i ≠ d) (h3 : s ≠ d) {l1 l2 : List P}
    (e1 : ent t s i = some l1) (e2 : ent t i d = some l2) :
    ∃ l, ent (Wan.relax i s t d) s d = some l ∧ l.length ≤ l1.length + l2.length := by
  rcases relax_cases i s t d with ⟨hh, hx⟩ | ⟨k1, k2, _, _, _, f1, f2, n1, n2, hh, hc⟩
  · rw [hh]; exact hx h1 h2 h3 l1 l2 e1 e2 (h.walk _ _ _ e1).1 (h.walk _ _ _ e2).1
  · rw [hh, ent_setEnt]
    rw [e1] at f1; rw [e2] at f2; cases f1; cases f2
    exact ⟨l1 ++ l2, by rw [if_pos ⟨rfl, rfl⟩], by rw [List.length_append]; exact Nat.le_refl _⟩

/-- Everything a loop keeps. -/
structure Keep (E : P → P → Prop) (i : P) (t u : Table P) : Prop where
  better : Better i t u
  sound : Sound E t → Sound E u
  rwf : RWF t → RWF u

theorem Keep.refl (E : P → P → Prop) (i : P) (t : Table P) : Keep E i t t := ⟨.refl i t, id, id⟩
theorem Keep.trans {E : P → P → Prop} {i : P} {t u v : Table P} (h1 : Keep E i t u) (h2 : Keep E i u v) : Keep E i t v :=
  ⟨h1.better.trans h2.better, h2.sound ∘ h1.sound, h2.rwf ∘ h1.rwf⟩

/-- A loop: if each turn keeps, the loop keeps, and at some point the turn for each element is made. -/
theorem loop_keep {E : P → P → Prop} {i : P} {f : Table P → P → Table P} (ks : List P)
    (hf : ∀ t x, x ∈ ks → (∀ k ∈ ks, k ∈ t.keys) → Keep E i t (f t x)) :
    ∀ (xs : List P), (∀ x ∈ xs, x ∈ ks) → ∀ t, (∀ k ∈ ks, k ∈ t.keys) → Keep E i t (xs.foldl f t) ∧
      ∀ x ∈ xs, ∃ u, Keep E i t u ∧ Keep E i (f u x) (xs.foldl f t) := by
  intro xs
  induction xs with
  | nil => intro _ t _; exact ⟨.refl E i t, by simp⟩
  | cons x xs ih =>
    intro hx t ht
    have k1 := hf t x (hx x (List.mem_cons_self ..)) ht
    obtain ⟨i1, i2⟩ := ih (fun y hy => hx y (List.mem_cons_of_mem _ hy)) (f t x) (fun k hk => by rw [k1.better.keys]; exact ht k hk)
    refine ⟨k1.trans i1, fun y hy => ?_⟩
    rcases List.mem_cons.mp hy with rfl | hy
    · exact ⟨t, .refl E i t, i1⟩
    · obtain ⟨u, a, b⟩ := i2 y hy
      exact ⟨u, k1.trans a, b⟩

/-- The two inner loops. -/
def phase (ks : List P) (t : Table P) (i : P) : Table P := ks.foldl (fun u s => ks.foldl (relax i s) u) t

theorem phase_spec (E : P → P → Prop) (i : P) (ks : List P) (t : Table P) (ht : ∀ k ∈ ks, k ∈ t.keys) :
    Keep E i t (phase ks t i) ∧ (Sound E t → ∀ s ∈ ks, ∀ d ∈ ks, i ≠ s → i ≠ d → s ≠ d → ∀ l1 l2, ent t s i = some l1 → ent t i d = some l2 →
      ∃ l, ent (phase ks t i) s d = some l ∧ l.length ≤ l1.length + l2.length) := by
  have inner : ∀ s ∈ ks, ∀ u : Table P, (∀ k ∈ ks, k ∈ u.keys) → Keep E i u (ks.foldl (relax i s) u) ∧
      ∀ d ∈ ks, ∃ v, Keep E i u v ∧ Keep E i (relax i s v d) (ks.foldl (relax i s) u) := by
    intro s hs u hu
    exact loop_keep ks (fun v d _ hv => ⟨relax_better (hv s hs), fun h => h.relax, fun h => h.relax⟩) ks (fun _ h => h) u hu
  obtain ⟨o1, o2⟩ := loop_keep (E := E) (i := i) ks (f := fun u s => ks.foldl (relax i s) u) (fun u s hs hu => (inner s hs u hu).1) ks (fun _ h => h) t ht
  refine ⟨o1, fun hS s hs d hd h1 h2 h3 l1 l2 e1 e2 => ?_⟩
  obtain ⟨u, a, b⟩ := o2 s hs
  obtain ⟨v, c, e⟩ := (inner s hs u (fun k hk => by rw [a.better.keys]; exact ht k hk)).2 d hd
  have hv := a.trans c
  obtain ⟨l, f1, f2⟩ := relax_done (hv.sound hS) h1 h2 h3 ((hv.better.fixed s i (.inr rfl)).trans e1) ((hv.better.fixed i d (.inl rfl)).trans e2)
  obtain ⟨l', g1, g2⟩ := (e.trans b).better.le s d l f1
  exact ⟨l', g1, Nat.le_trans g2 f2⟩

/-- Routes whose intermediate prefixes are in `K` are at least as long as the entries. -/
def Best (E : P → P → Prop) (K : List P) (t : Table P) : Prop :=
  ∀ s d w, s ≠ d → Walk E s w d → (∀ x ∈ w.dropLast, x ∈ K) → ∃ l, ent t s d = some l ∧ l.length ≤ w.length

theorem Best.nil {E : P → P → Prop} {t : Table P} (h : Sound E t) : Best E [] t := by
  intro s d w hsd hw hx
  match w, hw, hx with
  | [], hw, _ => exact absurd hw hsd
  | [x], hw, _ => obtain ⟨he, rfl⟩ := hw; exact ⟨[x], h.edges s x he, by simp⟩
  | x :: y :: w, _, hx => exact absurd (hx x (by simp)) (by simp)

theorem dropLast_split {a b : List P} {i : P} : (a ++ i :: b).dropLast = a ++ (i :: b).dropLast := List.dropLast_append_of_ne_nil (by simp)

theorem mem_dropLast_of_cons {i x : P} {b : List P} (h : x ∈ b.dropLast) : x ∈ (i :: b).dropLast := by
  cases b with
  | nil => simp at h
  | cons y b => simp only [List.dropLast_cons_cons]; exact List.mem_cons_of_mem _ h

theorem Best.phase {E : P → P → Prop} {i : P} {ks K : List P} {t : Table P} (hE : ∀ a b, E a b → a ∈ ks ∧ b ∈ ks)
    (ht : ∀ k ∈ ks, k ∈ t.keys) (hS : Sound E t) (h : Best E K t) : Best E (i :: K) (phase ks t i) := by
  obtain ⟨p1, p2⟩ := phase_spec E i ks t ht
  have up : ∀ s d n, (∃ l, ent t s d = some l ∧ l.length ≤ n) → ∃ l, ent (Wan.phase ks t i) s d = some l ∧ l.length ≤ n := by
    intro s d n ⟨l, h1, h2⟩
    obtain ⟨l', h3, h4⟩ := p1.better.le s d l h1
    exact ⟨l', h3, Nat.le_trans h4 h2⟩
  intro s d w hsd hw hx
  have hw0 : w ≠ [] := by rintro rfl; exact hsd hw
  by_cases hi : i ∈ w.dropLast
  · have hiw := mem_of_dropLast hi
    obtain ⟨a, b, e1, n1⟩ := first_split i hiw
    obtain ⟨a', b', e2, n2⟩ := last_split i hiw
    have wa : Walk E s (a ++ [i]) i := (Walk.cut (e1 ▸ hw)).1
    have wb : Walk E i b' d := (Walk.cut (e2 ▸ hw)).2
    have ia : ∀ x ∈ (a ++ [i]).dropLast, x ∈ K := by
      intro x hx'
      rw [List.dropLast_append_of_ne_nil (by simp)] at hx'
      have hxa : x ∈ a := by simpa using hx'
      have : x ∈ w.dropLast := by rw [e1, dropLast_split]; exact List.mem_append_left _ hxa
      exact (List.mem_cons.mp (hx x this)).resolve_left (fun e => n1 (e ▸ hxa))
    have ib : ∀ x ∈ b'.dropLast, x ∈ K := by
      intro x hx'
      have : x ∈ w.dropLast := by rw [e2, dropLast_split]; exact List.mem_append_right _ (mem_dropLast_of_cons hx')
      exact (List.mem_cons.mp (hx x this)).resolve_left (fun e => n2 (e ▸ mem_of_dropLast hx'))
    have la : (a ++ [i]).length ≤ w.length := by rw [e1]; simp
    have lb : b'.length ≤ w.length := by rw [e2]; simp; omega
    by_cases h1 : i = s
    · subst h1
      obtain ⟨l, x1, x2⟩ := h i d b' hsd wb ib
      exact up i d _ ⟨l, x1, Nat.le_trans x2 lb⟩
    · by_cases h2 : i = d
      · subst h2
        obtain ⟨l, x1, x2⟩ := h s i _ hsd wa ia
        exact up s i _ ⟨l, x1, Nat.le_trans x2 la⟩
      · obtain ⟨l1, x1, y1⟩ := h s i _ (Ne.symm h1) wa ia
        obtain ⟨l2, x2, y2⟩ := h i d b' h2 wb ib
        have hs : s ∈ ks := by
          match w, hw0, hw with
          | x :: _, _, hw => exact (hE s x hw.1).1
        have hd : d ∈ ks := by
          have hb0 : b' ≠ [] := by rintro rfl; exact h2 wb
          have : ∀ (l : List P) (u : P), l ≠ [] → Walk E u l d → d ∈ ks := by
            intro l
            induction l with
            | nil => intro u h0; exact absurd rfl h0
            | cons x l ih =>
              intro u _ hw
              cases l with
              | nil => have := hw.2; cases this; exact (hE _ _ hw.1).2
              | cons y l => exact ih x (by simp) hw.2
          exact this b' i hb0 wb
        obtain ⟨l, z1, z2⟩ := p2 hS s hs d hd h1 h2 hsd l1 l2 x1 x2
        refine ⟨l, z1, ?_⟩
        have : (a ++ [i]).length + b'.length ≤ w.length := by
          have hlen : a.length ≤ a'.length := by
            have e : a ++ i :: b = a' ++ i :: b' := e1.symm.trans e2
            rcases Nat.lt_or_ge a'.length a.length with hlt | hge
            · exfalso
              have hg : (a ++ i :: b)[a'.length]? = some i := by rw [e]; simp
              rw [List.getElem?_append_left hlt] at hg
              exact n1 (List.mem_of_getElem? hg)
            · exact hge
          rw [e2]; simp; omega
        omega
  · refine up s d _ (h s d w hsd hw fun x hx' => ?_)
    exact (List.mem_cons.mp (hx x hx')).resolve_left (fun e => hi (e ▸ hx'))

theorem phases_spec {E : P → P → Prop} {ks : List P} (hE : ∀ a b, E a b → a ∈ ks ∧ b ∈ ks) : ∀ (is K : List P) (t : Table P),
    (∀ k ∈ ks, k ∈ t.keys) → Sound E t → RWF t → Best E K t →
    (is.foldl (phase ks) t).keys = t.keys ∧ Sound E (is.foldl (phase ks) t) ∧ RWF (is.foldl (phase ks) t) ∧ Best E (is.reverse ++ K) (is.foldl (phase ks) t)
  | [], K, t, _, hS, hR, hB => ⟨rfl, hS, hR, hB⟩
  | i :: is, K, t, hk, hS, hR, hB => by
    have p1 := (phase_spec E i ks t hk).1
    obtain ⟨a, b, c, e⟩ := phases_spec hE is (i :: K) (phase ks t i) (fun k h => by rw [p1.better.keys]; exact hk k h) (p1.sound hS) (p1.rwf hR)
      (hB.phase hE hk hS)
    refine ⟨a.trans p1.better.keys, b, c, ?_⟩
    simpa using e

theorem update_spec {E : P → P → Prop} {t : Table P} (hE : ∀ a b, E a b → a ∈ t.keys ∧ b ∈ t.keys) (hS : Sound E t) (hR : RWF t) :
    (update t).keys = t.keys ∧ Sound E (update t) ∧ RWF (update t) ∧ Best E t.keys (update t) := by
  obtain ⟨a, b, c, e⟩ := phases_spec hE t.keys [] t (fun _ h => h) hS hR (.nil hS)
  refine ⟨a, b, c, ?_⟩
  intro s d w h1 h2 h3
  exact e s d w h1 h2 fun x hx => by simpa using h3 x hx

/-! ## The invariant -/

structure Inv (g : Graph P) (t : Table P) : Prop where
  keys : t.keys = g.nodes
  wf : Dict.WF t
  rwf : RWF t
  nodes : ∀ a b, g.edge a b → a ∈ g.nodes ∧ b ∈ g.nodes
  sound : Sound g.edge t
  best : g.ok → Best g.edge g.nodes t

theorem Inv.empty : Inv (P := P) .empty [] :=
  ⟨rfl, Dict.WF.nil, fun _ => Dict.WF.nil, fun _ _ h => h.elim, ⟨fun _ _ _ h => by simp [ent, row] at h, fun _ _ h => h.elim, fun _ _ h => by simp [ent, row] at h⟩,
    fun _ s d w hsd hw _ => by
      match w, hw with
      | [], hw => exact absurd hw hsd
      | x :: w, hw => exact hw.1.elim⟩

theorem row_new {t : Table P} {p : P} (h : p ∉ t.keys) (s : P) : row (t.set p []) s = row t s := by
  rw [row_set]
  split
  · next e => subst e; unfold row; rw [Dict.get_eq_none_iff.mpr h]; rfl
  · rfl

theorem Walk.nodes {E : P → P → Prop} {N : List P} (hE : ∀ a b, E a b → a ∈ N ∧ b ∈ N) : ∀ {l : List P} {u v : P}, Walk E u l v → ∀ x ∈ l, x ∈ N
  | y :: l, u, v, h, x, hx => by
    rcases List.mem_cons.mp hx with rfl | hx
    · exact (hE _ _ h.1).2
    · exact Walk.nodes hE h.2 x hx

/-- Direct connections are added one after the other. -/
theorem addDirect_spec (r : P) (N : List P) (hr : r ∈ N) : ∀ (ds : List P) (E : P → P → Prop) (t : Table P), t.keys = N → Dict.WF t → RWF t →
    (∀ s d l, ent t s d = some l → l ≠ [] ∧ Walk E s l d) → (∀ s d, E s d → ent t s d = some [d]) → (∀ s l, ent t s s = some l → E s s) →
    let F := fun u v => E u v ∨ (u = r ∧ v ∈ ds.takeWhile (decide <| · ∈ N)) ∨ (v = r ∧ u ∈ ds.takeWhile (decide <| · ∈ N))
    (addDirect t r ds).1.keys = N ∧ Dict.WF (addDirect t r ds).1 ∧ RWF (addDirect t r ds).1 ∧ Sound F (addDirect t r ds).1 ∧
      ((addDirect t r ds).2 = none ↔ ∀ d ∈ ds, d ∈ N) := by
  intro ds
  induction ds with
  | nil =>
    intro E t hk hw hR h1 h2 h3
    simp only [addDirect]
    refine ⟨hk, hw, hR, ?_, by simp⟩
    have : (fun u v => E u v ∨ (u = r ∧ v ∈ ([] : List P).takeWhile (decide <| · ∈ N)) ∨ (v = r ∧ u ∈ ([] : List P).takeWhile (decide <| · ∈ N))) = E := by
      funext u v; simp
    rw [this]
    exact ⟨h1, h2, h3⟩
  | cons d ds ih =>
    intro E t hk hw hR h1 h2 h3
    by_cases hd : d ∈ N
    · have hh : t.has d = true := Dict.has_iff.mpr (hk ▸ hd)
      have ha : addDirect t r (d :: ds) = addDirect (setEnt (setEnt t r d [d]) d r [r]) r ds := by rw [addDirect, if_pos hh]
      rw [ha, List.takeWhile_cons_of_pos (by simpa using hd)]
      have k1 : (setEnt t r d [d]).keys = N := by rw [keys_setEnt _ _ (hk ▸ hr), hk]
      have k2 : (setEnt (setEnt t r d [d]) d r [r]).keys = N := by rw [keys_setEnt _ _ (k1 ▸ hd), k1]
      have hent : ∀ a b, ent (setEnt (setEnt t r d [d]) d r [r]) a b = if d = a ∧ r = b then some [r] else if r = a ∧ d = b then some [d] else ent t a b := by
        intro a b; rw [ent_setEnt, ent_setEnt]
      obtain ⟨i1, i2, i3, i4, i5⟩ := ih (fun u v => E u v ∨ (u = r ∧ v = d) ∨ (v = r ∧ u = d)) (setEnt (setEnt t r d [d]) d r [r]) k2
        ((hw.set _ _).set _ _) ((hR.setEnt _ _ _).setEnt _ _ _)
        (by
          intro a b l hl
          rw [hent] at hl
          split at hl
          · next e => obtain ⟨rfl, rfl⟩ := e; cases hl; exact ⟨by simp, .inr (.inr ⟨rfl, rfl⟩), rfl⟩
          · split at hl
            · next e => obtain ⟨rfl, rfl⟩ := e; cases hl; exact ⟨by simp, .inr (.inl ⟨rfl, rfl⟩), rfl⟩
            · exact ⟨(h1 a b l hl).1, (h1 a b l hl).2.mono fun _ _ h _ _ => .inl h⟩)
        (by
          intro a b hab
          rw [hent]
          split
          · next e => rw [e.2]
          · next e1 =>
            split
            · next e => rw [e.2]
            · next e2 =>
              rcases hab with h | ⟨rfl, rfl⟩ | ⟨rfl, rfl⟩
              · exact h2 a b h
              · exact absurd ⟨rfl, rfl⟩ e2
              · exact absurd ⟨rfl, rfl⟩ e1)
        (by
          intro a l hl
          rw [hent] at hl
          split at hl
          · next e => obtain ⟨rfl, rfl⟩ := e; exact .inr (.inl ⟨rfl, rfl⟩)
          · split at hl
            · next e => obtain ⟨rfl, rfl⟩ := e; exact .inr (.inl ⟨rfl, rfl⟩)
            · exact .inl (h3 a l hl))
      refine ⟨i1, i2, i3, ?_, by rw [i5]; simp [hd]⟩
      have hF : (fun u v => (E u v ∨ (u = r ∧ v = d) ∨ (v = r ∧ u = d)) ∨ (u = r ∧ v ∈ ds.takeWhile (decide <| · ∈ N)) ∨ (v = r ∧ u ∈ ds.takeWhile (decide <| · ∈ N)))
          = fun u v => E u v ∨ (u = r ∧ v ∈ d :: ds.takeWhile (decide <| · ∈ N)) ∨ (v = r ∧ u ∈ d :: ds.takeWhile (decide <| · ∈ N)) := by
        funext u v
        apply propext
        simp only [List.mem_cons]
        constructor
        · rintro ((h | h | h) | h | h)
          · exact .inl h
          · exact .inr (.inl ⟨h.1, .inl h.2⟩)
          · exact .inr (.inr ⟨h.1, .inl h.2⟩)
          · exact .inr (.inl ⟨h.1, .inr h.2⟩)
          · exact .inr (.inr ⟨h.1, .inr h.2⟩)
        · rintro (h | ⟨h, h' | h'⟩ | ⟨h, h' | h'⟩)
          · exact .inl (.inl h)
          · exact .inl (.inr (.inl ⟨h, h'⟩))
          · exact .inr (.inl ⟨h, h'⟩)
          · exact .inl (.inr (.inr ⟨h, h'⟩))
          · exact .inr (.inr ⟨h, h'⟩)
      rw [← hF]; exact i4
    · have hh : ¬ t.has d = true := fun h => hd (hk ▸ Dict.has_iff.mp h)
      have ha : addDirect t r (d :: ds) = (t, some .noDest) := by rw [addDirect, if_neg hh]
      rw [ha, List.takeWhile_cons_of_neg (by simpa using hd)]
      refine ⟨hk, hw, hR, ?_, by simp [hd]⟩
      simp only [List.not_mem_nil, and_false, or_false]
      exact ⟨h1, h2, h3⟩

theorem WF_of_keys {t u : Table P} (h : Dict.WF t) (hk : u.keys = t.keys) : Dict.WF u := by
  unfold Dict.WF at *; rw [hk]; exact h

theorem Inv.step {g : Graph P} {t : Table P} (h : Inv g t) (e : Ev P) : Inv (g.step e) (step t e) := by
  cases e with
  | register p =>
    unfold Wan.step Graph.step registerLANSwitch
    dsimp only
    by_cases hp : p ∈ g.nodes
    · rw [if_pos hp, if_pos (Dict.has_iff.mpr (h.keys ▸ hp))]; exact h
    · have hp' : p ∉ t.keys := h.keys ▸ hp
      rw [if_neg hp, if_neg (fun hh => hp' (Dict.has_iff.mp hh))]
      have hrow := row_new hp'
      have hent : ∀ s d, ent (t.set p []) s d = ent t s d := fun s d => by unfold ent; rw [hrow]
      refine ⟨by rw [Dict.keys_set, if_neg hp', h.keys], h.wf.set _ _, fun s => by show Dict.WF (row (t.set p []) s); rw [hrow]; exact h.rwf s,
        fun a b hab => ⟨List.mem_append_left _ (h.nodes a b hab).1, List.mem_append_left _ (h.nodes a b hab).2⟩,
        ⟨fun s d l hl => ?_, fun s d hsd => ?_, fun s l hl => ?_⟩, fun hok s d w hsd hw _ => ?_⟩
      · exact h.sound.walk s d l ((hent s d) ▸ hl)
      · exact (hent s d).trans (h.sound.edges s d hsd)
      · exact h.sound.diag s l ((hent s s) ▸ hl)
      · show ∃ l, ent (t.set p []) s d = some l ∧ _
        rw [hent]
        exact h.best hok s d w hsd hw fun x hx => Walk.nodes h.nodes hw x (mem_of_dropLast hx)
  | connect r ds =>
    unfold Wan.step Graph.step setDirectConnections
    dsimp only
    by_cases hr : r ∈ g.nodes
    · have hr' : r ∈ t.keys := h.keys ▸ hr
      rw [if_pos hr, if_pos (Dict.has_iff.mpr hr')]
      obtain ⟨c1, c2, c3⟩ := clear_spec h.wf h.rwf hr'
      have hcl : ∀ s d l, ent (clear t r) s d = some l → s ≠ r ∧ d ≠ r ∧ ent t s d = some l ∧ r ∉ l := by
        intro s d l hl
        rw [c3] at hl
        split at hl
        · cases hl
        · next hn =>
          cases he : ent t s d with
          | none => rw [he] at hl; simp at hl
          | some l' =>
            rw [he] at hl
            simp only [Option.filter] at hl
            split at hl
            · next hx => cases hl; exact ⟨fun e => hn (.inl e), fun e => hn (.inr e), rfl, by simpa using hx⟩
            · cases hl
      obtain ⟨a1, a2, a3, a4, a5⟩ := addDirect_spec r g.nodes hr ds (fun u v => g.edge u v ∧ u ≠ r ∧ v ≠ r) (clear t r) (c1.trans h.keys)
        (WF_of_keys h.wf c1) c2
        (by
          intro s d l hl
          obtain ⟨x1, x2, x3, x4⟩ := hcl s d l hl
          refine ⟨(h.sound.walk s d l x3).1, (h.sound.walk s d l x3).2.mono fun a b hab ha hb => ⟨hab, ?_, fun e => x4 (e ▸ hb)⟩⟩
          rcases ha with rfl | ha
          · exact x1
          · exact fun e => x4 (e ▸ ha))
        (by
          intro s d ⟨hsd, x1, x2⟩
          rw [c3, if_neg (by simp [x1, x2]), h.sound.edges s d hsd]
          simp [Option.filter, Ne.symm x2])
        (by
          intro s l hl
          obtain ⟨x1, x2, x3, x4⟩ := hcl s s l hl
          exact ⟨h.sound.diag s l x3, x1, x2⟩)
      have hnodes : ∀ a b, (g.replace r (ds.takeWhile (decide <| · ∈ g.nodes)) (∀ d ∈ ds, d ∈ g.nodes)).edge a b → a ∈ g.nodes ∧ b ∈ g.nodes := by
        have hm : ∀ x ∈ ds.takeWhile (decide <| · ∈ g.nodes), x ∈ g.nodes := by
          intro x hx
          have := List.all_takeWhile (l := ds) (p := fun x => decide (x ∈ g.nodes))
          rw [List.all_eq_true] at this
          simpa using this x hx
        rintro a b (⟨hab, _, _⟩ | ⟨rfl, hb⟩ | ⟨rfl, ha⟩)
        · exact h.nodes a b hab
        · exact ⟨hr, hm b hb⟩
        · exact ⟨hm a ha, hr⟩
      cases hx : addDirect (clear t r) r ds with
      | mk u o =>
        rw [hx] at a1 a2 a3 a4 a5
        cases o with
        | some e =>
          refine ⟨a1, a2, a3, hnodes, a4, fun hok => ?_⟩
          exact absurd (a5.mpr hok) (by simp)
        | none =>
          obtain ⟨u1, u2, u3, u4⟩ := update_spec (t := u) (fun a b hab => by rw [show u.keys = g.nodes from a1]; exact hnodes a b hab) a4 a3
          exact ⟨u1.trans a1, WF_of_keys a2 u1, u3, hnodes, u2, fun _ => (show u.keys = g.nodes from a1) ▸ u4⟩
    · rw [if_neg hr, if_neg (fun hh => hr (h.keys ▸ Dict.has_iff.mp hh))]
      exact h

theorem Inv.exec : ∀ (h : List (Ev P)) {g : Graph P} {t : Table P}, Inv g t → Inv (g.after h) (exec t h)
  | [], _, _, hi => hi
  | e :: h, _, _, hi => Inv.exec h (hi.step e)

theorem inv (h : List (Ev P)) : Inv (graph h) (exec [] h) := Inv.exec h .empty

/-! ## C39 -/

theorem getRoute_ent (t : Table P) (s d : P) : getRoute t s d = (ent t s d).getD [] := rfl

/-- C39: after any history, the route from `s` to `d` is a walk along direct connections from `s` to `d`. -/
theorem C39_real (h : List (Ev P)) (s d : P) (hne : getRoute (exec [] h) s d ≠ []) :
    Walk (graph h).edge s (getRoute (exec [] h) s d) d := by
  rw [getRoute_ent] at hne ⊢
  cases he : ent (exec [] h) s d with
  | none => rw [he] at hne; exact absurd rfl hne
  | some l => exact ((inv h).sound.walk s d l he).2

/-- Direct connections are routes of one hop, even after calls that failed. -/
theorem C39_direct (h : List (Ev P)) (s d : P) (he : (graph h).edge s d) : getRoute (exec [] h) s d = [d] := by
  rw [getRoute_ent, (inv h).sound.edges s d he]; rfl

/-- The prefixes are those registered. -/
theorem C39_prefixes (h : List (Ev P)) : getPrefixes (exec [] h) = (graph h).nodes := (inv h).keys

/-! ## C40 -/

/-- C40: when no call of `setDirectConnections` failed half way since the last successful one, then for different prefixes the route is
not longer than any walk; -/
theorem C40_shortest_partial (h : List (Ev P)) (hok : (graph h).ok) (s d : P) (hsd : s ≠ d) (w : List P) (hw : Walk (graph h).edge s w d) :
    getRoute (exec [] h) s d ≠ [] ∧ (getRoute (exec [] h) s d).length ≤ w.length := by
  have hi := inv h
  obtain ⟨l, h1, h2⟩ := hi.best hok s d w hsd hw fun x hx => Walk.nodes hi.nodes hw x (mem_of_dropLast hx)
  rw [getRoute_ent, h1]
  exact ⟨(hi.sound.walk s d l h1).1, h2⟩

/-- … and it is empty exactly when there is no walk. -/
theorem C40_unreachable_partial (h : List (Ev P)) (hok : (graph h).ok) (s d : P) (hsd : s ≠ d) :
    getRoute (exec [] h) s d = [] ↔ ¬ ∃ w, Walk (graph h).edge s w d := by
  constructor
  · rintro he ⟨w, hw⟩
    exact (C40_shortest_partial h hok s d hsd w hw).1 he
  · intro hn
    by_cases he : getRoute (exec [] h) s d = []
    · exact he
    · exact absurd ⟨_, C39_real h s d he⟩ hn

/-- The route from a prefix to itself is empty, or the prefix itself when it was directly connected to itself. -/
theorem C40_self (h : List (Ev P)) (s : P) :
    ((graph h).edge s s ∧ getRoute (exec [] h) s s = [s]) ∨ (¬ (graph h).edge s s ∧ getRoute (exec [] h) s s = []) := by
  by_cases he : (graph h).edge s s
  · exact .inl ⟨he, C39_direct h s s he⟩
  · refine .inr ⟨he, ?_⟩
    rw [getRoute_ent]
    cases hx : ent (exec [] h) s s with
    | none => rfl
    | some l => exact absurd ((inv h).sound.diag s l hx) he

/-! ## C41 -/

theorem nextHop_ent (t : Table P) (s d : P) : nextHop t s d = (getRoute t s d).head? := by
  unfold nextHop getRoute
  cases (row t s).get d with
  | none => rfl
  | some l => cases l <;> rfl

/-- C41: following the next hops, after `k` hops the route to `d` that is left is `k` hops shorter; after as many hops as the route has,
`d` is reached. So no prefix is visited twice. -/
theorem C41_follow_partial (h : List (Ev P)) (hok : (graph h).ok) (s d : P) (hsd : s ≠ d) (hr : getRoute (exec [] h) s d ≠ []) :
    follow (exec [] h) d (getRoute (exec [] h) s d).length s = some d ∧
    ∀ k < (getRoute (exec [] h) s d).length, ∃ x, follow (exec [] h) d k s = some x ∧ x ≠ d ∧
      (getRoute (exec [] h) x d).length = (getRoute (exec [] h) s d).length - k := by
  have key : ∀ n s, s ≠ d → (getRoute (exec [] h) s d).length = n + 1 →
      follow (exec [] h) d (n + 1) s = some d ∧ ∀ k < n + 1, ∃ x, follow (exec [] h) d k s = some x ∧ x ≠ d ∧
        (getRoute (exec [] h) x d).length = n + 1 - k := by
    intro n
    induction n with
    | zero =>
      intro s hs hl
      have hw := C39_real h s d (by intro e; rw [e] at hl; cases hl)
      have hnh := nextHop_ent (exec [] h) s d
      match hg : getRoute (exec [] h) s d, hl, hw, hnh with
      | [x], _, hw, hnh =>
        have hx : x = d := hw.2
        subst hx
        refine ⟨by rw [follow, hnh]; rfl, fun k hk => ⟨s, ?_⟩⟩
        have : k = 0 := by omega
        subst this
        exact ⟨rfl, hs, by rw [hg]; rfl⟩
    | succ n ih =>
      intro s hs hl
      have hw := C39_real h s d (by intro e; rw [e] at hl; cases hl)
      have hnh := nextHop_ent (exec [] h) s d
      have hshort : ∀ w, Walk (graph h).edge s w d → n + 2 ≤ w.length := fun w hw => by
        have := (C40_shortest_partial h hok s d hs w hw).2; omega
      match hg : getRoute (exec [] h) s d, hl, hw, hnh with
      | x :: l, hl, hw, hnh =>
        have hxd : x ≠ d := by
          rintro rfl
          have := hshort [x] ⟨hw.1, rfl⟩
          simp at this
        have hlen : l.length = n + 1 := by simpa using hl
        obtain ⟨y1, y2⟩ := C40_shortest_partial h hok x d hxd l hw.2
        have y3 := hshort _ (show Walk (graph h).edge s (x :: getRoute (exec [] h) x d) d from ⟨hw.1, C39_real h x d y1⟩)
        have y4 : (getRoute (exec [] h) x d).length = n + 1 := by simp at y3; omega
        obtain ⟨z1, z2⟩ := ih x hxd y4
        refine ⟨by rw [follow, hnh]; exact z1, fun k hk => ?_⟩
        cases k with
        | zero => exact ⟨s, rfl, hs, by rw [hg]; simpa using hlen⟩
        | succ k =>
          obtain ⟨q, q1, q2, q3⟩ := z2 k (by omega)
          exact ⟨q, by rw [follow, hnh]; exact q1, q2, by rw [q3]; omega⟩
  have hpos := List.length_pos_iff.mpr hr
  obtain ⟨n, hn⟩ : ∃ n, (getRoute (exec [] h) s d).length = n + 1 := ⟨_, (Nat.succ_pred_eq_of_pos hpos).symm⟩
  rw [hn]
  exact key n s hsd hn

/-- No prefix is visited twice on the way. -/
theorem C41_no_loop_partial (h : List (Ev P)) (hok : (graph h).ok) (s d : P) (hsd : s ≠ d) (j k : Nat)
    (hjk : j < k) (hk : k ≤ (getRoute (exec [] h) s d).length) :
    follow (exec [] h) d j s ≠ follow (exec [] h) d k s := by
  have hr : getRoute (exec [] h) s d ≠ [] := by intro e; rw [e] at hk; simp at hk; omega
  obtain ⟨f1, f2⟩ := C41_follow_partial h hok s d hsd hr
  obtain ⟨x, x1, x2, x3⟩ := f2 j (by omega)
  rcases Nat.lt_or_eq_of_le hk with hlt | rfl
  · obtain ⟨y, y1, y2, y3⟩ := f2 k hlt
    rw [x1, y1]
    intro e; cases e; omega
  · rw [x1, f1]
    intro e; cases e; exact x2 rfl

/-- Nothing is forwarded when there is no route. -/
theorem C41_no_route (h : List (Ev P)) (s d : P) : nextHop (exec [] h) s d = none ↔ getRoute (exec [] h) s d = [] := by
  rw [nextHop_ent]; simp

/-! ## What is false, and examples -/

/-- C40 is false after a call that failed half way: 1 and 3 are connected through 2, but there is no route, because the routes were not
computed again. -/
theorem C40_false_failed : ∃ h : List (Ev Nat), Walk (graph h).edge 1 [2, 3] 3 ∧ getRoute (exec [] h) 1 3 = [] :=
  ⟨[.register 1, .register 2, .register 3, .connect 1 [2], .connect 2 [1, 3, 9]], by simp [graph, Graph.after, Graph.step, Graph.empty, Graph.replace, Walk], by decide +kernel⟩

/-- A ring of five prefixes with a chord. -/
def ring : List (Ev Nat) := [.register 1, .register 2, .register 3, .register 4, .register 5,
  .connect 1 [2, 5], .connect 3 [2, 4], .connect 5 [4, 1], .register 6]

example : getRoute (exec [] ring) 1 3 = [2, 3] ∧ getRoute (exec [] ring) 1 4 = [5, 4] ∧ getRoute (exec [] ring) 2 4 = [3, 4] ∧
    getRoute (exec [] ring) 1 6 = [] ∧ follow (exec [] ring) 4 2 1 = some 4 := by decide +kernel
example : (graph ring).ok := by simp [ring, graph, Graph.after, Graph.step, Graph.empty, Graph.replace]
/-- Cutting 5 off makes 1–4 longer. -/
example : getRoute (exec [] (ring ++ [.connect 5 []])) 1 4 = [2, 3, 4] ∧ getRoute (exec [] (ring ++ [.connect 5 []])) 1 5 = [] := by decide +kernel

end Verif.Wan
