import Verif.Spec.Switch
import Verif.Lemmas.Dict
import Verif.Props.Address
import Mathlib.Data.List.Induction
/-! # Lemmas about the switch -/
namespace Verif
open Addr

theorem convertBlock_isSome (x : Str) (hx : '.' ∉ x) : (convertBlock x).isSome = true ↔ PartText x := by
  unfold convertBlock PartText
  split
  · next h => simp [h]
  · next h =>
    simp only [Option.isSome_map, h, false_or]
    constructor
    · intro h1
      obtain ⟨k, hk⟩ := Option.isSome_iff_exists.mp h1
      exact ⟨⟨k, (pyInt_iff _ _).mp hk⟩, hx⟩
    · rintro ⟨⟨k, hk⟩, _⟩
      rw [(pyInt_iff _ _).mpr hk]; rfl

theorem isValidBlockString_iff (s : Str) : isValidBlockString s = true ↔ BlockText s := by
  constructor
  · intro h
    have hj := join_split '.' s
    have hn := splitOn_no_sep (c := '.') (s := s)
    unfold isValidBlockString parseParts at h
    split at h
    · next p q r t hs =>
      rw [hs] at hj hn
      split at h
      · next a' b' c' d' h1 h2 h3 h4 =>
        exact ⟨p, q, r, t, hj.symm, (convertBlock_isSome p (hn p (by simp))).mp (by rw [h1]; rfl),
          (convertBlock_isSome q (hn q (by simp))).mp (by rw [h2]; rfl),
          (convertBlock_isSome r (hn r (by simp))).mp (by rw [h3]; rfl),
          (convertBlock_isSome t (hn t (by simp))).mp (by rw [h4]; rfl)⟩
      · cases h
    · cases h
  · rintro ⟨z, n, d, i, rfl, h1, h2, h3, h4⟩
    have hd : ∀ {x}, PartText x → '.' ∉ x := by
      rintro x (rfl | ⟨_, h⟩)
      · decide
      · exact h
    have g : ∀ {x}, PartText x → ∃ p, convertBlock x = some p := fun {x} hx =>
      Option.isSome_iff_exists.mp ((convertBlock_isSome x (hd hx)).mpr hx)
    obtain ⟨p1, g1⟩ := g h1
    obtain ⟨p2, g2⟩ := g h2
    obtain ⟨p3, g3⟩ := g h3
    obtain ⟨p4, g4⟩ := g h4
    unfold isValidBlockString parseParts
    rw [split_dotted (hd h1) (hd h2) (hd h3) (hd h4)]
    simp [g1, g2, g3, g4]

instance (s : Str) : Decidable (BlockText s) := decidable_of_iff _ (isValidBlockString_iff s)

namespace Switch

/-- What holds of every switch that arises. -/
structure Inv (s : Switch) : Prop where
  wf1 : s.addressToLinks.WF
  wf2 : s.linkToAddress.WF
  nodup : ∀ a l, s.addressToLinks.get a = some l → l.Nodup
  agree : ∀ p a, s.linkToAddress.get p = some a ↔ ∃ l, s.addressToLinks.get a = some l ∧ p ∈ l

theorem inv_new : Inv new := ⟨Dict.WF.nil, Dict.WF.nil, by simp [new], by simp [new]⟩

theorem addTo_mem (l : List Nat) (p q : Nat) : q ∈ addTo l p ↔ q ∈ l ∨ q = p := by
  unfold addTo; split
  · next h => constructor
              · exact .inl
              · rintro (h1 | rfl); exact h1; exact h
  · simp

theorem addTo_nodup {l : List Nat} (h : l.Nodup) (p : Nat) : (addTo l p).Nodup := by
  unfold addTo; split
  · exact h
  · next hp =>
    rw [List.nodup_append]
    exact ⟨h, by simp, by rintro a ha b hb rfl; rw [List.mem_singleton] at hb; subst hb; exact hp ha⟩

theorem unregister_spec {s : Switch} (h : Inv s) (p : Nat) : ∃ s', s.unregisterLink p = .ok s' ∧ Inv s' ∧
    ∀ q, s'.linkToAddress.get q = if q = p then none else s.linkToAddress.get q := by
  unfold unregisterLink
  split
  · next hn =>
    refine ⟨s, rfl, h, fun q => ?_⟩
    split
    · next hq => rw [hq, hn]
    · rfl
  · next old ho =>
    obtain ⟨l, hl, hp⟩ := (h.agree p old).mp ho
    rw [hl]
    simp only [hp, if_true]
    have hk : ∀ q, (s.linkToAddress.del p).get q = if q = p then none else s.linkToAddress.get q := by
      intro q; rw [Dict.get_del h.wf2]; by_cases hq : p = q
      · simp [hq]
      · simp [hq, Ne.symm hq]
    refine ⟨_, rfl, ⟨h.wf1.set _ _, h.wf2.del _, ?_, ?_⟩, hk⟩
    · intro a l' ha
      simp only [Dict.get_set] at ha
      split at ha
      · cases ha; exact (h.nodup _ _ hl).erase p
      · exact h.nodup _ _ ha
    · intro q a
      simp only [hk, Dict.get_set]
      constructor
      · intro hq
        split at hq
        · cases hq
        · next hne =>
          obtain ⟨l', hl', hm⟩ := (h.agree q a).mp hq
          split
          · next e =>
            subst e
            rw [hl] at hl'; cases hl'
            exact ⟨_, rfl, (List.mem_erase_of_ne hne).mpr hm⟩
          · exact ⟨l', hl', hm⟩
      · rintro ⟨l', hl', hm⟩
        split at hl'
        · next e =>
          subst e
          cases hl'
          have hne : q ≠ p := by
            rintro rfl
            exact (h.nodup _ _ hl).not_mem_erase hm
          rw [if_neg hne]
          exact (h.agree q old).mpr ⟨l, hl, List.mem_of_mem_erase hm⟩
        · next e =>
          have hqa := (h.agree q a).mpr ⟨l', hl', hm⟩
          have hne : q ≠ p := by
            rintro rfl
            rw [ho] at hqa; cases hqa; exact e rfl
          rw [if_neg hne]; exact hqa

theorem addLink_spec {s : Switch} (h : Inv s) (a : Str) (p : Nat) (hp : s.linkToAddress.get p = none) :
    Inv (s.addLink a p) ∧ ∀ q, (s.addLink a p).linkToAddress.get q = if q = p then some a else s.linkToAddress.get q := by
  have hpn : ∀ b l, s.addressToLinks.get b = some l → p ∉ l := by
    intro b l hb hm
    have := (h.agree p b).mpr ⟨l, hb, hm⟩
    rw [hp] at this; cases this
  have key : ∀ l' : List Nat, (∀ q, q ∈ l' ↔ q ∈ (s.addressToLinks.get a).getD [] ∨ q = p) → l'.Nodup →
      Inv ⟨s.addressToLinks.set a l', s.linkToAddress.set p a⟩ := by
    intro l' hl' hnd
    refine ⟨h.wf1.set _ _, h.wf2.set _ _, ?_, ?_⟩
    · intro b l hb
      simp only [Dict.get_set] at hb
      split at hb
      · cases hb; exact hnd
      · exact h.nodup _ _ hb
    · intro q b
      simp only [Dict.get_set]
      by_cases hq : p = q
      · subst hq
        simp only [if_true, Option.some.injEq]
        constructor
        · rintro rfl; exact ⟨l', by simp, (hl' p).mpr (.inr rfl)⟩
        · rintro ⟨l, hl, hm⟩
          split at hl
          · next e => exact e
          · exact absurd hm (hpn _ _ hl)
      · rw [if_neg hq, h.agree]
        by_cases hb : a = b
        · subst hb
          simp only [if_true, Option.some.injEq]
          constructor
          · rintro ⟨l, hl, hm⟩
            exact ⟨l', rfl, (hl' q).mpr (.inl (by rw [hl]; exact hm))⟩
          · rintro ⟨l, rfl, hm⟩
            rcases (hl' q).mp hm with hm | hm
            · cases hg : s.addressToLinks.get a with
              | none => rw [hg] at hm; simp at hm
              | some l => rw [hg] at hm; exact ⟨l, rfl, hm⟩
            · exact absurd hm.symm hq
        · simp only [if_neg hb]
  unfold addLink
  split
  · next hn =>
    refine ⟨key [p] (by intro q; rw [hn]; simp) (by simp), fun q => ?_⟩
    simp only [Dict.get_set]
    by_cases hq : p = q
    · simp [hq]
    · simp [hq, Ne.symm hq]
  · next l hl =>
    refine ⟨key (addTo l p) (by intro q; rw [hl, addTo_mem]; rfl) (addTo_nodup (h.nodup _ _ hl) _), fun q => ?_⟩
    simp only [Dict.get_set]
    by_cases hq : p = q
    · simp [hq]
    · simp [hq, Ne.symm hq]

theorem register_spec {s : Switch} (h : Inv s) (a : Str) (p : Nat) : ∃ s', s.registerLink a p = .ok s' ∧ Inv s' ∧
    ∀ q, s'.linkToAddress.get q = if q = p ∧ BlockText a then some a else s.linkToAddress.get q := by
  unfold registerLink
  split
  · next hv =>
    have hv := (isValidBlockString_iff a).mp hv
    obtain ⟨s1, h1, i1, g1⟩ := unregister_spec h p
    rw [h1]
    obtain ⟨i2, g2⟩ := addLink_spec i1 a p (by rw [g1]; simp)
    refine ⟨_, rfl, i2, fun q => ?_⟩
    rw [g2, g1]
    by_cases hq : q = p
    · simp [hq, hv]
    · simp [hq]
  · next hv =>
    have hv : ¬ BlockText a := fun h1 => hv ((isValidBlockString_iff a).mpr h1)
    exact ⟨s, rfl, h, fun q => by simp [hv]⟩

/-- The address of a link after a further operation. -/
def after (f : Nat → Option Str) : Op → Nat → Option Str
  | .register a p => fun q => if q = p ∧ BlockText a then some a else f q
  | .unregister p => fun q => if q = p then none else f q

theorem exec_append (s : Switch) (h1 h2 : List Op) : s.exec (h1 ++ h2) =
    match s.exec h1 with
    | .error e => .error e
    | .ok s' => s'.exec h2 := by
  induction h1 generalizing s with
  | nil => rfl
  | cons o h ih =>
    simp only [List.cons_append, exec]
    cases s.step o with
    | error e => rfl
    | ok s' => exact ih s'

theorem step_spec {s : Switch} (h : Inv s) (o : Op) : ∃ s', s.step o = .ok s' ∧ Inv s' ∧
    s'.linkToAddress.get = after s.linkToAddress.get o := by
  cases o with
  | register a p =>
    obtain ⟨s', h1, h2, h3⟩ := register_spec h a p
    refine ⟨s', h1, h2, ?_⟩
    funext q
    rw [h3]; unfold after
    by_cases hc : q = p ∧ BlockText a <;> simp [hc]
  | unregister p =>
    obtain ⟨s', h1, h2, h3⟩ := unregister_spec h p
    exact ⟨s', h1, h2, funext h3⟩

theorem exec_spec (h : List Op) : ∃ s, new.exec h = .ok s ∧ Inv s ∧
    ∀ l a, s.linkToAddress.get l = some a ↔ RegisteredAs h l a := by
  induction h using List.reverseRecOn with
  | nil =>
    refine ⟨new, rfl, inv_new, fun l a => ?_⟩
    constructor
    · intro h; cases h
    · rintro ⟨_, b, c, h, _⟩; simp at h
  | append_singleton h o ih =>
    obtain ⟨s, h1, h2, h3⟩ := ih
    obtain ⟨s', g1, g2, g3⟩ := step_spec h2 o
    refine ⟨s', ?_, g2, fun l a => ?_⟩
    · rw [exec_append, h1]; dsimp only [exec]
      rw [g1]
    · rw [g3]
      have keep : (∀ a', BlockText a' → o ≠ .register a' l) → o ≠ .unregister l →
          (RegisteredAs (h ++ [o]) l a ↔ RegisteredAs h l a) := by
        intro k1 k2
        constructor
        · rintro ⟨hb, bf, af, he, hu, hr⟩
          rcases List.eq_nil_or_concat af with rfl | ⟨af', x, rfl⟩
          · obtain ⟨_, e⟩ := List.append_inj' he rfl
            cases e
            exact absurd rfl (k1 a hb)
          · rw [List.concat_eq_append, ← List.cons_append, ← List.append_assoc] at he
            obtain ⟨e1, e2⟩ := List.append_inj' he rfl
            refine ⟨hb, bf, af', e1, fun hm => hu (by simp [hm]), fun a' ha' hm => hr a' ha' (by simp [hm])⟩
        · rintro ⟨hb, bf, af, he, hu, hr⟩
          refine ⟨hb, bf, af ++ [o], by rw [he]; simp, ?_, ?_⟩
          · simp only [List.mem_append, List.mem_singleton, not_or]
            exact ⟨hu, fun e => k2 e.symm⟩
          · intro a' ha'
            simp only [List.mem_append, List.mem_singleton, not_or]
            exact ⟨hr a' ha', fun e => k1 a' ha' e.symm⟩
      cases o with
      | register b p =>
        unfold after
        dsimp only
        by_cases hc : l = p ∧ BlockText b
        · rw [if_pos hc]
          obtain ⟨rfl, hb⟩ := hc
          constructor
          · intro e; cases e
            exact ⟨hb, h, [], rfl, by simp, by simp⟩
          · rintro ⟨ha, bf, af, he, hu, hr⟩
            rcases List.eq_nil_or_concat af with rfl | ⟨af', x, rfl⟩
            · obtain ⟨_, e⟩ := List.append_inj' he rfl
              cases e; rfl
            · rw [List.concat_eq_append, ← List.cons_append, ← List.append_assoc] at he
              obtain ⟨_, e⟩ := List.append_inj' he rfl
              cases e
              exact absurd (by simp) (hr b hb)
        · rw [if_neg hc, h3, keep]
          · intro a' ha' e; cases e; exact hc ⟨rfl, ha'⟩
          · simp
      | unregister p =>
        unfold after
        dsimp only
        by_cases hc : l = p
        · subst hc
          rw [if_pos rfl]
          constructor
          · intro e; cases e
          · rintro ⟨ha, bf, af, he, hu, hr⟩
            rcases List.eq_nil_or_concat af with rfl | ⟨af', x, rfl⟩
            · obtain ⟨_, e⟩ := List.append_inj' he rfl
              cases e
            · rw [List.concat_eq_append, ← List.cons_append, ← List.append_assoc] at he
              obtain ⟨_, e⟩ := List.append_inj' he rfl
              cases e
              exact absurd (by simp) hu
        · rw [if_neg hc, h3, keep]
          · intro a' _ e; cases e
          · intro e; cases e; exact hc rfl

theorem union_mem (l m : List Nat) (q : Nat) : q ∈ union l m ↔ q ∈ l ∨ q ∈ m := by
  induction m generalizing l with
  | nil => simp [union]
  | cons x m ih => rw [union, ih, addTo_mem]; simp [or_assoc]

theorem union_nodup {l : List Nat} (h : l.Nodup) (m : List Nat) : (union l m).Nodup := by
  induction m generalizing l with
  | nil => exact h
  | cons x m ih => exact ih (addTo_nodup h x)

theorem outLoop_mem (s : Switch) (n : Nat) (a : Addr) (acc : List Nat) (q : Nat) :
    q ∈ s.outLoop n a acc ↔ q ∈ acc ∨ ∃ b ∈ ancestors n a, ∃ l, s.addressToLinks.get b.str = some l ∧ q ∈ l := by
  induction n generalizing a acc with
  | zero => simp [outLoop, ancestors]
  | succ n ih =>
    have hg : q ∈ ((s.addressToLinks.get a.str).getD []) ↔ ∃ l, s.addressToLinks.get a.str = some l ∧ q ∈ l := by
      cases s.addressToLinks.get a.str <;> simp
    unfold outLoop ancestors
    cases hp : a.getParentBlock with
    | none => simp [union_mem, hg]
    | some p => simp only [ih, union_mem, hg, List.mem_cons, exists_eq_or_imp, or_assoc]

theorem outLoop_nodup (s : Switch) (n : Nat) (a : Addr) (acc : List Nat) (h : acc.Nodup) :
    (s.outLoop n a acc).Nodup := by
  induction n generalizing a acc with
  | zero => exact h
  | succ n ih =>
    unfold outLoop
    cases hp : a.getParentBlock with
    | none => exact union_nodup h _
    | some p => exact ih _ _ (union_nodup h _)

/-- More fuel than specified parts changes nothing. -/
theorem outLoop_fuel (s : Switch) (n : Nat) (a : Addr) (acc : List Nat) (h : a.specified.length < n) :
    s.outLoop n a acc = s.outLoop (a.specified.length + 1) a acc := by
  induction n generalizing a acc with
  | zero => omega
  | succ n ih =>
    unfold outLoop
    cases hp : a.getParentBlock with
    | none => rfl
    | some p =>
      have := (C26_parent_is_parent a p hp).2.1
      dsimp only
      rw [ih p _ (by omega), ← this]

end Switch
end Verif
