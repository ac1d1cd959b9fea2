import Mathlib.Data.List.Nodup
import Verif.Lemmas.Dict
import Verif.Spec.Bijection
/-! # C16, C17: Bijection -/
namespace Verif
variable {α : Type} [DecidableEq α]

/-- The two dictionaries hold the relation `P`, in both directions. -/
structure BHolds (F R : Dict α α) (P : α → α → Prop) : Prop where
  wf : F.WF
  wr : R.WF
  fwd : ∀ k v, F.get k = some v ↔ P k v
  rev : ∀ k v, R.get v = some k ↔ P k v

theorem BHolds.swap {F R : Dict α α} {P : α → α → Prop} (h : BHolds F R P) : BHolds R F (fun a b => P b a) :=
  ⟨h.wr, h.wf, fun k v => h.rev v k, fun k v => h.fwd v k⟩

theorem BHolds.congr {F R : Dict α α} {P Q : α → α → Prop} (h : BHolds F R P) (hpq : ∀ a b, P a b ↔ Q a b) :
    BHolds F R Q :=
  ⟨h.wf, h.wr, fun k v => (h.fwd k v).trans (hpq k v), fun k v => (h.rev k v).trans (hpq k v)⟩

theorem BHolds.functional {F R : Dict α α} {P : α → α → Prop} (h : BHolds F R P) {k v v' : α}
    (h1 : P k v) (h2 : P k v') : v = v' := by
  have := (h.fwd k v).mpr h1; rw [(h.fwd k v').mpr h2] at this; exact (Option.some.inj this).symm

/-- The dictionaries of an object hold a relation. -/
def HoldsAt (s : BState α) (o : BObj) (P : α → α → Prop) : Prop := BHolds (s.forward o) (s.reverse o) P

theorem HoldsAt.put {o : BObj} {F R : Dict α α} {P : α → α → Prop} (h : BHolds F R P) :
    HoldsAt (BState.put o F R) o P := by
  unfold HoldsAt BState.put BState.forward BState.reverse
  split <;> exact h

theorem HoldsAt.set {s : BState α} {o : BObj} {P : α → α → Prop} (h : HoldsAt s o P)
    (ho : o.immutable = false) (k v : α) :
    (s.setitem o k v).1 = .ok () ∧
    HoldsAt (s.setitem o k v).2 o (fun a b => (a = k ∧ b = v) ∨ (P a b ∧ a ≠ k ∧ b ≠ v)) := by
  unfold BState.setitem
  rw [if_neg (by simp [ho])]
  dsimp only
  generalize hF : s.forward o = F
  generalize hR : s.reverse o = R
  have hh : BHolds F R P := hF ▸ hR ▸ h
  clear h hF hR
  -- lines 88-90
  obtain ⟨R', e1, wR', hR'⟩ : ∃ R', BState.dropPartner F R k = some R' ∧ R'.WF ∧
      ∀ a b, R'.get b = some a ↔ (P a b ∧ a ≠ k) := by
    unfold BState.dropPartner
    cases hk : F.get k with
    | none =>
      refine ⟨R, rfl, hh.wr, fun a b => ?_⟩
      rw [hh.rev]
      refine ⟨fun h => ⟨h, ?_⟩, fun h => h.1⟩
      rintro rfl
      rw [(hh.fwd a b).mpr h] at hk; cases hk
    | some dead =>
      have hp := (hh.fwd k dead).mp hk
      have hhas : R.has dead = true := by
        unfold Dict.has; rw [(hh.rev k dead).mpr hp]; rfl
      refine ⟨R.del dead, by simp [hhas], hh.wr.del _, fun a b => ?_⟩
      rw [Dict.get_del hh.wr]
      by_cases hb : dead = b
      · subst hb
        simp only [if_true]
        exact ⟨fun h => by simp at h, fun h => absurd (hh.swap.functional h.1 hp) h.2⟩
      · rw [if_neg hb, hh.rev]
        refine ⟨fun h => ⟨h, fun e => ?_⟩, fun h => h.1⟩
        subst e
        exact hb (hh.functional hp h)
  rw [e1]
  dsimp only
  obtain ⟨F', e2, wF', hF'⟩ : ∃ F', BState.dropPartner R' F v = some F' ∧ F'.WF ∧
      ∀ a b, a ≠ k → (F'.get a = some b ↔ (P a b ∧ b ≠ v)) := by
    unfold BState.dropPartner
    cases hv : R'.get v with
    | none =>
      refine ⟨F, rfl, hh.wf, fun a b ha => ?_⟩
      rw [hh.fwd]
      refine ⟨fun h => ⟨h, ?_⟩, fun h => h.1⟩
      rintro rfl
      rw [(hR' a b).mpr ⟨h, ha⟩] at hv; cases hv
    | some dead =>
      have hp := (hR' dead v).mp hv
      have hhas : F.has dead = true := by
        unfold Dict.has; rw [(hh.fwd dead v).mpr hp.1]; rfl
      refine ⟨F.del dead, by simp [hhas], hh.wf.del _, fun a b ha => ?_⟩
      rw [Dict.get_del hh.wf]
      by_cases hb : dead = a
      · subst hb
        simp only [if_true]
        exact ⟨fun h => by simp at h, fun h => absurd (hh.functional h.1 hp.1) h.2⟩
      · rw [if_neg hb, hh.fwd]
        refine ⟨fun h => ⟨h, ?_⟩, fun h => h.1⟩
        rintro rfl
        exact hb (hh.swap.functional hp.1 h)
  rw [e2]
  refine ⟨rfl, HoldsAt.put ⟨wF'.set _ _, wR'.set _ _, fun a b => ?_, fun a b => ?_⟩⟩
  · rw [Dict.get_set]
    by_cases ha : k = a
    · subst ha; simp [eq_comm]
    · rw [if_neg ha, hF' a b (Ne.symm ha)]
      simp [Ne.symm ha]
  · rw [Dict.get_set]
    by_cases hb : v = b
    · subst hb; simp [eq_comm]
    · rw [if_neg hb, hR']
      simp [Ne.symm hb]

theorem HoldsAt.del {s : BState α} {o : BObj} {P : α → α → Prop} (h : HoldsAt s o P)
    (ho : o.immutable = false) (k : α) :
    HoldsAt (s.delitem o k).2 o (fun a b => P a b ∧ a ≠ k) ∧
    ((∃ v, P k v) ∧ (s.delitem o k).1 = .ok () ∨ (∀ v, ¬ P k v) ∧ s.delitem o k = (.error .key, s)) := by
  unfold BState.delitem
  rw [if_neg (by simp [ho])]
  cases hk : (s.forward o).get k with
  | none =>
    have hno : ∀ v, ¬ P k v := fun v hp => by rw [(h.fwd k v).mpr hp] at hk; cases hk
    refine ⟨BHolds.congr h fun a b => ⟨fun hp => ⟨hp, ?_⟩, fun hp => hp.1⟩, .inr ⟨hno, rfl⟩⟩
    rintro rfl; exact hno b hp
  | some v =>
    have hp := (h.fwd k v).mp hk
    have hhas : (s.reverse o).has v = true := by
      unfold Dict.has; rw [(h.rev k v).mpr hp]; rfl
    dsimp only
    rw [if_pos hhas]
    refine ⟨HoldsAt.put ⟨h.wf.del _, h.wr.del _, fun a b => ?_, fun a b => ?_⟩, .inl ⟨⟨v, hp⟩, rfl⟩⟩
    · rw [Dict.get_del h.wf]
      by_cases ha : k = a
      · subst ha; simp
      · rw [if_neg ha, h.fwd]; simp [Ne.symm ha]
    · rw [Dict.get_del h.wr]
      by_cases hb : v = b
      · subst hb; simp only [if_true]
        exact ⟨fun h => by simp at h, fun h' => absurd (h.swap.functional h'.1 hp) h'.2⟩
      · rw [if_neg hb, h.rev]
        refine ⟨fun hab => ⟨hab, ?_⟩, fun h => h.1⟩
        rintro rfl
        exact hb (h.functional hp hab)

/-! ## Views -/

/-- Where a chain of calls leads: an immutable view as soon as it contains `inverse()`; `inverseMutable()`
on an immutable view raises `TypeError`. -/
theorem walk_spec (p : List BStep) : ∀ o : BObj,
    (∃ o', o.walk p = .ok o' ∧ o'.fwd = (o.fwd ^^ turned p) ∧ o'.immutable = (o.immutable || !Mutable p)) ∨
    (o.walk p = .error .type ∧ (o.immutable || !Mutable p) = true) := by
  induction p with
  | nil => intro o; left; exact ⟨o, rfl, by simp [turned], by simp [Mutable]⟩
  | cons st p ih =>
    intro o
    have ht : turned (st :: p) = !turned p := by
      unfold turned; rw [List.length_cons]
      rcases Nat.mod_two_eq_zero_or_one p.length with h | h <;> simp [Nat.add_mod, h]
    cases st with
    | inverse =>
      have hm : Mutable (.inverse :: p) = false := by simp [Mutable]
      rw [BObj.walk, hm, ht]
      rcases ih o.inverseOf with ⟨o', h1, h2, h3⟩ | ⟨h1, h2⟩
      · left; refine ⟨o', h1, ?_, ?_⟩
        · rw [h2]; cases o <;> cases turned p <;> rfl
        · rw [h3]; cases o <;> simp [BObj.inverseOf, BObj.immutable]
      · right; exact ⟨h1, by simp⟩
    | inverseMutable =>
      have hm : Mutable (.inverseMutable :: p) = Mutable p := by simp [Mutable]
      rw [BObj.walk, hm, ht]
      cases ho : o.immutable with
      | true => right; simp [BState.inverseMutable, ho]
      | false =>
        have : ∃ q, BState.inverseMutable o = .ok q ∧ q.fwd = (!o.fwd) ∧ q.immutable = false := by
          cases o <;> first | (exact ⟨_, rfl, rfl, rfl⟩) | (cases ho)
        obtain ⟨q, e, h4, h5⟩ := this
        rw [e]
        dsimp only
        rcases ih q with ⟨o', h1, h2, h3⟩ | ⟨h1, h2⟩
        · left; refine ⟨o', h1, ?_, ?_⟩
          · rw [h2, h4]; cases o.fwd <;> cases turned p <;> rfl
          · rw [h3, h5]
        · right; rw [h5] at h2; exact ⟨h1, h2⟩

theorem walk_mutable {p : List BStep} (h : Mutable p = true) :
    ∃ o, BObj.walk .self p = .ok o ∧ o.fwd = (!turned p) ∧ o.immutable = false := by
  rcases walk_spec p .self with ⟨o, h1, h2, h3⟩ | ⟨_, h2⟩
  · refine ⟨o, h1, ?_, ?_⟩
    · rw [h2]; cases turned p <;> rfl
    · rw [h3, h]; rfl
  · rw [h] at h2; cases h2

/-- C17. Through a chain of calls that contains `inverse()`, nothing changes, and every attempt to assign
or delete raises `TypeError`. -/
theorem C17_immutable (s : BState α) (p : List BStep) (h : .inverse ∈ p) (op : BOp α) :
    s.perform p op = (.error .type, s) := by
  have hm : Mutable p = false := by
    unfold Mutable
    rw [List.all_eq_false]
    exact ⟨_, h, by decide⟩
  unfold BState.perform
  rcases walk_spec p .self with ⟨o, h1, h2, h3⟩ | ⟨h1, h2⟩
  · rw [h1]
    have ho : o.immutable = true := by rw [h3, hm]; rfl
    cases op <;> simp [BState.setitem, BState.delitem, ho]
  · rw [h1]

/-- C17. The inverse of the inverse of a view reads like the view, and (if it is reached at all) has the
same length; whatever the state. -/
theorem C17_inverse_inverse (s : BState α) (o : BObj) (k : α) :
    s.getitem o.inverseOf.inverseOf k = s.getitem o k ∧ s.len o.inverseOf.inverseOf = s.len o := by
  cases o <;> exact ⟨rfl, rfl⟩

example : BState.perform (BState.put .self [(1, 2)] [(2, 1)]) [.inverse, .inverse] (.set 3 4)
    = (.error .type, (⟨[(1, 2)], [(2, 1)]⟩ : BState Nat)) := C17_immutable _ _ (by decide) _

/-! ## Histories -/

theorem HoldsAt.of_fwd {s : BState α} {o o' : BObj} {P : α → α → Prop} (h : o.fwd = o'.fwd) (hh : HoldsAt s o P) :
    HoldsAt s o' P := by
  unfold HoldsAt BState.forward BState.reverse at *; rw [← h]; exact hh

theorem HoldsAt.turn {s : BState α} {o o' : BObj} {P : α → α → Prop} (h : o.fwd = !o'.fwd) (hh : HoldsAt s o P) :
    HoldsAt s o' (fun a b => P b a) := by
  unfold HoldsAt BState.forward BState.reverse at *
  cases ho : o'.fwd <;> simp [ho] at * <;> simp [h] at hh <;> exact hh.swap

theorem mem_assignPair {l : List (α × α)} {k v a b : α} :
    (a, b) ∈ assignPair l k v ↔ (a = k ∧ b = v) ∨ ((a, b) ∈ l ∧ a ≠ k ∧ b ≠ v) := by
  simp [assignPair]

theorem perform_holds {s : BState α} {l : List (α × α)} (h : HoldsAt s .self (fun a b => (a, b) ∈ l))
    (p : List BStep) (op : BOp α) :
    HoldsAt (s.perform p op).2 .self (fun a b => (a, b) ∈ pairsStep l p op) := by
  by_cases hm : Mutable p = true
  · obtain ⟨o, h1, h2, h3⟩ := walk_mutable hm
    unfold BState.perform
    rw [h1]
    dsimp only
    cases ht : turned p with
    | false =>
      rw [ht] at h2
      have ho : HoldsAt s o (fun a b => (a, b) ∈ l) := h.of_fwd (by rw [h2]; rfl)
      cases op with
      | set k v =>
        refine ((ho.set h3 k v).2.of_fwd (o' := .self) (by rw [h2]; rfl)).congr fun a b => ?_
        simp [pairsStep, hm, ht, mem_assignPair]
      | del k =>
        refine ((ho.del h3 k).1.of_fwd (o' := .self) (by rw [h2]; rfl)).congr fun a b => ?_
        simp [pairsStep, hm, ht]
    | true =>
      rw [ht] at h2
      have ho : HoldsAt s o (fun a b => (b, a) ∈ l) := h.turn (by rw [h2]; rfl)
      cases op with
      | set k v =>
        refine ((ho.set h3 k v).2.turn (o' := .self) (by rw [h2]; rfl)).congr fun a b => ?_
        simp [pairsStep, hm, ht, mem_assignPair]
        constructor
        · rintro (⟨h, h'⟩ | ⟨h, h', h''⟩)
          · exact .inl ⟨h', h⟩
          · exact .inr ⟨h, h'', h'⟩
        · rintro (⟨h, h'⟩ | ⟨h, h', h''⟩)
          · exact .inl ⟨h', h⟩
          · exact .inr ⟨h, h'', h'⟩
      | del k =>
        refine ((ho.del h3 k).1.turn (o' := .self) (by rw [h2]; rfl)).congr fun a b => ?_
        simp [pairsStep, hm, ht]
  · have hm' : Mutable p = false := by simpa using hm
    have hi : BStep.inverse ∈ p := by
      unfold Mutable at hm'
      rw [List.all_eq_false] at hm'
      obtain ⟨st, h1, h2⟩ := hm'
      cases st with
      | inverse => exact h1
      | inverseMutable => simp at h2
    rw [C17_immutable s p hi op]
    cases op <;> simpa [pairsStep, hm'] using h

theorem run_holds (ops : List (List BStep × BOp α)) : ∀ {s : BState α} {l : List (α × α)},
    HoldsAt s .self (fun a b => (a, b) ∈ l) → HoldsAt (s.run ops) .self (fun a b => (a, b) ∈ pairs l ops) := by
  induction ops with
  | nil => intro s l h; exact h
  | cons x ops ih => intro s l h; obtain ⟨p, op⟩ := x; exact ih (perform_holds h p op)

theorem new_holds : HoldsAt (BState.new : BState α) .self (fun a b => (a, b) ∈ ([] : List (α × α))) :=
  ⟨Dict.WF.nil, Dict.WF.nil, fun k v => by simp [BState.new, BState.forward],
    fun k v => by simp [BState.new, BState.reverse, BObj.fwd]⟩

theorem pairs_nodup (ops : List (List BStep × BOp α)) : ∀ {l : List (α × α)}, l.Nodup → (pairs l ops).Nodup := by
  have ha : ∀ (l : List (α × α)) (k v : α), l.Nodup → (assignPair l k v).Nodup := by
    intro l k v h
    exact List.nodup_cons.mpr ⟨by simp, h.filter _⟩
  induction ops with
  | nil => intro l h; exact h
  | cons x ops ih =>
    intro l h
    obtain ⟨p, op⟩ := x
    refine ih ?_
    cases op with
    | set k v =>
      unfold pairsStep; split
      · next h1 => cases h1; split <;> (try split) <;> first | exact ha _ _ _ h | exact h
      · next h1 => cases h1
    | del k =>
      unfold pairsStep; split
      · next h1 => cases h1
      · next h1 => cases h1; split <;> (try split) <;> first | exact h.filter _ | exact h

omit [DecidableEq α] in
theorem Dict.WF.nodup {d : Dict α α} (h : d.WF) : d.Nodup := List.Nodup.of_map _ h

theorem length_of_holds {F R : Dict α α} {l : List (α × α)} (hn : l.Nodup)
    (h : BHolds F R (fun a b => (a, b) ∈ l)) : F.length = l.length ∧ R.length = l.length := by
  constructor
  · refine List.Perm.length_eq ((List.perm_ext_iff_of_nodup h.wf.nodup hn).mpr ?_)
    rintro ⟨a, b⟩
    rw [← Dict.get_iff_mem h.wf, h.fwd]
  · have hs : (R.map Prod.swap).length = l.length := by
      refine List.Perm.length_eq ((List.perm_ext_iff_of_nodup ?_ hn).mpr ?_)
      · exact List.Nodup.map (fun a b hab => by
          cases a; cases b; simp only [Prod.swap, Prod.mk.injEq] at hab; simp [hab.1, hab.2]) h.wr.nodup
      · rintro ⟨a, b⟩
        rw [← h.rev, Dict.get_iff_mem h.wr]
        simp only [List.mem_map, Prod.swap]
        exact ⟨fun ⟨⟨x, y⟩, h1, h2⟩ => by cases h2; exact h1, fun h1 => ⟨_, h1, rfl⟩⟩
    simpa using hs

/-- C16. After every history of assignments and deletions through the bijection and its (mutable or
immutable) inverses, the bijection and its inverse hold exactly the pairs the specification gives, in the
two directions, and both have as many entries as there are pairs. -/
theorem C16_bijection (ops : List (List BStep × BOp α)) (k v : α) :
    let s := (BState.new : BState α).run ops
    (s.getitem .self k = .ok v ↔ (k, v) ∈ pairs [] ops) ∧
    (s.getitem BObj.self.inverseOf v = .ok k ↔ (k, v) ∈ pairs [] ops) ∧
    s.len .self = (pairs ([] : List (α × α)) ops).length ∧
    s.len BObj.self.inverseOf = (pairs ([] : List (α × α)) ops).length := by
  intro s
  have h : HoldsAt s .self _ := run_holds ops new_holds
  refine ⟨?_, ?_, (length_of_holds (pairs_nodup ops List.nodup_nil) h).1,
    (length_of_holds (pairs_nodup ops List.nodup_nil) h).2⟩
  · rw [← h.fwd]; unfold BState.getitem
    cases (s.forward .self).get k <;> simp
  · rw [← h.rev]
    show BState.getitem s .inverse v = _ ↔ _
    unfold BState.getitem
    show (match (s.reverse .self).get v with | some v => Except.ok v | none => Except.error BErr.key) = _ ↔ _
    cases (s.reverse .self).get v <;> simp

/-- C16, in terms of the API alone: `b[k] == v` exactly when `b.inverse()[v] == k`. -/
theorem C16_inverse_agrees (ops : List (List BStep × BOp α)) (k v : α) :
    let s := (BState.new : BState α).run ops
    s.getitem .self k = .ok v ↔ s.getitem BObj.self.inverseOf v = .ok k := by
  intro s
  rw [(C16_bijection ops k v).1, (C16_bijection ops k v).2.1]

/-- C16. After any history, an assignment succeeds, makes exactly this pair present, removes the pairs of
the old partners and leaves all others. -/
theorem C16_assignment (ops : List (List BStep × BOp α)) (k v : α) :
    let s := (BState.new : BState α).run ops
    (s.setitem .self k v).1 = .ok () ∧ ∀ a b,
    ((s.setitem .self k v).2.getitem .self a = .ok b ↔
      (a = k ∧ b = v) ∨ (s.getitem .self a = .ok b ∧ a ≠ k ∧ b ≠ v)) := by
  intro s
  have h : HoldsAt s .self _ := run_holds ops new_holds
  refine ⟨(h.set rfl k v).1, fun a b => ?_⟩
  have h2 := ((h.set rfl k v).2.fwd a b)
  have e : ∀ (s : BState α) (x y : α), s.getitem .self x = .ok y ↔ (s.forward .self).get x = some y := by
    intro s x y; unfold BState.getitem; cases (s.forward .self).get x <;> simp
  rw [e, e, h2, h.fwd]

/-- C16. After any history, deletion removes exactly the pair of the key, and raises `KeyError`, changing
nothing, exactly when there is none. -/
theorem C16_deletion (ops : List (List BStep × BOp α)) (k : α) :
    let s := (BState.new : BState α).run ops
    ((∃ v, s.getitem .self k = .ok v) ↔ (s.delitem .self k).1 = .ok ()) ∧
    ((s.delitem .self k).1 ≠ .ok () → s.delitem .self k = (.error .key, s)) ∧
    ∀ a b, ((s.delitem .self k).2.getitem .self a = .ok b ↔ s.getitem .self a = .ok b ∧ a ≠ k) := by
  intro s
  have h : HoldsAt s .self _ := run_holds ops new_holds
  have e : ∀ (s : BState α) (x y : α), s.getitem .self x = .ok y ↔ (s.forward .self).get x = some y := by
    intro s x y; unfold BState.getitem; cases (s.forward .self).get x <;> simp
  have h2 := h.del rfl k
  refine ⟨?_, ?_, fun a b => ?_⟩
  · simp only [e, h.fwd]
    rcases h2.2 with ⟨h3, h4⟩ | ⟨h3, h4⟩
    · exact ⟨fun _ => h4, fun _ => h3⟩
    · rw [h4]; exact ⟨fun ⟨v, hv⟩ => absurd hv (h3 v), fun hc => by cases hc⟩
  · rcases h2.2 with ⟨h3, h4⟩ | ⟨h3, h4⟩
    · intro hn; exact absurd h4 hn
    · intro _; exact h4
  · rw [e, e, h2.1.fwd, h.fwd]

/-- A history: `b['a']=1; b['b']=2; b.inverseMutable()[1]='b'` leaves only `b ↔ 1`. -/
example : pairs [] [([], BOp.set 'a' '1'), ([], .set 'b' '2'), ([.inverseMutable], .set '1' 'b')] = [('b', '1')] := by
  decide

omit [DecidableEq α] in
/-- Iterating over a bijection (and so `keys()`, `items()`, `==`, `clear()`) always raises. -/
theorem C16_iteration_raises (s : BState α) (o : BObj) : s.iter o = .error .attribute := rfl

end Verif
