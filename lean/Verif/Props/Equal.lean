import Verif.Lemmas.Equal
import Verif.Props.RoundTrip
import Verif.Props.Float
import Verif.Model.Field
/-! # C86: `==` of packets -/
namespace Verif

mutual
theorem eqV_iff : (v w : Val) → (eqV v w = true ↔ Same v w)
  | .num i, w => by
    cases w with
    | num j => rw [eqV.eq_def]; dsimp only; rw [beq_iff_eq]; exact ⟨fun h => h ▸ .num _, fun h => by cases h; rfl⟩
    | _ => rw [eqV.eq_def]; exact ⟨fun h => (nomatch h), fun h => by cases h⟩
  | .float _ x, w => by
    cases w with
    | float _ y => rw [eqV.eq_def]; dsimp only; rw [F64.eq_iff]; exact ⟨.float, fun h => by cases h; assumption⟩
    | _ => rw [eqV.eq_def]; exact ⟨fun h => (nomatch h), fun h => by cases h⟩
  | .bool i, w => by
    cases w with
    | bool j => rw [eqV.eq_def]; dsimp only; rw [beq_iff_eq]; exact ⟨fun h => h ▸ .bool _, fun h => by cases h; rfl⟩
    | _ => rw [eqV.eq_def]; exact ⟨fun h => (nomatch h), fun h => by cases h⟩
  | .str i, w => by
    cases w with
    | str j => rw [eqV.eq_def]; dsimp only; rw [beq_iff_eq]; exact ⟨fun h => h ▸ .str _, fun h => by cases h; rfl⟩
    | _ => rw [eqV.eq_def]; exact ⟨fun h => (nomatch h), fun h => by cases h⟩
  | .buf i, w => by
    cases w with
    | buf j => rw [eqV.eq_def]; dsimp only; rw [beq_iff_eq]; exact ⟨fun h => h ▸ .buf _, fun h => by cases h; rfl⟩
    | _ => rw [eqV.eq_def]; exact ⟨fun h => (nomatch h), fun h => by cases h⟩
  | .list vs, w => by
    cases w with
    | list ws =>
      rw [eqV.eq_def]; dsimp only
      have := eqL_iff vs ws
      constructor
      · intro h; split at h
        · next hl => exact .list (this.mp ⟨hl, h⟩)
        · cases h
      · intro h; cases h with | list h => obtain ⟨h1, h2⟩ := this.mpr h; rw [if_pos h1]; exact h2
    | _ => rw [eqV.eq_def]; exact ⟨fun h => (nomatch h), fun h => by cases h⟩
  | .struct fs, w => by
    cases w with
    | struct gs => rw [eqV.eq_def]; dsimp only; rw [eqF_iff fs gs]; exact ⟨.struct, fun h => by cases h; assumption⟩
    | _ => rw [eqV.eq_def]; exact ⟨fun h => (nomatch h), fun h => by cases h⟩
  | .packet c fs, w => by
    cases w with
    | packet d gs =>
      rw [eqV.eq_def]; dsimp only
      by_cases hc : c = d
      · rw [if_pos hc, eqF_iff fs gs]; subst hc; exact ⟨.packet, fun h => by cases h; assumption⟩
      · rw [if_neg hc]; exact ⟨fun h => (nomatch h), fun h => by cases h; exact absurd rfl hc⟩
    | _ => rw [eqV.eq_def]; exact ⟨fun h => (nomatch h), fun h => by cases h⟩
theorem eqL_iff : (vs ws : VList) → ((vs.length = ws.length ∧ eqL vs ws = true) ↔ SameL vs ws)
  | .nil, .nil => by rw [eqL.eq_def]; exact ⟨fun _ => .nil, fun _ => ⟨rfl, rfl⟩⟩
  | .nil, .cons _ _ => ⟨fun h => by have := h.1; simp [VList.length] at this, fun h => by cases h⟩
  | .cons _ _, .nil => ⟨fun h => by have := h.1; simp [VList.length] at this, fun h => by cases h⟩
  | .cons v r, .cons w s => by
    have h1 := eqV_iff v w
    have h2 := eqL_iff r s
    rw [eqL.eq_def]; dsimp only
    rw [VList.length, VList.length]
    constructor
    · rintro ⟨hl, h⟩
      split at h
      · next hv => exact .cons (h1.mp hv) (h2.mp ⟨by omega, h⟩)
      · cases h
    · intro h
      cases h with
      | cons a b =>
        obtain ⟨k1, k2⟩ := h2.mpr b
        rw [if_pos (h1.mpr a)]
        exact ⟨by omega, k2⟩
theorem eqF_iff : (fs gs : FVals) → (eqF fs gs = true ↔ SameF fs gs)
  | .nil, gs => by
    rw [eqF.eq_def]
    cases gs with
    | nil => exact ⟨fun _ => .nil, fun _ => rfl⟩
    | _ => exact ⟨fun h => (nomatch h), fun h => by cases h⟩
  | .unset r, gs => by
    rw [eqF.eq_def]
    cases gs with
    | unset s => dsimp only; rw [eqF_iff r s]; exact ⟨.unset, fun h => by cases h; assumption⟩
    | _ => exact ⟨fun h => (nomatch h), fun h => by cases h⟩
  | .set v r, gs => by
    rw [eqF.eq_def]
    cases gs with
    | set w s =>
      dsimp only
      have h1 := eqV_iff v w
      have h2 := eqF_iff r s
      constructor
      · intro h
        split at h
        · next hv => exact .set (h1.mp hv) (h2.mp h)
        · cases h
      · intro h
        cases h with | set a b => rw [if_pos (h1.mpr a)]; exact h2.mpr b
    | _ => exact ⟨fun h => (nomatch h), fun h => by cases h⟩
end

mutual
theorem same_symm : (v w : Val) → Same v w → Same w v
  | .num _, _, h => by cases h; exact .num _
  | .float _ _, _, h => by cases h with | float h => exact .float h.symm
  | .bool _, _, h => by cases h; exact .bool _
  | .str _, _, h => by cases h; exact .str _
  | .buf _, _, h => by cases h; exact .buf _
  | .list vs, _, h => by cases h with | list h => exact .list (sameL_symm vs _ h)
  | .struct fs, _, h => by cases h with | struct h => exact .struct (sameF_symm fs _ h)
  | .packet _ fs, _, h => by cases h with | packet h => exact .packet (sameF_symm fs _ h)
theorem sameL_symm : (v w : VList) → SameL v w → SameL w v
  | .nil, _, h => by cases h; exact .nil
  | .cons v r, _, h => by cases h with | cons a b => exact .cons (same_symm v _ a) (sameL_symm r _ b)
theorem sameF_symm : (v w : FVals) → SameF v w → SameF w v
  | .nil, _, h => by cases h; exact .nil
  | .unset r, _, h => by cases h with | unset b => exact .unset (sameF_symm r _ b)
  | .set v r, _, h => by cases h with | set a b => exact .set (same_symm v _ a) (sameF_symm r _ b)
end

mutual
theorem same_trans : (v w u : Val) → Same v w → Same w u → Same v u
  | .num _, _, _, h, h' => by cases h; cases h'; exact .num _
  | .float _ _, _, _, h, h' => by cases h with | float h => cases h' with | float h' => exact .float (h.trans h')
  | .bool _, _, _, h, h' => by cases h; cases h'; exact .bool _
  | .str _, _, _, h, h' => by cases h; cases h'; exact .str _
  | .buf _, _, _, h, h' => by cases h; cases h'; exact .buf _
  | .list vs, _, _, h, h' => by cases h with | list h => cases h' with | list h' => exact .list (sameL_trans vs _ _ h h')
  | .struct fs, _, _, h, h' => by cases h with | struct h => cases h' with | struct h' => exact .struct (sameF_trans fs _ _ h h')
  | .packet _ fs, _, _, h, h' => by cases h with | packet h => cases h' with | packet h' => exact .packet (sameF_trans fs _ _ h h')
theorem sameL_trans : (v w u : VList) → SameL v w → SameL w u → SameL v u
  | .nil, _, _, h, h' => by cases h; cases h'; exact .nil
  | .cons v r, _, _, h, h' => by cases h with | cons a b => cases h' with | cons a' b' => exact .cons (same_trans v _ _ a a') (sameL_trans r _ _ b b')
theorem sameF_trans : (v w u : FVals) → SameF v w → SameF w u → SameF v u
  | .nil, _, _, h, h' => by cases h; cases h'; exact .nil
  | .unset r, _, _, h, h' => by cases h with | unset b => cases h' with | unset b' => exact .unset (sameF_trans r _ _ b b')
  | .set v r, _, _, h, h' => by cases h with | set a b => cases h' with | set a' b' => exact .set (same_trans v _ _ a a') (sameF_trans r _ _ b b')
end

mutual
theorem same_self : (v : Val) → (Same v v ↔ NoNaN v)
  | .num _ => ⟨fun _ => rfl, fun _ => .num _⟩
  | .float w x => by
    unfold NoNaN
    rw [floatsV.eq_def, decide_eq_true_eq, ← F64.eq_self, F64.eq_iff]
    exact ⟨fun h => by cases h; assumption, .float⟩
  | .bool _ => ⟨fun _ => rfl, fun _ => .bool _⟩
  | .str _ => ⟨fun _ => rfl, fun _ => .str _⟩
  | .buf _ => ⟨fun _ => rfl, fun _ => .buf _⟩
  | .list vs => by
    unfold NoNaN; rw [floatsV.eq_def]; dsimp only; rw [← sameL_self vs]; exact ⟨fun h => by cases h; assumption, .list⟩
  | .struct fs => by
    unfold NoNaN; rw [floatsV.eq_def]; dsimp only; rw [← sameF_self fs]; exact ⟨fun h => by cases h; assumption, .struct⟩
  | .packet _ fs => by
    unfold NoNaN; rw [floatsV.eq_def]; dsimp only; rw [← sameF_self fs]; exact ⟨fun h => by cases h; assumption, .packet⟩
theorem sameL_self : (v : VList) → (SameL v v ↔ floatsL (fun x => decide (¬ x.isNaN)) v = true)
  | .nil => ⟨fun _ => rfl, fun _ => .nil⟩
  | .cons v r => by
    have h1 := same_self v
    unfold NoNaN at h1
    rw [floatsL.eq_def]; dsimp only; rw [Bool.and_eq_true, ← h1, ← sameL_self r]
    exact ⟨fun h => by cases h with | cons a b => exact ⟨a, b⟩, fun ⟨a, b⟩ => .cons a b⟩
theorem sameF_self : (v : FVals) → (SameF v v ↔ floatsF (fun x => decide (¬ x.isNaN)) v = true)
  | .nil => ⟨fun _ => rfl, fun _ => .nil⟩
  | .unset r => by
    rw [floatsF.eq_def]; dsimp only; rw [← sameF_self r]; exact ⟨fun h => by cases h; assumption, .unset⟩
  | .set v r => by
    have h1 := same_self v
    unfold NoNaN at h1
    rw [floatsF.eq_def]; dsimp only; rw [Bool.and_eq_true, ← h1, ← sameF_self r]
    exact ⟨fun h => by cases h with | set a b => exact ⟨a, b⟩, fun ⟨a, b⟩ => .set a b⟩
end

/-! ## C86 -/

/-- C86. Two packets are equal exactly if they are of one class and have the same contents: the same fields are set, numbers have the same value, strings and buffers
the same bytes, lists the same elements in the same order; and so in packets inside of them. -/
theorem C86_iff (v w : Val) : eqV v w = true ↔ Same v w := eqV_iff v w

/-- C86. The order of the two does not matter, and two that are equal to a third are equal. -/
theorem C86_symm (v w : Val) : eqV v w = eqV w v := by
  rw [Bool.eq_iff_iff, eqV_iff, eqV_iff]
  exact ⟨same_symm _ _, same_symm _ _⟩

theorem C86_trans {v w u : Val} (h : eqV v w = true) (h' : eqV w u = true) : eqV v u = true := by
  rw [eqV_iff] at *; exact same_trans _ _ _ h h'

/-- C86, proved part: a packet is equal to itself exactly if it contains no NaN. -/
theorem C86_self_partial (v : Val) : eqV v v = true ↔ NoNaN v := by rw [eqV_iff]; exact same_self v

/-! ## Equal packets have the same bytes -/

theorem nz {x : F64} (h : decide (x ≠ 0 ∧ x ≠ 0x8000000000000000) = true) : x ≠ 0 ∧ x ≠ 0x8000000000000000 := of_decide_eq_true h

mutual
theorem same_eq (env : Env) : (v w : Val) → ∀ t, accepts env v t = true → accepts env w t = true → NoZero v → Same v w → v = w
  | .num _, _, _, _, _, _, h => by cases h; rfl
  | .float a x, _, t, hv, hw, hz, h => by
    cases h with
    | float h =>
      unfold NoZero at hz
      rw [floatsV.eq_def] at hz
      have := F64.eq_bits ((F64.eq_iff _ _).mpr h) (nz hz)
      subst this
      cases t with
      | float at' =>
        rw [accepts.eq_def] at hv hw; dsimp only at hv hw
        rw [Bool.and_eq_true, beq_iff_eq] at hv hw
        rw [hv.1, hw.1]
      | _ => rw [accepts.eq_def] at hv; cases hv
  | .bool _, _, _, _, _, _, h => by cases h; rfl
  | .str _, _, _, _, _, _, h => by cases h; rfl
  | .buf _, _, _, _, _, _, h => by cases h; rfl
  | .list vs, _, t, hv, hw, hz, h => by
    cases h with
    | list h =>
      unfold NoZero at hz
      rw [floatsV.eq_def] at hz
      cases t with
      | list t =>
        rw [accepts.eq_def] at hv hw; dsimp only at hv hw
        rw [sameL_eq env vs _ t hv hw hz h]
      | _ => rw [accepts.eq_def] at hv; cases hv
  | .struct fs, _, t, hv, hw, hz, h => by
    cases h with
    | struct h =>
      unfold NoZero at hz
      rw [floatsV.eq_def] at hz
      cases t with
      | struct ds =>
        rw [accepts.eq_def] at hv hw; dsimp only at hv hw
        rw [sameF_eq env fs _ ds hv hw hz h]
      | _ => rw [accepts.eq_def] at hv; cases hv
  | .packet c fs, _, t, hv, hw, hz, h => by
    cases h with
    | packet h =>
      unfold NoZero at hz
      rw [floatsV.eq_def] at hz
      cases t with
      | packet b =>
        rw [accepts.eq_def] at hv hw; dsimp only at hv hw
        rw [Bool.and_eq_true] at hv hw
        cases hd : env.classDef c with
        | none => rw [hd] at hv; cases hv.2
        | some d =>
          rw [hd] at hv hw
          rw [sameF_eq env fs _ d.fields hv.2 hw.2 hz h]
      | _ => rw [accepts.eq_def] at hv; cases hv
theorem sameL_eq (env : Env) : (v w : VList) → ∀ t, acceptsL env v t = true → acceptsL env w t = true →
    floatsL (fun x => decide (x ≠ 0 ∧ x ≠ 0x8000000000000000)) v = true → SameL v w → v = w
  | .nil, _, _, _, _, _, h => by cases h; rfl
  | .cons v r, _, t, hv, hw, hz, h => by
    cases h with
    | cons a b =>
      rw [acceptsL.eq_def] at hv hw; dsimp only at hv hw
      rw [floatsL.eq_def] at hz; dsimp only at hz
      rw [Bool.and_eq_true] at hv hw hz
      rw [same_eq env v _ t hv.1 hw.1 hz.1 a, sameL_eq env r _ t hv.2 hw.2 hz.2 b]
theorem sameF_eq (env : Env) : (v w : FVals) → ∀ ds, acceptsF env v ds = true → acceptsF env w ds = true →
    floatsF (fun x => decide (x ≠ 0 ∧ x ≠ 0x8000000000000000)) v = true → SameF v w → v = w
  | .nil, _, _, _, _, _, h => by cases h; rfl
  | .unset r, _, ds, hv, hw, hz, h => by
    cases h with
    | unset b =>
      cases ds with
      | nil => rw [acceptsF.eq_def] at hv; cases hv
      | cons nm tg opt t ds =>
        rw [acceptsF.eq_def] at hv hw; dsimp only at hv hw
        rw [floatsF.eq_def] at hz; dsimp only at hz
        rw [sameF_eq env r _ ds hv hw hz b]
  | .set v r, _, ds, hv, hw, hz, h => by
    cases h with
    | set a b =>
      cases ds with
      | nil => rw [acceptsF.eq_def] at hv; cases hv
      | cons nm tg opt t ds =>
        rw [acceptsF.eq_def] at hv hw; dsimp only at hv hw
        rw [floatsF.eq_def] at hz; dsimp only at hz
        rw [Bool.and_eq_true] at hv hw hz
        rw [same_eq env v _ t hv.1 hw.1 hz.1 a, sameF_eq env r _ ds hv.2 hw.2 hz.2 b]
end

/-- C86, proved part: packets that are equal are serialized to the same bytes, if no float in them is zero. -/
theorem C86_bytes_partial {env : Env} {base : Cls} {v w : Val} (hv : accepts env v (.packet base) = true) (hw : accepts env w (.packet base) = true) (hz : NoZero v)
    (h : eqV v w = true) : serialize env 0 v = serialize env 0 w := by
  rw [same_eq env v w _ hv hw hz ((eqV_iff v w).mp h)]

/-! ## A packet that was sent -/

theorem float_round {x : F64} (h : isSingle (toSingle x) = true) : F64.eq (toSingle x) x = true ↔ ¬ x.isNaN ∧ isSingle x = true := by
  have h0 : isSingle x = true → toSingle x = x := by
    intro hs
    unfold isSingle at hs
    unfold toSingle
    split at hs
    · next y hy => rw [hy]; exact beq_iff_eq.mp hs
    · cases hs
  constructor
  · intro he
    have hn : ¬ x.isNaN := by
      intro hn
      rcases (F64.eq_iff _ _).mp he with ⟨-, hf, -⟩ | ⟨-, -, -, hf, -⟩
      · exact hf hn.1
      · exact hf hn
    refine ⟨hn, ?_⟩
    by_cases hz : x = 0 ∨ x = 0x8000000000000000
    · rcases hz with rfl | rfl <;> decide +kernel
    · have : x = toSingle x := F64.eq_bits ((F64.eq_iff _ _).mpr ((F64.eq_iff _ _).mp he).symm) ⟨fun e => hz (.inl e), fun e => hz (.inr e)⟩
      rw [← this] at h
      exact h
  · rintro ⟨hn, hs⟩
    rw [h0 hs]
    exact (F64.eq_self x).mpr hn

mutual
theorem round_eqV : (v : Val) → asciiV (roundV v) = true → (eqV (roundV v) v = true ↔ NoNaN v ∧ asciiV v = true)
  | .num i => fun _ => by simp [roundV, eqV, NoNaN, floatsV, asciiV]
  | .float true x => fun h => by
    rw [roundV.eq_def] at h ⊢; dsimp only at h ⊢
    rw [asciiV.eq_def] at h ⊢; dsimp only at h ⊢
    rw [eqV.eq_def]; dsimp only
    unfold NoNaN
    rw [floatsV.eq_def, decide_eq_true_eq]
    exact float_round h
  | .float false x => fun _ => by
    rw [roundV.eq_def, asciiV.eq_def, eqV.eq_def]; dsimp only
    unfold NoNaN
    rw [floatsV.eq_def, decide_eq_true_eq, F64.eq_self]
    exact ⟨fun h => ⟨h, rfl⟩, (·.1)⟩
  | .bool b => fun _ => by simp [roundV, eqV, NoNaN, floatsV, asciiV]
  | .str s => fun h => by
    rw [roundV.eq_def] at h ⊢; dsimp only at h ⊢
    rw [h, eqV.eq_def]; simp [NoNaN, floatsV]
  | .buf b => fun _ => by simp [roundV, eqV, NoNaN, floatsV, asciiV]
  | .list vs => fun h => by
    rw [roundV.eq_def] at h ⊢; dsimp only at h ⊢
    rw [asciiV.eq_def] at h ⊢; dsimp only at h ⊢
    rw [eqV.eq_def]; dsimp only
    unfold NoNaN
    rw [floatsV.eq_def]; dsimp only
    rw [if_pos (length_round vs)]
    exact round_eqL vs h
  | .struct fs => fun h => by
    rw [roundV.eq_def] at h ⊢; dsimp only at h ⊢
    rw [asciiV.eq_def] at h ⊢; dsimp only at h ⊢
    rw [eqV.eq_def]; dsimp only
    unfold NoNaN
    rw [floatsV.eq_def]; dsimp only
    exact round_eqF fs h
  | .packet _ fs => fun h => by
    rw [roundV.eq_def] at h ⊢; dsimp only at h ⊢
    rw [asciiV.eq_def] at h ⊢; dsimp only at h ⊢
    rw [eqV.eq_def]; dsimp only
    unfold NoNaN
    rw [floatsV.eq_def]; dsimp only
    rw [if_pos rfl]
    exact round_eqF fs h
theorem round_eqL : (v : VList) → asciiL (roundL v) = true → (eqL (roundL v) v = true ↔ floatsL (fun x => decide (¬ x.isNaN)) v = true ∧ asciiL v = true)
  | .nil => fun _ => by simp [roundL, eqL, floatsL, asciiL]
  | .cons v r => fun h => by
    rw [roundL] at h ⊢
    rw [asciiL.eq_def] at h; dsimp only at h
    rw [Bool.and_eq_true] at h
    have h1 := round_eqV v h.1
    have h2 := round_eqL r h.2
    unfold NoNaN at h1
    rw [asciiL, eqL, floatsL, Bool.and_eq_true, Bool.and_eq_true]
    cases he : eqV (roundV v) v with
    | true =>
      rw [if_pos rfl, h2]
      obtain ⟨a, b⟩ := h1.mp he
      exact ⟨fun ⟨x, y⟩ => ⟨⟨a, x⟩, ⟨b, y⟩⟩, fun ⟨x, y⟩ => ⟨x.2, y.2⟩⟩
    | false =>
      rw [if_neg (by decide)]
      exact ⟨fun h => (nomatch h), fun ⟨x, y⟩ => by rw [h1.mpr ⟨x.1, y.1⟩] at he; cases he⟩
theorem round_eqF : (v : FVals) → asciiF (roundF v) = true → (eqF (roundF v) v = true ↔ floatsF (fun x => decide (¬ x.isNaN)) v = true ∧ asciiF v = true)
  | .nil => fun _ => by simp [roundF, eqF, floatsF, asciiF]
  | .unset r => fun h => by
    rw [roundF] at h ⊢
    rw [asciiF.eq_def] at h; dsimp only at h
    rw [asciiF, eqF, floatsF]
    exact round_eqF r h
  | .set v r => fun h => by
    rw [roundF] at h ⊢
    rw [asciiF.eq_def] at h; dsimp only at h
    rw [Bool.and_eq_true] at h
    have h1 := round_eqV v h.1
    have h2 := round_eqF r h.2
    unfold NoNaN at h1
    rw [asciiF, eqF, floatsF, Bool.and_eq_true, Bool.and_eq_true]
    cases he : eqV (roundV v) v with
    | true =>
      rw [if_pos rfl, h2]
      obtain ⟨a, b⟩ := h1.mp he
      exact ⟨fun ⟨x, y⟩ => ⟨⟨a, x⟩, ⟨b, y⟩⟩, fun ⟨x, y⟩ => ⟨x.2, y.2⟩⟩
    | false =>
      rw [if_neg (by decide)]
      exact ⟨fun h => (nomatch h), fun ⟨x, y⟩ => by rw [h1.mpr ⟨x.1, y.1⟩] at he; cases he⟩
end

theorem decodes_unique {env : Env} {depth : Nat} {base : Cls} {b : Bytes} {v w : Val} (h : Decodes env depth base b v) (h' : Decodes env depth base b w) : v = w := by
  obtain ⟨m, n, h⟩ := h
  obtain ⟨m', n', h'⟩ := h'
  rw [h] at h'
  cases h'
  rfl

/-- C86, a packet that was sent: what `Deserialize` returns for the bytes of a packet is equal to the packet exactly if no number in it is a NaN and every number in a
field of 32 bits is one of 32 bits; here its strings are ASCII, its nesting within the recursion limit, no string or buffer longer than the packet it is in, and the
types still accept the rounded numbers (else it does not arrive: C01, C81). -/
theorem C86_sent_partial {env : Env} (hr : env.Registered) {depth : Nat} {base : Cls} {p q : Val} (hs : Sendable env base p)
    (ha : accepts env (roundV p) (.packet base) = true) (hc : textV p = true ∧ depthV p ≤ depth ∧ ∃ m, limV (serLen env) 0 p = some m)
    (hq : Decodes env depth base (ser env p) q) : eqV q p = true ↔ NoNaN p ∧ asciiV p = true := by
  have hd := (C81_packet hr hs ha).mpr hc
  have e := decodes_unique hq hd
  subst e
  apply round_eqV
  obtain ⟨c, fs, b, rfl, hb, hser, he⟩ := sendable_cases hs
  rw [ascii_roundV env _ _ b hs.1 he]
  exact hc.1

/-- C86, packets that were sent are told apart: what arrives for two packets is equal exactly if the two are. -/
theorem C86_two_partial {env : Env} (hr : env.Registered) {depth : Nat} {base : Cls} {p p' q q' : Val} (hp : Carried env depth base p) (hp' : Carried env depth base p')
    (hq : Decodes env depth base (ser env p) q) (hq' : Decodes env depth base (ser env p') q') : eqV q q' = eqV p p' := by
  have h1 := (C01_roundtrip_iff_partial hr (depth := depth) ⟨hp.accepted, hp.serializes⟩).mpr ⟨hp.ascii, hp.nesting, hp.limits⟩
  have h2 := (C01_roundtrip_iff_partial hr (depth := depth) ⟨hp'.accepted, hp'.serializes⟩).mpr ⟨hp'.ascii, hp'.nesting, hp'.limits⟩
  rw [decodes_unique hq h1, decodes_unique hq' h2]

/-! ## Floats with limits -/

theorem limited_nan {a : NumAttrs} {x : F64} (hl : (a.bits.isSome || a.maxV.isSome || a.minV.isSome) = true) (h : a.validatesFloat x = true) : ¬ x.isNaN := by
  obtain ⟨h1, h2, h3⟩ := (C81_limits a x).mp h
  intro hn
  have hm : ∀ i, ¬ x.AtMost i := by
    rintro i (⟨hf, -⟩ | rfl)
    · exact hf hn.1
    · exact absurd hn (by decide +kernel)
  have hM : ∀ i, ¬ x.AtLeast i := by
    rintro i (⟨hf, -⟩ | rfl)
    · exact hf hn.1
    · exact absurd hn (by decide +kernel)
  obtain ⟨b, mx, mn⟩ := a
  cases b with
  | some b => exact hm _ (h3 b rfl).1
  | none => cases mx with
    | some m => exact hm _ (h2 m rfl)
    | none => cases mn with
      | some m => exact hM _ (h1 m rfl)
      | none => cases hl

mutual
theorem limitedV (env : Env) (hc : ∀ c d, env.classDef c = some d → limitedF d.fields = true) : (v : Val) → ∀ t, limitedT t = true → accepts env v t = true → NoNaN v
  | .num _, _, _, _ => rfl
  | .float w x, t, hl, ha => by
    unfold NoNaN
    rw [floatsV.eq_def, decide_eq_true_eq]
    cases t with
    | float a =>
      rw [limitedT.eq_def] at hl
      rw [accepts.eq_def] at ha; dsimp only at ha
      rw [Bool.and_eq_true] at ha
      exact limited_nan hl ha.2
    | _ => rw [accepts.eq_def] at ha; cases ha
  | .bool _, _, _, _ => rfl
  | .str _, _, _, _ => rfl
  | .buf _, _, _, _ => rfl
  | .list vs, t, hl, ha => by
    unfold NoNaN
    rw [floatsV.eq_def]; dsimp only
    cases t with
    | list t =>
      rw [limitedT.eq_def] at hl
      rw [accepts.eq_def] at ha
      exact limitedVL env hc vs t hl ha
    | _ => rw [accepts.eq_def] at ha; cases ha
  | .struct fs, t, hl, ha => by
    unfold NoNaN
    rw [floatsV.eq_def]; dsimp only
    cases t with
    | struct ds =>
      rw [limitedT.eq_def] at hl
      rw [accepts.eq_def] at ha
      exact limitedVF env hc fs ds hl ha
    | _ => rw [accepts.eq_def] at ha; cases ha
  | .packet c fs, t, hl, ha => by
    unfold NoNaN
    rw [floatsV.eq_def]; dsimp only
    cases t with
    | packet b =>
      rw [accepts.eq_def] at ha; dsimp only at ha
      rw [Bool.and_eq_true] at ha
      cases hd : env.classDef c with
      | none => rw [hd] at ha; cases ha.2
      | some d => rw [hd] at ha; exact limitedVF env hc fs d.fields (hc c d hd) ha.2
    | _ => rw [accepts.eq_def] at ha; cases ha
theorem limitedVL (env : Env) (hc : ∀ c d, env.classDef c = some d → limitedF d.fields = true) : (v : VList) → ∀ t, limitedT t = true → acceptsL env v t = true →
    floatsL (fun x => decide (¬ x.isNaN)) v = true
  | .nil, _, _, _ => rfl
  | .cons v r, t, hl, ha => by
    rw [acceptsL.eq_def] at ha; dsimp only at ha
    rw [Bool.and_eq_true] at ha
    rw [floatsL, Bool.and_eq_true]
    exact ⟨limitedV env hc v t hl ha.1, limitedVL env hc r t hl ha.2⟩
theorem limitedVF (env : Env) (hc : ∀ c d, env.classDef c = some d → limitedF d.fields = true) : (v : FVals) → ∀ ds, limitedF ds = true → acceptsF env v ds = true →
    floatsF (fun x => decide (¬ x.isNaN)) v = true
  | .nil, _, _, _ => rfl
  | .unset r, ds, hl, ha => by
    cases ds with
    | nil => rw [acceptsF.eq_def] at ha; cases ha
    | cons nm tg opt t ds =>
      rw [limitedF, Bool.and_eq_true] at hl
      rw [acceptsF.eq_def] at ha; dsimp only at ha
      rw [floatsF]
      exact limitedVF env hc r ds hl.2 ha
  | .set v r, ds, hl, ha => by
    cases ds with
    | nil => rw [acceptsF.eq_def] at ha; cases ha
    | cons nm tg opt t ds =>
      rw [limitedF, Bool.and_eq_true] at hl
      rw [acceptsF.eq_def] at ha; dsimp only at ha
      rw [Bool.and_eq_true] at ha
      rw [floatsF, Bool.and_eq_true]
      exact ⟨limitedV env hc v t hl.1 ha.1, limitedVF env hc r ds hl.2 ha.2⟩
end

/-- C86. Where every float field has a limit (as FLOAT32 and FLOAT64 have), a packet with accepted values is equal to itself. -/
theorem C86_limited {env : Env} (hc : ∀ c d, env.classDef c = some d → limitedF d.fields = true) {base : Cls} {p : Val} (ha : accepts env p (.packet base) = true) :
    eqV p p = true := (C86_self_partial p).mpr (limitedV env hc p (.packet base) rfl ha)

/-! ## A concrete packet, and what does not hold -/

open FloatEx in
/-- The packet with 1.5 and 0.1 is equal to what arrives for it, and to no other. -/
example : (∀ q, Decodes env 1 0 (ser env (pkt 0x3ff8000000000000 0x3fb999999999999a)) q → eqV q (pkt 0x3ff8000000000000 0x3fb999999999999a) = true) ∧
    eqV (pkt 0x3ff8000000000000 0x3fb999999999999a) (pkt 0x3ff8000000000000 0x3fb999999999999b) = false := by
  refine ⟨fun q hq => (C86_sent_partial registered (sendable (by decide +kernel) (by decide +kernel)) (by decide +kernel) ⟨by decide, by decide, _, rfl⟩ hq).mpr
    ⟨by unfold NoNaN; decide +kernel, by decide +kernel⟩, by decide +kernel⟩

/-- Lists, structs and packets in packets. -/
example : eqV (.packet 1 (.set (.list (.cons (.num 1) (.cons (.num 2) .nil))) (.unset (.set (.packet 2 (.set (.str ['a']) .nil)) .nil))))
      (.packet 1 (.set (.list (.cons (.num 1) (.cons (.num 2) .nil))) (.unset (.set (.packet 2 (.set (.str ['a']) .nil)) .nil)))) = true ∧
    eqV (.packet 1 (.set (.list (.cons (.num 1) (.cons (.num 2) .nil))) .nil)) (.packet 1 (.set (.list (.cons (.num 1) .nil)) .nil)) = false ∧
    eqV (.packet 1 (.unset .nil)) (.packet 1 (.set (.num 0) .nil)) = false ∧ eqV (.packet 1 .nil) (.packet 2 .nil) = false := by decide +kernel

open FloatEx in
/-- False: 0.1 in a FLOAT32 field. What arrives is not equal to what was sent. -/
theorem C86_false_sent : ∃ q, Sendable env 0 (pkt 0x3fb999999999999a 0) ∧ Decodes env 1 0 (ser env (pkt 0x3fb999999999999a 0)) q ∧ eqV q (pkt 0x3fb999999999999a 0) = false := by
  refine ⟨roundV (pkt 0x3fb999999999999a 0), sendable (by decide +kernel) (by decide +kernel), ?_, by decide +kernel⟩
  exact (C81_packet registered (sendable (by decide +kernel) (by decide +kernel)) (by decide +kernel)).mpr ⟨by decide, by decide, _, rfl⟩

open FloatEx in
/-- False: packets with 0.0 and -0.0 are equal, and have different bytes. -/
theorem C86_false_bytes : eqV (pkt 0 0) (pkt 0 0x8000000000000000) = true ∧ ser env (pkt 0 0) ≠ ser env (pkt 0 0x8000000000000000) ∧
    Sendable env 0 (pkt 0 0) ∧ Sendable env 0 (pkt 0 0x8000000000000000) := by
  refine ⟨by decide +kernel, by decide +kernel, sendable (by decide +kernel) (by decide +kernel), sendable (by decide +kernel) (by decide +kernel)⟩

/-- False: a packet with a NaN, which a float field without limits accepts, is not equal to itself; nor is one with a FLOAT64 field, to which a NaN was assigned: the
assignment raises, and the NaN stays (C10). -/
theorem C86_false_self (env : Env) (conv : Conv) : accepts env (.float true 0x7ff8000000000000) (.float {}) = true ∧ eqV (.float true 0x7ff8000000000000) (.float true 0x7ff8000000000000) = false ∧
    (setField env conv (.float float64T) none (.float 0x7ff8000000000000)).data = some (.float false 0x7ff8000000000000) ∧
    (setField env conv (.float float64T) none (.float 0x7ff8000000000000)).raised = true := by
  refine ⟨rfl, by decide +kernel, rfl, ?_⟩
  show (!float64T.validatesFloat 0x7ff8000000000000) = true
  decide +kernel

end Verif
