import Verif.Lemmas.Float
import Verif.Lemmas.RoundTrip
/-! # Rounding the floats of a packet does not change its bytes -/
namespace Verif

theorem toSingle_of {x : F64} {y : F32} (h : narrow x = some y) : toSingle x = widen y := by unfold toSingle; rw [h]

theorem encFloat_round {a : NumAttrs} (ha : a.single = true) (x : F64) : encFloat a (toSingle x) = encFloat a x := by
  cases h : narrow x with
  | none => unfold toSingle; rw [h]
  | some y =>
    rw [toSingle_of h]
    unfold NumAttrs.single at ha
    unfold encFloat
    split
    · next hb => rw [hb] at ha; cases ha
    · rw [narrow_idem h, h]
    · rw [narrow_idem h, h]
    · rfl

theorem countSet_round (env : Env) : (fs : FVals) → ∀ ds, countSet (roundF fs) ds = countSet fs ds
  | .nil => fun ds => by rw [roundF]
  | .unset r => fun ds => by
    rw [roundF]
    cases ds with
    | nil => rfl
    | cons nm tg opt t ds => rw [countSet, countSet, countSet_round env r ds]
  | .set v r => fun ds => by
    rw [roundF]
    cases ds with
    | nil => rfl
    | cons nm tg opt t ds => rw [countSet, countSet, countSet_round env r ds]

theorem length_round : (vs : VList) → (roundL vs).length = vs.length
  | .nil => by rw [roundL]
  | .cons v r => by rw [roundL, VList.length, VList.length, length_round r]

mutual
theorem enc_roundV (env : Env) : (v : Val) → ∀ t, accepts env v t = true → encV env (roundV v) t = encV env v t
  | .num _ => fun t _ => by rw [roundV.eq_def]
  | .float true x => fun t ha => by
    rw [roundV.eq_def]; dsimp only
    cases t with
    | float a =>
      rw [accepts.eq_def] at ha; dsimp only at ha
      rw [Bool.and_eq_true] at ha
      rw [encV, encV, encFloat_round (by simpa using ha.1)]
    | _ => rw [accepts.eq_def] at ha; cases ha
  | .float false _ => fun t _ => by rw [roundV.eq_def]
  | .bool _ => fun t _ => by rw [roundV.eq_def]
  | .str _ => fun t _ => by rw [roundV.eq_def]
  | .buf _ => fun t _ => by rw [roundV.eq_def]
  | .list vs => fun t ha => by
    rw [roundV.eq_def]; dsimp only
    cases t with
    | list t =>
      rw [accepts.eq_def] at ha; dsimp only at ha
      rw [encV, encV, length_round, enc_roundL env vs t ha]
    | _ => rw [accepts.eq_def] at ha; cases ha
  | .struct fs => fun t ha => by
    rw [roundV.eq_def]; dsimp only
    cases t with
    | struct ds =>
      rw [accepts.eq_def] at ha; dsimp only at ha
      rw [encV, encV, countSet_round env]
      simp only [enc_roundF env fs ds ha]
    | _ => rw [accepts.eq_def] at ha; cases ha
  | .packet cls fs => fun t ha => by
    rw [roundV.eq_def]; dsimp only
    cases t with
    | packet base =>
      rw [accepts.eq_def] at ha; dsimp only at ha
      rw [Bool.and_eq_true] at ha
      rw [encV, encV]
      cases hd : env.classDef cls with
      | none => rfl
      | some d =>
        rw [hd] at ha
        simp only [countSet_round env, enc_roundF env fs d.fields ha.2]
    | _ => rw [accepts.eq_def] at ha; cases ha
theorem enc_roundL (env : Env) : (vs : VList) → ∀ t, acceptsL env vs t = true → encL env (roundL vs) t = encL env vs t
  | .nil => fun t _ => by rw [roundL]
  | .cons v r => fun t ha => by
    rw [acceptsL.eq_def] at ha; dsimp only at ha
    rw [Bool.and_eq_true] at ha
    rw [roundL, encL, encL, enc_roundV env v t ha.1, enc_roundL env r t ha.2]
theorem enc_roundF (env : Env) : (fs : FVals) → ∀ ds, acceptsF env fs ds = true → ∀ tags, encF env (roundF fs) ds tags = encF env fs ds tags
  | .nil => fun ds _ tags => by rw [roundF]
  | .unset r => fun ds ha tags => by
    rw [roundF]
    cases ds with
    | nil => rw [acceptsF.eq_def] at ha; cases ha
    | cons nm tg opt t ds =>
      rw [acceptsF.eq_def] at ha; dsimp only at ha
      cases tags with
      | nil => rfl
      | cons g tags => rw [encF, encF, enc_roundF env r ds ha tags]
  | .set v r => fun ds ha tags => by
    rw [roundF]
    cases ds with
    | nil => rw [acceptsF.eq_def] at ha; cases ha
    | cons nm tg opt t ds =>
      rw [acceptsF.eq_def] at ha; dsimp only at ha
      rw [Bool.and_eq_true] at ha
      cases tags with
      | nil => rfl
      | cons g tags => rw [encF, encF, enc_roundV env v t ha.1, enc_roundF env r ds ha.2 tags]
end

theorem serLen_round {env : Env} {cls base : Cls} {fs : FVals} (ha : accepts env (.packet cls fs) (.packet base) = true) :
    serLen env (.packet cls (roundF fs)) = serLen env (.packet cls fs) := by
  have h := enc_roundV env (.packet cls fs) (.packet base) ha
  rw [roundV.eq_def] at h; dsimp only at h
  have e : ∀ fs, encV env (.packet cls fs) (.packet 0) = encV env (.packet cls fs) (.packet base) := fun fs => by rw [encV, encV]
  unfold serLen serialize
  rw [e, e, h]

mutual
theorem lim_roundV (env : Env) : (v : Val) → ∀ t m, accepts env v t = true → limV (serLen env) m (roundV v) = limV (serLen env) m v
  | .num _ => fun t m _ => by rw [roundV.eq_def]
  | .float true x => fun t m ha => by rw [roundV.eq_def]; rfl
  | .float false _ => fun t m _ => by rw [roundV.eq_def]
  | .bool _ => fun t m _ => by rw [roundV.eq_def]
  | .str _ => fun t m _ => by rw [roundV.eq_def]
  | .buf _ => fun t m _ => by rw [roundV.eq_def]
  | .list vs => fun t m ha => by
    rw [roundV.eq_def]; dsimp only
    cases t with
    | list t =>
      rw [accepts.eq_def] at ha; dsimp only at ha
      rw [limV, limV, lim_roundL env vs t m ha]
    | _ => rw [accepts.eq_def] at ha; cases ha
  | .struct fs => fun t m ha => by
    rw [roundV.eq_def]; dsimp only
    cases t with
    | struct ds =>
      rw [accepts.eq_def] at ha; dsimp only at ha
      rw [limV, limV, lim_roundF env fs ds m ha]
    | _ => rw [accepts.eq_def] at ha; cases ha
  | .packet cls fs => fun t m ha => by
    rw [roundV.eq_def]; dsimp only
    cases t with
    | packet base =>
      rw [limV, limV, serLen_round ha]
      rw [accepts.eq_def] at ha; dsimp only at ha
      rw [Bool.and_eq_true] at ha
      cases hd : env.classDef cls with
      | none => rw [hd] at ha; cases ha.2
      | some d =>
        rw [hd] at ha
        rw [lim_roundF env fs d.fields _ ha.2]
    | _ => rw [accepts.eq_def] at ha; cases ha
theorem lim_roundL (env : Env) : (vs : VList) → ∀ t m, acceptsL env vs t = true → limL (serLen env) m (roundL vs) = limL (serLen env) m vs
  | .nil => fun t m _ => by rw [roundL]
  | .cons v r => fun t m ha => by
    rw [acceptsL.eq_def] at ha; dsimp only at ha
    rw [Bool.and_eq_true] at ha
    rw [roundL, limL, limL, lim_roundV env v t m ha.1]
    cases limV (serLen env) m v with
    | none => rfl
    | some m' => exact lim_roundL env r t m' ha.2
theorem lim_roundF (env : Env) : (fs : FVals) → ∀ ds m, acceptsF env fs ds = true → limF (serLen env) m (roundF fs) = limF (serLen env) m fs
  | .nil => fun ds m _ => by rw [roundF]
  | .unset r => fun ds m ha => by
    rw [roundF]
    cases ds with
    | nil => rw [acceptsF.eq_def] at ha; cases ha
    | cons nm tg opt t ds =>
      rw [acceptsF.eq_def] at ha; dsimp only at ha
      rw [limF, limF, lim_roundF env r ds m ha]
  | .set v r => fun ds m ha => by
    rw [roundF]
    cases ds with
    | nil => rw [acceptsF.eq_def] at ha; cases ha
    | cons nm tg opt t ds =>
      rw [acceptsF.eq_def] at ha; dsimp only at ha
      rw [Bool.and_eq_true] at ha
      rw [limF, limF, lim_roundV env v t m ha.1]
      cases limV (serLen env) m v with
      | none => rfl
      | some m' => exact lim_roundF env r ds m' ha.2
end

mutual
theorem depth_roundV : (v : Val) → depthV (roundV v) = depthV v
  | .num _ => by rw [roundV.eq_def]
  | .float true x => by rw [roundV.eq_def]; rfl
  | .float false _ => by rw [roundV.eq_def]
  | .bool _ => by rw [roundV.eq_def]
  | .str _ => by rw [roundV.eq_def]
  | .buf _ => by rw [roundV.eq_def]
  | .list vs => by rw [roundV.eq_def]; dsimp only; rw [depthV, depthV, depth_roundL vs]
  | .struct fs => by rw [roundV.eq_def]; dsimp only; rw [depthV, depthV, depth_roundF fs]
  | .packet cls fs => by rw [roundV.eq_def]; dsimp only; rw [depthV, depthV, depth_roundF fs]
theorem depth_roundL : (vs : VList) → depthL (roundL vs) = depthL vs
  | .nil => by rw [roundL]
  | .cons v r => by rw [roundL, depthL, depthL, depth_roundV v, depth_roundL r]
theorem depth_roundF : (fs : FVals) → depthF (roundF fs) = depthF fs
  | .nil => by rw [roundF]
  | .unset r => by rw [roundF, depthF, depthF, depth_roundF r]
  | .set v r => by rw [roundF, depthF, depthF, depth_roundV v, depth_roundF r]
end

/-- The floats of 32 bits that `struct` can pack. -/
theorem toSingle_single {x : F64} (h : narrow x ≠ none) : isSingle (toSingle x) = true := by
  cases hn : narrow x with
  | none => exact absurd hn h
  | some y => rw [toSingle_of hn]; exact isSingle_widen y

mutual
theorem ascii_roundV (env : Env) : (v : Val) → ∀ t bs, accepts env v t = true → encV env v t = .ok bs → asciiV (roundV v) = textV v
  | .num _ => fun t bs _ _ => by rw [roundV.eq_def]; rfl
  | .float true x => fun t bs ha he => by
    rw [roundV.eq_def]; dsimp only
    cases t with
    | float a =>
      rw [accepts.eq_def] at ha; dsimp only at ha
      rw [Bool.and_eq_true] at ha
      rw [encV] at he
      rw [asciiV]
      have : textV (.float true x) = true := rfl
      rw [this]
      refine toSingle_single fun hn => ?_
      rcases encFloat_cases he with ⟨hb, -⟩ | ⟨-, y, hy, -⟩
      · have := ha.1; rw [NumAttrs.single, hb] at this; cases this
      · rw [hn] at hy; cases hy
    | _ => rw [accepts.eq_def] at ha; cases ha
  | .float false _ => fun t bs _ _ => by rw [roundV.eq_def]; rfl
  | .bool _ => fun t bs _ _ => by rw [roundV.eq_def]; rfl
  | .str _ => fun t bs _ _ => by rw [roundV.eq_def]; rfl
  | .buf _ => fun t bs _ _ => by rw [roundV.eq_def]; rfl
  | .list vs => fun t bs ha he => by
    rw [roundV.eq_def]; dsimp only
    cases t with
    | list t =>
      rw [accepts.eq_def] at ha; dsimp only at ha
      rw [encV] at he
      obtain ⟨h, -, he⟩ := bindE he
      obtain ⟨b, hb, -⟩ := bindE he
      rw [asciiV, textV, ascii_roundL env vs t b ha hb]
    | _ => rw [accepts.eq_def] at ha; cases ha
  | .struct fs => fun t bs ha he => by
    rw [roundV.eq_def]; dsimp only
    cases t with
    | struct ds =>
      rw [accepts.eq_def] at ha; dsimp only at ha
      rw [encV] at he
      obtain ⟨tags, -, he⟩ := bindE he
      obtain ⟨n, -, he⟩ := bindE he
      obtain ⟨h, -, he⟩ := bindE he
      obtain ⟨b, hb, -⟩ := bindE he
      rw [asciiV, textV, ascii_roundF env fs ds tags b ha hb]
    | _ => rw [accepts.eq_def] at ha; cases ha
  | .packet cls fs => fun t bs ha he => by
    rw [roundV.eq_def]; dsimp only
    cases t with
    | packet base =>
      rw [accepts.eq_def] at ha; dsimp only at ha
      rw [Bool.and_eq_true] at ha
      rw [encV] at he
      cases hd : env.classDef cls with
      | none => rw [hd] at he; cases he
      | some d =>
        rw [hd] at ha he
        obtain ⟨tags, -, he⟩ := bindE he
        obtain ⟨n, -, he⟩ := bindE he
        obtain ⟨h, -, he⟩ := bindE he
        obtain ⟨b, hb, -⟩ := bindE he
        rw [asciiV, textV, ascii_roundF env fs d.fields tags b ha.2 hb]
    | _ => rw [accepts.eq_def] at ha; cases ha
theorem ascii_roundL (env : Env) : (vs : VList) → ∀ t bs, acceptsL env vs t = true → encL env vs t = .ok bs → asciiL (roundL vs) = textL vs
  | .nil => fun t bs _ _ => by rw [roundL]; rfl
  | .cons v r => fun t bs ha he => by
    rw [acceptsL.eq_def] at ha; dsimp only at ha
    rw [Bool.and_eq_true] at ha
    rw [encL] at he
    obtain ⟨b, hb, he⟩ := bindE he
    obtain ⟨b', hb', -⟩ := bindE he
    rw [roundL, asciiL, textL, ascii_roundV env v t b ha.1 hb, ascii_roundL env r t b' ha.2 hb']
theorem ascii_roundF (env : Env) : (fs : FVals) → ∀ ds tags bs, acceptsF env fs ds = true → encF env fs ds tags = .ok bs → asciiF (roundF fs) = textF fs
  | .nil => fun ds tags bs _ _ => by rw [roundF]; rfl
  | .unset r => fun ds tags bs ha he => by
    rw [roundF]
    cases ds with
    | nil => rw [acceptsF.eq_def] at ha; cases ha
    | cons nm tg opt t ds =>
      rw [acceptsF.eq_def] at ha; dsimp only at ha
      cases tags with
      | nil => rw [encF.eq_def] at he; cases he
      | cons g tags =>
        rw [encF] at he
        rw [asciiF, textF, ascii_roundF env r ds tags bs ha he]
  | .set v r => fun ds tags bs ha he => by
    rw [roundF]
    cases ds with
    | nil => rw [acceptsF.eq_def] at ha; cases ha
    | cons nm tg opt t ds =>
      rw [acceptsF.eq_def] at ha; dsimp only at ha
      rw [Bool.and_eq_true] at ha
      cases tags with
      | nil => rw [encF.eq_def] at he; cases he
      | cons g tags =>
        rw [encF] at he
        obtain ⟨tb, -, he⟩ := bindE he
        obtain ⟨b, hb, he⟩ := bindE he
        obtain ⟨b', hb', -⟩ := bindE he
        rw [asciiF, textF, ascii_roundV env v t b ha.1 (wrapE_ok hb), ascii_roundF env r ds tags b' ha.2 hb']
end

end Verif
