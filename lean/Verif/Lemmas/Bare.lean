import Verif.Lemmas.RoundTrip
import Verif.Spec.Bare
/-! The round trip where no header of a packet was read yet. The proof is that of Lemmas/RoundTrip, whose limit is always that of a packet. -/
namespace Verif

theorem parses_floatU {p m : Nat} {a : NumAttrs} {w : Bool} {x : F64} {bs : Bytes} (he : encFloat a x = .ok bs)
    (ha : (w == a.single && a.validatesFloat x) = true) (has : asciiV (.float w x) = true) (hm : m = 0 ∨ 20 ≤ m) : Parses p (decFloat a m) bs (.float w x) := by
  rw [Bool.and_eq_true] at ha
  have hw : w = a.single := by simpa using ha.1
  have hs : setFloat a x = .ret (.float w x) := by rw [setFloat, if_pos ha.2, hw]
  rw [← List.append_nil bs]
  rcases encFloat_cases he with ⟨hb, hp⟩ | ⟨hb, y, hy, hp⟩
  · rw [decFloat_double hb]
    refine .bind (parses_unpackU hp (by omega)) ?_
    rw [UInt64.ofNat_toNat, hs]
    exact .ret
  · rw [decFloat_single hb]
    refine .bind (parses_unpackU hp (by omega)) ?_
    have hsg : w = true := by rw [hw, NumAttrs.single]; rcases hb with hb | hb <;> rw [hb] <;> rfl
    subst hsg
    rw [asciiV] at has
    rw [UInt32.ofNat_toNat, (isSingle_of hy).mp has, hs]
    exact .ret

/-- The statement of `rtU_F` for one list of field values. -/
def RtFU (env : Env) (fs : FVals) : Prop := ∀ (ds : FDecls) (tgs : List Nat) (n : Nat)
    (bs : Bytes) (f m m' p : Nat) (T : List Nat) (k : Nat) (F : FVals → FVals)
    (one : Nat → FVals → Nat → Dec (FVals × Nat)) (more : Nat) (tail : Bytes) (R : FRes),
    encF env fs ds tgs = .ok bs → acceptsF env fs ds = true → asciiF fs = true → depthF fs ≤ f →
    countSet fs ds = .ok n →
    limUF (serLen env) m fs = some m' → (m = 0 ∨ 20 ≤ m) →
    (∀ j r mm q cs x, Parses q (decNth env (decPacket env f) ds j r mm) cs x →
      Parses q (one (k + j) (F r) mm) cs (F x.1, x.2)) →
    (∀ (j g : Nat), tgs[j]? = some g → T.findIdx? (· == g) = some (k + j)) →
    ((m' = 0 ∨ 20 ≤ m') → ∀ q, Parses q (fieldLoop T one more (F fs) m') tail R) →
    Parses p (fieldLoop T one (n + more) (F ds.blank) m) (bs ++ tail) R ∧ (m' = 0 ∨ 20 ≤ m')

theorem packet_of_FU {env : Env} (hr : env.Registered) {fs : FVals} (hF : RtFU env fs) {base cls : Cls}
    {bs g : Bytes} {f m m' p : Nat}
    (he : encV env (.packet cls fs) (.packet base) = .ok bs)
    (ha : accepts env (.packet cls fs) (.packet base) = true) (has : asciiV (.packet cls fs) = true)
    (hd : depthV (.packet cls fs) ≤ f) (hlim : limUV (serLen env) m (.packet cls fs) = some m')
    (hm : m = 0 ∨ 8 ≤ m) (hg : Clean g bs) :
    Parses p (decPacket env f base m) (g ++ bs) (.packet cls fs, m') ∧ (m' = 0 ∨ 20 ≤ m') := by
  have hsl := serLen_packet he
  rw [encV.eq_def] at he; dsimp only at he
  split at he
  · cases he
  next d hcls =>
  obtain ⟨tags, ht, he⟩ := bindE he
  obtain ⟨n, hn, he⟩ := bindE he
  obtain ⟨h, hh, he⟩ := bindE he
  obtain ⟨body, hb, he⟩ := bindE he
  obtain ⟨hdr, hhdr, he⟩ := bindE he
  cases he
  rw [limUV.eq_def] at hlim; dsimp only at hlim
  rw [hsl] at hlim
  rw [accepts.eq_def] at ha; dsimp only at ha
  rw [hcls] at ha
  simp only [Bool.and_eq_true] at ha
  rw [asciiV] at has
  rw [depthV] at hd
  obtain ⟨f, rfl⟩ : ∃ g, f = g + 1 := ⟨f - 1, by omega⟩
  have hs := processFields_spec ht
  have hlen : 20 ≤ (hdr ++ (h ++ body)).length := by
    unfold encHeader at hhdr
    obtain ⟨q1, e1, hhdr⟩ := bindE hhdr
    obtain ⟨q2, e2, hhdr⟩ := bindE hhdr
    obtain ⟨l1, e3, hhdr⟩ := bindE hhdr
    obtain ⟨l2, e4, hhdr⟩ := bindE hhdr
    cases hhdr
    simp only [List.length_append, packU_len e1, packU_len e2, packU_len e3, packU_len e4,
      packU_len hh]
    omega
  have key := fun q => hF d.fields tags n body f _ m' q tags 0 id
    (fun i fs m => decNth env (decPacket env f) d.fields i fs m) 0 [] ⟨fs, m', false⟩
    hb ha.2 has (by omega) hn hlim (.inr hlen)
    (by intro j r mm q cs x hx; simpa using hx)
    (by intro j g hj; simpa using findIdx?_nodup hs.1 hj) (fun _ _ => .ret)
  refine ⟨packet_parses hr hg hcls ha.1 ht hh hhdr hm (fun q => by simpa using (key q).1), (key 0).2⟩

mutual
theorem rtU_V {env : Env} (hr : env.Registered) : (v : Val) → ∀ (t : FType) (bs : Bytes) (f m m' p : Nat),
    encV env v t = .ok bs → accepts env v t = true → asciiV v = true → depthV v ≤ f →
    limUV (serLen env) m v = some m' → (m = 0 ∨ 20 ≤ m) →
    Parses p (decT env (decPacket env f) t none m) bs (v, m') ∧ (m' = 0 ∨ 20 ≤ m')
  | .num i => by
    intro t bs f m m' p he ha has hd hlim hm
    cases t with
    | num signed a =>
      rw [encV.eq_def] at he; dsimp only at he
      obtain ⟨w, hw, he⟩ := bindE he
      rw [limUV.eq_def] at hlim; cases hlim
      rw [accepts.eq_def] at ha
      rw [decT.eq_def]; dsimp only
      exact ⟨(parses_num hw he ha (by omega)).map (f := fun v => (v, m)), hm⟩
    | _ => rw [encV.eq_def] at he; cases he
  | .float w x => by
    intro t bs f m m' p he ha has hd hlim hm
    cases t with
    | float a =>
      rw [encV.eq_def] at he; dsimp only at he
      rw [limUV.eq_def] at hlim; cases hlim
      rw [accepts.eq_def] at ha
      rw [decT.eq_def]; dsimp only
      exact ⟨(parses_floatU he ha has hm).map (f := fun v => (v, m)), hm⟩
    | _ => rw [encV.eq_def] at he; cases he
  | .bool b => by
    intro t bs f m m' p he ha has hd hlim hm
    cases t with
    | bool =>
      rw [encV.eq_def] at he; dsimp only at he; cases he
      rw [limUV.eq_def] at hlim; cases hlim
      rw [decT.eq_def]; dsimp only
      have hp : packU 1 (((if b then 1 else 0 : Nat) : Nat) : Int) = .ok [if b then 1 else 0] := by
        cases b <;> rfl
      have := (parses_unpackU (p := p) (max := m) hp (by omega)).map
        (f := fun n => (Val.bool (n != 0), m))
      refine ⟨?_, hm⟩
      cases b <;> exact this
    | _ => rw [encV.eq_def] at he; cases he
  | .str s => by
    intro t bs f m m' p he ha has hd hlim hm
    cases t with
    | str =>
      rw [encV.eq_def] at he; dsimp only at he
      split at he
      · cases he
      obtain ⟨h, hh, he⟩ := bindE he
      cases he
      rw [limUV.eq_def] at hlim; dsimp only at hlim
      split at hlim
      · next hle =>
        cases hlim
        rw [decT.eq_def]; dsimp only
        refine ⟨?_, hm⟩
        rw [asciiV] at has
        have hlen := utf8_length_ascii has
        rw [List.take_of_length_le (by omega)]
        refine .bind (parses_unpackU hh (by omega)) ?_
        rw [← List.append_nil (utf8 s)]
        refine .bind (parses_unpack hlen (by omega)) ?_
        rw [utf8Dec_utf8]; exact .ret
      · cases hlim
    | _ => rw [encV.eq_def] at he; cases he
  | .buf b => by
    intro t bs f m m' p he ha has hd hlim hm
    cases t with
    | buf =>
      rw [encV.eq_def] at he; dsimp only at he
      split at he
      · cases he
      obtain ⟨h, hh, he⟩ := bindE he
      cases he
      rw [limUV.eq_def] at hlim; dsimp only at hlim
      split at hlim
      · next hle =>
        cases hlim
        rw [decT.eq_def]; dsimp only
        refine ⟨?_, hm⟩
        refine .bind (parses_unpackU hh (by omega)) ?_
        exact (parses_unpack (n := b.length) (b := b) rfl (by omega)).map
          (f := fun b => (Val.buf b, m))
      · cases hlim
    | _ => rw [encV.eq_def] at he; cases he
  | .list vs => by
    intro t bs f m m' p he ha has hd hlim hm
    cases t with
    | list t =>
      rw [encV.eq_def] at he; dsimp only at he
      obtain ⟨h, hh, he⟩ := bindE he
      obtain ⟨body, hb, he⟩ := bindE he
      cases he
      rw [limUV.eq_def] at hlim
      rw [accepts.eq_def] at ha
      rw [asciiV] at has
      rw [depthV] at hd
      have := rtU_L hr vs t body f m m' (p + h.length) .nil hb ha has hd hlim hm
      rw [decT.eq_def]; dsimp only
      refine ⟨?_, this.2⟩
      refine .bind (parses_unpackU hh (by omega)) ?_
      exact this.1.map (f := fun r : VList × Nat => (Val.list r.1, r.2))
    | _ => rw [encV.eq_def] at he; cases he
  | .struct fs => by
    intro t bs f m m' p he ha has hd hlim hm
    cases t with
    | struct ds =>
      rw [encV.eq_def] at he; dsimp only at he
      obtain ⟨tags, ht, he⟩ := bindE he
      obtain ⟨n, hn, he⟩ := bindE he
      obtain ⟨h, hh, he⟩ := bindE he
      obtain ⟨body, hb, he⟩ := bindE he
      cases he
      rw [limUV.eq_def] at hlim
      rw [accepts.eq_def] at ha
      rw [asciiV] at has
      rw [depthV] at hd
      have hs := processFields_spec ht
      have := rtU_F hr fs ds tags n body f m m' (p + h.length) tags 0 id
        (fun i fs m => decNth env (decPacket env f) ds i fs m) 0 [] ⟨fs, m', false⟩
        hb ha has hd hn hlim hm
        (by intro j r mm q cs x hx; simpa using hx)
        (by intro j g hj; simpa using findIdx?_nodup hs.1 hj) (fun _ _ => .ret)
      simp only [id, Nat.add_zero, List.append_nil] at this
      rw [decT.eq_def]; dsimp only
      refine ⟨?_, this.2⟩
      unfold decBody
      rw [ht]; dsimp only
      rw [← List.append_nil (h ++ body)]
      refine .bind (a := ⟨fs, m', false⟩) (.bind (parses_unpackU hh (by omega)) this.1) ?_
      exact .ret
    | _ => rw [encV.eq_def] at he; cases he
  | .packet cls fs => by
    intro t bs f m m' p he ha has hd hlim hm
    cases t with
    | packet base =>
      have := packet_of_FU hr (rtU_F hr fs) (g := []) he ha has hd hlim (by omega) trivial (p := p)
      rw [decT.eq_def]
      exact this
    | _ => rw [encV.eq_def] at he; cases he
theorem rtU_L {env : Env} (hr : env.Registered) : (vs : VList) → ∀ (t : FType) (bs : Bytes)
    (f m m' p : Nat) (acc : VList),
    encL env vs t = .ok bs → acceptsL env vs t = true → asciiL vs = true → depthL vs ≤ f →
    limUL (serLen env) m vs = some m' → (m = 0 ∨ 20 ≤ m) →
    Parses p (listLoop (fun m => decT env (decPacket env f) t none m) vs.length acc m) bs
      (acc.app vs, m') ∧ (m' = 0 ∨ 20 ≤ m')
  | .nil => by
    intro t bs f m m' p acc he ha has hd hlim hm
    rw [encL.eq_def] at he; cases he
    rw [limUL.eq_def] at hlim; cases hlim
    rw [VList.length, listLoop, VList.app_nil]
    exact ⟨.ret, hm⟩
  | .cons v r => by
    intro t bs f m m' p acc he ha has hd hlim hm
    rw [encL.eq_def] at he; dsimp only at he
    obtain ⟨b, hb, he⟩ := bindE he
    obtain ⟨bs', hbs, he⟩ := bindE he
    cases he
    rw [limUL.eq_def] at hlim; dsimp only at hlim
    rw [acceptsL] at ha; simp only [Bool.and_eq_true] at ha
    rw [asciiL] at has; simp only [Bool.and_eq_true] at has
    rw [depthL] at hd
    have hd1 : depthV v ≤ f := Nat.le_trans (Nat.le_max_left _ _) hd
    have hd2 : depthL r ≤ f := Nat.le_trans (Nat.le_max_right _ _) hd
    cases hv : limUV (serLen env) m v with
    | none => rw [hv] at hlim; cases hlim
    | some m1 =>
      rw [hv] at hlim
      have h1 := rtU_V hr v t b f m m1 p hb ha.1 has.1 hd1 hv hm
      have h2 := rtU_L hr r t bs' f m1 m' (p + b.length) (acc.snoc v) hbs ha.2 has.2 hd2 hlim h1.2
      rw [VList.length, listLoop]
      rw [VList.snoc_app] at h2
      exact ⟨.bind h1.1.wrap h2.1, h2.2⟩
theorem rtU_F {env : Env} (hr : env.Registered) : (fs : FVals) → RtFU env fs
  | .nil => by
    intro ds tgs n bs f m m' p T k F one more tail R he ha has hd hn hlim hm H1 H2 H3
    cases ds with
    | cons => rw [encF.eq_def] at he; cases he
    | nil =>
      cases tgs with
      | cons => rw [encF.eq_def] at he; cases he
      | nil =>
        rw [encF.eq_def] at he; cases he
        rw [limUF.eq_def] at hlim; cases hlim
        rw [countSet.eq_def] at hn; cases hn
        exact ⟨by rw [FDecls.blank, Nat.zero_add, List.nil_append]; exact H3 hm p, hm⟩
  | .unset r => by
    intro ds tgs n bs f m m' p T k F one more tail R he ha has hd hn hlim hm H1 H2 H3
    cases ds with
    | nil => rw [encF.eq_def] at he; cases he
    | cons name tag opt t ds =>
      cases tgs with
      | nil => rw [encF.eq_def] at he; cases he
      | cons tg tgs =>
        rw [encF.eq_def] at he; dsimp only at he
        rw [acceptsF] at ha
        rw [asciiF] at has
        rw [depthF] at hd
        rw [limUF] at hlim
        rw [FDecls.blank]
        refine rtU_F hr r ds tgs n bs f m m' p T (k + 1) (fun r => F (.unset r)) one more tail R he ha has hd
          (countSet_unset hn) hlim hm ?_ ?_ H3
        · intro j r mm q cs x hx
          have := H1 (j + 1) (.unset r) mm q cs (.unset x.1, x.2) (by
            rw [decNth.eq_def]
            exact hx.map (f := fun x : FVals × Nat => (FVals.unset x.1, x.2)))
          rwa [show k + 1 + j = k + (j + 1) by omega]
        · intro j g hj
          rw [show k + 1 + j = k + (j + 1) by omega]
          exact H2 (j + 1) g (by simpa using hj)
  | .set v r => by
    intro ds tgs n bs f m m' p T k F one more tail R he ha has hd hn hlim hm H1 H2 H3
    cases ds with
    | nil => rw [encF.eq_def] at he; cases he
    | cons name tag opt t ds =>
      cases tgs with
      | nil => rw [encF.eq_def] at he; cases he
      | cons tg tgs =>
        rw [encF.eq_def] at he; dsimp only at he
        obtain ⟨tb, htb, he⟩ := bindE he
        obtain ⟨b, hb, he⟩ := bindE he
        obtain ⟨bs', hbs, he⟩ := bindE he
        cases he
        have htb := wrapE_ok htb
        have hb := wrapE_ok hb
        rw [acceptsF] at ha; simp only [Bool.and_eq_true] at ha
        rw [asciiF] at has; simp only [Bool.and_eq_true] at has
        rw [depthF] at hd
        have hd1 : depthV v ≤ f := Nat.le_trans (Nat.le_max_left _ _) hd
        have hd2 : depthF r ≤ f := Nat.le_trans (Nat.le_max_right _ _) hd
        rw [limUF.eq_def] at hlim; dsimp only at hlim
        obtain ⟨n, hn', rfl⟩ := countSet_set hn
        cases hv : limUV (serLen env) m v with
        | none => rw [hv] at hlim; cases hlim
        | some m1 =>
          rw [hv] at hlim
          rw [FDecls.blank]
          have h1 := rtU_V hr v t b f m m1 (p + tb.length) hb ha.1 has.1 hd1 hv hm
          have h2 := rtU_F hr r ds tgs n bs' f m1 m' (p + tb.length + b.length) T (k + 1)
            (fun r => F (.set v r)) one more tail R hbs ha.2 has.2 hd2 hn' hlim h1.2
            (by
              intro j r mm q cs x hx
              have := H1 (j + 1) (.set v r) mm q cs (.set v x.1, x.2) (by
                rw [decNth.eq_def]
                exact hx.map (f := fun x : FVals × Nat => (FVals.set v x.1, x.2)))
              rwa [show k + 1 + j = k + (j + 1) by omega])
            (by
              intro j g hj
              rw [show k + 1 + j = k + (j + 1) by omega]
              exact H2 (j + 1) g (by simpa using hj)) H3
          refine ⟨?_, h2.2⟩
          rw [show n + 1 + more = n + more + 1 by omega, fieldLoop, List.append_assoc, List.append_assoc]
          refine .bind (parses_unpackU htb (by omega)) ?_
          rw [H2 0 tg rfl]; dsimp only
          refine .bind (a := (F (.set v ds.blank), m1)) (Parses.wrap ?_) h2.1
          have := H1 0 (.unset ds.blank) m (p + tb.length) b (.set v ds.blank, m1) (by
            rw [decNth.eq_def]
            exact h1.1.map (f := fun x : Val × Nat => (FVals.set x.1 ds.blank, x.2)))
          exact this
end


end Verif
