import Verif.Lemmas.Parses
import Verif.Lemmas.Tags
import Verif.Spec.Codec
/-! Whatever the encoder writes, the decoder reads back. -/
namespace Verif

theorem bindE {α β} {e : Except Err α} {f : α → Except Err β} {b : β} (h : (e >>= f) = .ok b) :
    ∃ a, e = .ok a ∧ f a = .ok b := by
  cases e with
  | error e => cases h
  | ok a => exact ⟨a, rfl, h⟩

theorem wrapE_ok {α} {e : Except Err α} {a : α} (h : wrapE e = .ok a) : e = .ok a := by
  cases e with
  | error e => cases h
  | ok a => exact h

theorem parses_unpack {p max n : Nat} {b : Bytes} (hl : b.length = n) (hm : max = 0 ∨ n ≤ max) :
    Parses p (unpack max n) b b := by
  unfold unpack
  rw [if_neg (by omega)]
  have := Parses.read (p := p) (n := n) (k := Dec.ret) (b := b) (bs := []) (a := b) hl .ret
  simpa using this

theorem parses_unpackU {p max n v : Nat} {b : Bytes} (h : packU n (v : Int) = .ok b)
    (hm : max = 0 ∨ n ≤ max) : Parses p (unpackU max n) b v := by
  unfold unpackU
  have := (parses_unpack (p := p) (packU_len h) hm).map (f := beDec)
  rwa [packU_decN h] at this

theorem numWidth_le {a : NumAttrs} {w : Nat} (h : numWidth a = .ok w) : w ≤ 8 := by
  unfold numWidth at h
  simp only at h
  repeat' split at h
  all_goals cases h
  all_goals omega

theorem parses_num {p : Nat} {signed : Bool} {a : NumAttrs} {i : Int} {m w : Nat} {b : Bytes}
    (hw : numWidth a = .ok w) (h : (if signed then packS w i else packU w i) = .ok b)
    (hacc : ((signed || decide (0 ≤ i)) && a.validates i) = true) (hm : m = 0 ∨ 8 ≤ m) :
    Parses p (decNum signed a m) b (.num i) := by
  have h8 := numWidth_le hw
  unfold decNum
  rw [hw]
  dsimp only
  have hl : b.length = w ∧ (if signed then unpackS w b else (beDec b : Int)) = i := by
    cases signed with
    | true => exact packS_ok h
    | false => exact ⟨packU_len h, packU_dec h⟩
  have := (parses_unpack (p := p) (max := m) hl.1 (by omega)).bind
    (f := fun b => if ((signed || decide (0 ≤ (if signed then unpackS w b else (beDec b : Int)))) &&
        a.validates (if signed then unpackS w b else (beDec b : Int))) = true
      then Dec.ret (Val.num (if signed then unpackS w b else (beDec b : Int))) else .fail .value)
    (bs' := []) (b := .num i) (by rw [hl.2, if_pos hacc]; exact .ret)
  simpa using this

def VList.app : VList → VList → VList
  | .nil, w => w
  | .cons v r, w => .cons v (r.app w)

theorem VList.snoc_app : (a : VList) → (v : Val) → (r : VList) → (a.snoc v).app r = a.app (.cons v r)
  | .nil, _, _ => rfl
  | .cons w a, v, r => by simp [VList.snoc, VList.app, VList.snoc_app a v r]

theorem VList.app_nil : (a : VList) → a.app .nil = a
  | .nil => rfl
  | .cons w a => by simp [VList.app, VList.app_nil a]

theorem findIdx?_nodup {l : List Nat} (h : l.Nodup) {i g : Nat} (hi : l[i]? = some g) :
    l.findIdx? (· == g) = some i := by
  induction l generalizing i with
  | nil => simp at hi
  | cons x l ih =>
    cases i with
    | zero => simp at hi; subst hi; simp [List.findIdx?_cons]
    | succ i =>
      simp at hi
      have hx : x ≠ g := by
        intro he; subst he
        have := List.nodup_cons.mp h
        exact this.1 (List.mem_of_getElem? hi)
      rw [List.findIdx?_cons]
      simp [hx, ih (List.nodup_cons.mp h).2 hi]

theorem clean_append {g : Bytes} {len : Nat} {r : Bytes} :
    Clean g (hdr16 len ++ r) ↔ Clean g (hdr16 len) := by
  induction g with
  | nil => simp [Clean]
  | cons x g ih =>
    simp only [Clean, ih]
    rw [show x :: (g ++ (hdr16 len ++ r)) = (x :: (g ++ hdr16 len)) ++ r by simp,
      looksHdr_append (by simp)]

/-- The whole packet, given that its field part decodes. -/
theorem packet_parses {env : Env} (hr : env.Registered) {f : Nat} {base cls : Cls} {d : PDef} {fs : FVals}
    {p m m' : Nat} {tags : List Nat} {n : Nat} {g h hdr body : Bytes}
    (hg : Clean g (hdr ++ (h ++ body)))
    (hcls : env.classDef cls = some d) (hsub : env.isSub cls base = true)
    (htags : processFields d.fields = .ok tags)
    (hh : packU 2 (n : Int) = .ok h)
    (hhdr : encHeader (16 + (1 + (utf8 d.ident).length) + (1 + (utf8 d.version).length)
      + (h.length + body.length)) (utf8 d.ident) (utf8 d.version) = .ok hdr)
    (hm : m = 0 ∨ 8 ≤ m)
    (hbody : ∀ q, Parses q (fieldLoop tags
        (fun i fs m => decNth env (decPacket env f) d.fields i fs m) n d.fields.blank
        (hdr ++ (h ++ body)).length) body ⟨fs, m', false⟩) :
    Parses p (decPacket env (f + 1) base m) (g ++ (hdr ++ (h ++ body))) (.packet cls fs, m') := by
  unfold encHeader at hhdr
  obtain ⟨q1, e1, hhdr⟩ := bindE hhdr
  obtain ⟨q2, e2, hhdr⟩ := bindE hhdr
  obtain ⟨l1, e3, hhdr⟩ := bindE hhdr
  obtain ⟨l2, e4, hhdr⟩ := bindE hhdr
  cases hhdr
  have hl : h.length = 2 := packU_len hh
  have t1 := packU_ok e1
  have t2 := packU_ok e2
  have hL : (q1 ++ (q2 ++ (l1 ++ (utf8 d.ident ++ (l2 ++ utf8 d.version)))) ++ (h ++ body)).length
      = 16 + (1 + (utf8 d.ident).length) + (1 + (utf8 d.version).length) + (h.length + body.length) := by
    simp only [List.length_append, packU_len e1, packU_len e2, packU_len e3, packU_len e4]; omega
  rw [hL] at hbody
  generalize hT : 16 + (1 + (utf8 d.ident).length) + (1 + (utf8 d.version).length)
    + (h.length + body.length) = total at *
  have htot : total < 2 ^ 64 := by
    have h1 := t1.2.1; have h2 : ((256 : Int) ^ 8) = 2 ^ 64 := by decide
    omega
  obtain ⟨ver, hv1, hv2⟩ := hr cls d base hcls hsub
  rw [decPacket]
  refine .tell ?_
  rw [if_neg (by omega)]
  rw [t1.2.2, t2.2.2] at hg ⊢
  simp only [Int.toNat_natCast, List.append_assoc] at hg ⊢
  rw [show ∀ r, beEnc 8 total ++ (beEnc 8 (compl64 total) ++ r) = hdr16 total ++ r by
    intro r; simp [hdr16]] at hg ⊢
  refine .sync htot (clean_append.mp hg) ?_
  unfold packetRest
  refine .bind (parses_unpackU e3 (by omega)) ?_
  refine .bind (parses_unpack rfl (by omega)) ?_
  rw [utf8Dec_utf8]; dsimp only
  refine .bind (parses_unpackU e4 (by omega)) ?_
  refine .bind (parses_unpack rfl (by omega)) ?_
  rw [utf8Dec_utf8]; dsimp only
  rw [hv1]; dsimp only
  rw [hv2]; dsimp only
  rw [hcls]; dsimp only
  rw [if_pos hsub]
  unfold decBody
  rw [htags]; dsimp only
  rw [← List.append_nil (h ++ body)]
  refine .bind (a := ⟨fs, m', false⟩) (.bind (parses_unpackU hh (by omega)) (hbody _)) ?_
  unfold finishPacket
  refine .tell ?_
  simp only [List.length_append, packU_len e3, packU_len e4] at *
  rw [if_neg]
  · exact .ret
  · simp only [ne_eq, Decidable.not_not]
    omega

theorem countSet_unset {r ds name tag opt t n} (h : countSet (.unset r) (.cons name tag opt t ds) = .ok n) :
    countSet r ds = .ok n := by
  rw [countSet] at h
  split at h
  · exact h
  · cases h

theorem countSet_set {v r ds name tag opt t n} (h : countSet (.set v r) (.cons name tag opt t ds) = .ok n) :
    ∃ k, countSet r ds = .ok k ∧ n = k + 1 := by
  rw [countSet] at h
  split at h
  · next k hk => cases h; exact ⟨k, hk, rfl⟩
  · cases h

theorem serLen_packet {env : Env} {cls : Cls} {fs : FVals} {base : Cls} {bs : Bytes}
    (h : encV env (.packet cls fs) (.packet base) = .ok bs) : serLen env (.packet cls fs) = bs.length := by
  unfold serLen serialize
  have : encV env (.packet cls fs) (.packet 0) = encV env (.packet cls fs) (.packet base) := by
    rw [encV, encV]
  rw [this, h]

theorem encFloat_cases {a : NumAttrs} {x : F64} {bs : Bytes} (h : encFloat a x = .ok bs) :
    (a.bits = some 64 ∧ packU 8 (x.toNat : Int) = .ok bs) ∨
      ((a.bits = none ∨ a.bits = some 32) ∧ ∃ y, narrow x = some y ∧ packU 4 (y.toNat : Int) = .ok bs) := by
  have p8 : packU 8 (x.toNat : Int) = .ok (beEnc 8 x.toNat) := by
    have := x.toNat_lt
    rw [packU, if_pos (by omega), Int.toNat_natCast]
  have p4 : ∀ y : F32, packU 4 (y.toNat : Int) = .ok (beEnc 4 y.toNat) := fun y => by
    have := y.toNat_lt
    rw [packU, if_pos (by omega), Int.toNat_natCast]
  unfold encFloat at h
  split at h
  · next hb => cases h; exact .inl ⟨hb, p8⟩
  · next hb =>
    split at h
    · next y hy => cases h; exact .inr ⟨.inl hb, y, hy, p4 y⟩
    · cases h
  · next hb =>
    split at h
    · next y hy => cases h; exact .inr ⟨.inr hb, y, hy, p4 y⟩
    · cases h
  · cases h

theorem decFloat_double {a : NumAttrs} (h : a.bits = some 64) (max : Nat) :
    decFloat a max = (unpackU max 8).bind fun n => setFloat a (UInt64.ofNat n) := by
  unfold decFloat; simp only [h]

theorem decFloat_single {a : NumAttrs} (h : a.bits = none ∨ a.bits = some 32) (max : Nat) :
    decFloat a max = (unpackU max 4).bind fun n => setFloat a (widen (UInt32.ofNat n)) := by
  rcases h with h | h <;> (unfold decFloat; simp only [h])

theorem isSingle_of {x : F64} {y : F32} (hy : narrow x = some y) : isSingle x = true ↔ widen y = x := by
  unfold isSingle
  rw [hy]
  exact beq_iff_eq

theorem parses_float {p m : Nat} {a : NumAttrs} {w : Bool} {x : F64} {bs : Bytes} (he : encFloat a x = .ok bs)
    (ha : (w == a.single && a.validatesFloat x) = true) (has : asciiV (.float w x) = true) (hm : 20 ≤ m) : Parses p (decFloat a m) bs (.float w x) := by
  rw [Bool.and_eq_true] at ha
  have hw : w = a.single := by simpa using ha.1
  have hs : setFloat a x = .ret (.float w x) := by rw [setFloat, if_pos ha.2, hw]
  rw [← List.append_nil bs]
  rcases encFloat_cases he with ⟨hb, hp⟩ | ⟨hb, y, hy, hp⟩
  · rw [decFloat_double hb]
    refine .bind (parses_unpackU hp (by omega)) ?_
    rw [UInt64.ofNat_toNat, hs]
    exact .ret
  · rw [decFloat_single hb]
    refine .bind (parses_unpackU hp (by omega)) ?_
    have hsg : w = true := by rw [hw, NumAttrs.single]; rcases hb with hb | hb <;> rw [hb] <;> rfl
    subst hsg
    rw [asciiV] at has
    rw [UInt32.ofNat_toNat, (isSingle_of hy).mp has, hs]
    exact .ret

/-- The statement of `rt_F` for one list of field values. -/
def RtF (env : Env) (fs : FVals) : Prop := ∀ (ds : FDecls) (tgs : List Nat) (n : Nat)
    (bs : Bytes) (f m m' p : Nat) (T : List Nat) (k : Nat) (F : FVals → FVals)
    (one : Nat → FVals → Nat → Dec (FVals × Nat)) (more : Nat) (tail : Bytes) (R : FRes),
    encF env fs ds tgs = .ok bs → acceptsF env fs ds = true → asciiF fs = true → depthF fs ≤ f →
    countSet fs ds = .ok n →
    limF (serLen env) m fs = some m' → 20 ≤ m →
    (∀ j r mm q cs x, Parses q (decNth env (decPacket env f) ds j r mm) cs x →
      Parses q (one (k + j) (F r) mm) cs (F x.1, x.2)) →
    (∀ (j g : Nat), tgs[j]? = some g → T.findIdx? (· == g) = some (k + j)) →
    (20 ≤ m' → ∀ q, Parses q (fieldLoop T one more (F fs) m') tail R) →
    Parses p (fieldLoop T one (n + more) (F ds.blank) m) (bs ++ tail) R ∧ 20 ≤ m'

theorem packet_of_F {env : Env} (hr : env.Registered) {fs : FVals} (hF : RtF env fs) {base cls : Cls}
    {bs g : Bytes} {f m m' p : Nat}
    (he : encV env (.packet cls fs) (.packet base) = .ok bs)
    (ha : accepts env (.packet cls fs) (.packet base) = true) (has : asciiV (.packet cls fs) = true)
    (hd : depthV (.packet cls fs) ≤ f) (hlim : limV (serLen env) m (.packet cls fs) = some m')
    (hm : m = 0 ∨ 8 ≤ m) (hg : Clean g bs) :
    Parses p (decPacket env f base m) (g ++ bs) (.packet cls fs, m') ∧ 20 ≤ m' := by
  have hsl := serLen_packet he
  rw [encV.eq_def] at he; dsimp only at he
  split at he
  · cases he
  next d hcls =>
  obtain ⟨tags, ht, he⟩ := bindE he
  obtain ⟨n, hn, he⟩ := bindE he
  obtain ⟨h, hh, he⟩ := bindE he
  obtain ⟨body, hb, he⟩ := bindE he
  obtain ⟨hdr, hhdr, he⟩ := bindE he
  cases he
  rw [limV.eq_def] at hlim; dsimp only at hlim
  rw [hsl] at hlim
  rw [accepts.eq_def] at ha; dsimp only at ha
  rw [hcls] at ha
  simp only [Bool.and_eq_true] at ha
  rw [asciiV] at has
  rw [depthV] at hd
  obtain ⟨f, rfl⟩ : ∃ g, f = g + 1 := ⟨f - 1, by omega⟩
  have hs := processFields_spec ht
  have hlen : 20 ≤ (hdr ++ (h ++ body)).length := by
    unfold encHeader at hhdr
    obtain ⟨q1, e1, hhdr⟩ := bindE hhdr
    obtain ⟨q2, e2, hhdr⟩ := bindE hhdr
    obtain ⟨l1, e3, hhdr⟩ := bindE hhdr
    obtain ⟨l2, e4, hhdr⟩ := bindE hhdr
    cases hhdr
    simp only [List.length_append, packU_len e1, packU_len e2, packU_len e3, packU_len e4,
      packU_len hh]
    omega
  have key := fun q => hF d.fields tags n body f _ m' q tags 0 id
    (fun i fs m => decNth env (decPacket env f) d.fields i fs m) 0 [] ⟨fs, m', false⟩
    hb ha.2 has (by omega) hn hlim hlen
    (by intro j r mm q cs x hx; simpa using hx)
    (by intro j g hj; simpa using findIdx?_nodup hs.1 hj) (fun _ _ => .ret)
  refine ⟨packet_parses hr hg hcls ha.1 ht hh hhdr hm (fun q => by simpa using (key q).1), (key 0).2⟩

mutual
theorem rt_V {env : Env} (hr : env.Registered) : (v : Val) → ∀ (t : FType) (bs : Bytes) (f m m' p : Nat),
    encV env v t = .ok bs → accepts env v t = true → asciiV v = true → depthV v ≤ f →
    limV (serLen env) m v = some m' → (20 ≤ m ∨ ∃ base, t = .packet base ∧ m = 0) →
    Parses p (decT env (decPacket env f) t none m) bs (v, m') ∧ 20 ≤ m'
  | .num i => by
    intro t bs f m m' p he ha has hd hlim hm
    cases t with
    | num signed a =>
      rw [encV.eq_def] at he; dsimp only at he
      obtain ⟨w, hw, he⟩ := bindE he
      rw [limV.eq_def] at hlim; cases hlim
      have hm : 20 ≤ m := by
        rcases hm with h | ⟨b, h, _⟩
        · exact h
        · cases h
      rw [accepts.eq_def] at ha
      rw [decT.eq_def]; dsimp only
      exact ⟨(parses_num hw he ha (by omega)).map (f := fun v => (v, m)), hm⟩
    | _ => rw [encV.eq_def] at he; cases he
  | .float w x => by
    intro t bs f m m' p he ha has hd hlim hm
    cases t with
    | float a =>
      rw [encV.eq_def] at he; dsimp only at he
      rw [limV.eq_def] at hlim; cases hlim
      have hm : 20 ≤ m := by
        rcases hm with h | ⟨b, h, _⟩
        · exact h
        · cases h
      rw [accepts.eq_def] at ha
      rw [decT.eq_def]; dsimp only
      exact ⟨(parses_float he ha has hm).map (f := fun v => (v, m)), hm⟩
    | _ => rw [encV.eq_def] at he; cases he
  | .bool b => by
    intro t bs f m m' p he ha has hd hlim hm
    cases t with
    | bool =>
      rw [encV.eq_def] at he; dsimp only at he; cases he
      rw [limV.eq_def] at hlim; cases hlim
      have hm : 20 ≤ m := by
        rcases hm with h | ⟨b, h, _⟩
        · exact h
        · cases h
      rw [decT.eq_def]; dsimp only
      have hp : packU 1 (((if b then 1 else 0 : Nat) : Nat) : Int) = .ok [if b then 1 else 0] := by
        cases b <;> rfl
      have := (parses_unpackU (p := p) (max := m) hp (by omega)).map
        (f := fun n => (Val.bool (n != 0), m))
      refine ⟨?_, hm⟩
      cases b <;> exact this
    | _ => rw [encV.eq_def] at he; cases he
  | .str s => by
    intro t bs f m m' p he ha has hd hlim hm
    cases t with
    | str =>
      have hm : 20 ≤ m := by
        rcases hm with h | ⟨b, h, _⟩
        · exact h
        · cases h
      rw [encV.eq_def] at he; dsimp only at he
      split at he
      · cases he
      obtain ⟨h, hh, he⟩ := bindE he
      cases he
      rw [limV.eq_def] at hlim; dsimp only at hlim
      split at hlim
      · next hle =>
        cases hlim
        rw [decT.eq_def]; dsimp only
        refine ⟨?_, hm⟩
        rw [asciiV] at has
        have hlen := utf8_length_ascii has
        rw [List.take_of_length_le (by omega)]
        refine .bind (parses_unpackU hh (by omega)) ?_
        rw [← List.append_nil (utf8 s)]
        refine .bind (parses_unpack hlen (by omega)) ?_
        rw [utf8Dec_utf8]; exact .ret
      · cases hlim
    | _ => rw [encV.eq_def] at he; cases he
  | .buf b => by
    intro t bs f m m' p he ha has hd hlim hm
    cases t with
    | buf =>
      have hm : 20 ≤ m := by
        rcases hm with h | ⟨b, h, _⟩
        · exact h
        · cases h
      rw [encV.eq_def] at he; dsimp only at he
      split at he
      · cases he
      obtain ⟨h, hh, he⟩ := bindE he
      cases he
      rw [limV.eq_def] at hlim; dsimp only at hlim
      split at hlim
      · next hle =>
        cases hlim
        rw [decT.eq_def]; dsimp only
        refine ⟨?_, hm⟩
        refine .bind (parses_unpackU hh (by omega)) ?_
        exact (parses_unpack (n := b.length) (b := b) rfl (by omega)).map
          (f := fun b => (Val.buf b, m))
      · cases hlim
    | _ => rw [encV.eq_def] at he; cases he
  | .list vs => by
    intro t bs f m m' p he ha has hd hlim hm
    cases t with
    | list t =>
      have hm : 20 ≤ m := by
        rcases hm with h | ⟨b, h, _⟩
        · exact h
        · cases h
      rw [encV.eq_def] at he; dsimp only at he
      obtain ⟨h, hh, he⟩ := bindE he
      obtain ⟨body, hb, he⟩ := bindE he
      cases he
      rw [limV.eq_def] at hlim
      rw [accepts.eq_def] at ha
      rw [asciiV] at has
      rw [depthV] at hd
      have := rt_L hr vs t body f m m' (p + h.length) .nil hb ha has hd hlim hm
      rw [decT.eq_def]; dsimp only
      refine ⟨?_, this.2⟩
      refine .bind (parses_unpackU hh (by omega)) ?_
      exact this.1.map (f := fun r : VList × Nat => (Val.list r.1, r.2))
    | _ => rw [encV.eq_def] at he; cases he
  | .struct fs => by
    intro t bs f m m' p he ha has hd hlim hm
    cases t with
    | struct ds =>
      have hm : 20 ≤ m := by
        rcases hm with h | ⟨b, h, _⟩
        · exact h
        · cases h
      rw [encV.eq_def] at he; dsimp only at he
      obtain ⟨tags, ht, he⟩ := bindE he
      obtain ⟨n, hn, he⟩ := bindE he
      obtain ⟨h, hh, he⟩ := bindE he
      obtain ⟨body, hb, he⟩ := bindE he
      cases he
      rw [limV.eq_def] at hlim
      rw [accepts.eq_def] at ha
      rw [asciiV] at has
      rw [depthV] at hd
      have hs := processFields_spec ht
      have := rt_F hr fs ds tags n body f m m' (p + h.length) tags 0 id
        (fun i fs m => decNth env (decPacket env f) ds i fs m) 0 [] ⟨fs, m', false⟩
        hb ha has hd hn hlim hm
        (by intro j r mm q cs x hx; simpa using hx)
        (by intro j g hj; simpa using findIdx?_nodup hs.1 hj) (fun _ _ => .ret)
      simp only [id, Nat.add_zero, List.append_nil] at this
      rw [decT.eq_def]; dsimp only
      refine ⟨?_, this.2⟩
      unfold decBody
      rw [ht]; dsimp only
      rw [← List.append_nil (h ++ body)]
      refine .bind (a := ⟨fs, m', false⟩) (.bind (parses_unpackU hh (by omega)) this.1) ?_
      exact .ret
    | _ => rw [encV.eq_def] at he; cases he
  | .packet cls fs => by
    intro t bs f m m' p he ha has hd hlim hm
    cases t with
    | packet base =>
      have := packet_of_F hr (rt_F hr fs) (g := []) he ha has hd hlim (by
        rcases hm with h | ⟨_, _, h⟩
        · right; omega
        · left; exact h) trivial (p := p)
      rw [decT.eq_def]
      exact this
    | _ => rw [encV.eq_def] at he; cases he
theorem rt_L {env : Env} (hr : env.Registered) : (vs : VList) → ∀ (t : FType) (bs : Bytes)
    (f m m' p : Nat) (acc : VList),
    encL env vs t = .ok bs → acceptsL env vs t = true → asciiL vs = true → depthL vs ≤ f →
    limL (serLen env) m vs = some m' → 20 ≤ m →
    Parses p (listLoop (fun m => decT env (decPacket env f) t none m) vs.length acc m) bs
      (acc.app vs, m') ∧ 20 ≤ m'
  | .nil => by
    intro t bs f m m' p acc he ha has hd hlim hm
    rw [encL.eq_def] at he; cases he
    rw [limL.eq_def] at hlim; cases hlim
    rw [VList.length, listLoop, VList.app_nil]
    exact ⟨.ret, hm⟩
  | .cons v r => by
    intro t bs f m m' p acc he ha has hd hlim hm
    rw [encL.eq_def] at he; dsimp only at he
    obtain ⟨b, hb, he⟩ := bindE he
    obtain ⟨bs', hbs, he⟩ := bindE he
    cases he
    rw [limL.eq_def] at hlim; dsimp only at hlim
    rw [acceptsL] at ha; simp only [Bool.and_eq_true] at ha
    rw [asciiL] at has; simp only [Bool.and_eq_true] at has
    rw [depthL] at hd
    have hd1 : depthV v ≤ f := Nat.le_trans (Nat.le_max_left _ _) hd
    have hd2 : depthL r ≤ f := Nat.le_trans (Nat.le_max_right _ _) hd
    cases hv : limV (serLen env) m v with
    | none => rw [hv] at hlim; cases hlim
    | some m1 =>
      rw [hv] at hlim
      have h1 := rt_V hr v t b f m m1 p hb ha.1 has.1 hd1 hv (.inl hm)
      have h2 := rt_L hr r t bs' f m1 m' (p + b.length) (acc.snoc v) hbs ha.2 has.2 hd2 hlim h1.2
      rw [VList.length, listLoop]
      rw [VList.snoc_app] at h2
      exact ⟨.bind h1.1.wrap h2.1, h2.2⟩
theorem rt_F {env : Env} (hr : env.Registered) : (fs : FVals) → RtF env fs
  | .nil => by
    intro ds tgs n bs f m m' p T k F one more tail R he ha has hd hn hlim hm H1 H2 H3
    cases ds with
    | cons => rw [encF.eq_def] at he; cases he
    | nil =>
      cases tgs with
      | cons => rw [encF.eq_def] at he; cases he
      | nil =>
        rw [encF.eq_def] at he; cases he
        rw [limF.eq_def] at hlim; cases hlim
        rw [countSet.eq_def] at hn; cases hn
        exact ⟨by rw [FDecls.blank, Nat.zero_add, List.nil_append]; exact H3 hm p, hm⟩
  | .unset r => by
    intro ds tgs n bs f m m' p T k F one more tail R he ha has hd hn hlim hm H1 H2 H3
    cases ds with
    | nil => rw [encF.eq_def] at he; cases he
    | cons name tag opt t ds =>
      cases tgs with
      | nil => rw [encF.eq_def] at he; cases he
      | cons tg tgs =>
        rw [encF.eq_def] at he; dsimp only at he
        rw [acceptsF] at ha
        rw [asciiF] at has
        rw [depthF] at hd
        rw [limF] at hlim
        rw [FDecls.blank]
        refine rt_F hr r ds tgs n bs f m m' p T (k + 1) (fun r => F (.unset r)) one more tail R he ha has hd
          (countSet_unset hn) hlim hm ?_ ?_ H3
        · intro j r mm q cs x hx
          have := H1 (j + 1) (.unset r) mm q cs (.unset x.1, x.2) (by
            rw [decNth.eq_def]
            exact hx.map (f := fun x : FVals × Nat => (FVals.unset x.1, x.2)))
          rwa [show k + 1 + j = k + (j + 1) by omega]
        · intro j g hj
          rw [show k + 1 + j = k + (j + 1) by omega]
          exact H2 (j + 1) g (by simpa using hj)
  | .set v r => by
    intro ds tgs n bs f m m' p T k F one more tail R he ha has hd hn hlim hm H1 H2 H3
    cases ds with
    | nil => rw [encF.eq_def] at he; cases he
    | cons name tag opt t ds =>
      cases tgs with
      | nil => rw [encF.eq_def] at he; cases he
      | cons tg tgs =>
        rw [encF.eq_def] at he; dsimp only at he
        obtain ⟨tb, htb, he⟩ := bindE he
        obtain ⟨b, hb, he⟩ := bindE he
        obtain ⟨bs', hbs, he⟩ := bindE he
        cases he
        have htb := wrapE_ok htb
        have hb := wrapE_ok hb
        rw [acceptsF] at ha; simp only [Bool.and_eq_true] at ha
        rw [asciiF] at has; simp only [Bool.and_eq_true] at has
        rw [depthF] at hd
        have hd1 : depthV v ≤ f := Nat.le_trans (Nat.le_max_left _ _) hd
        have hd2 : depthF r ≤ f := Nat.le_trans (Nat.le_max_right _ _) hd
        rw [limF.eq_def] at hlim; dsimp only at hlim
        obtain ⟨n, hn', rfl⟩ := countSet_set hn
        cases hv : limV (serLen env) m v with
        | none => rw [hv] at hlim; cases hlim
        | some m1 =>
          rw [hv] at hlim
          rw [FDecls.blank]
          have h1 := rt_V hr v t b f m m1 (p + tb.length) hb ha.1 has.1 hd1 hv (.inl hm)
          have h2 := rt_F hr r ds tgs n bs' f m1 m' (p + tb.length + b.length) T (k + 1)
            (fun r => F (.set v r)) one more tail R hbs ha.2 has.2 hd2 hn' hlim h1.2
            (by
              intro j r mm q cs x hx
              have := H1 (j + 1) (.set v r) mm q cs (.set v x.1, x.2) (by
                rw [decNth.eq_def]
                exact hx.map (f := fun x : FVals × Nat => (FVals.set v x.1, x.2)))
              rwa [show k + 1 + j = k + (j + 1) by omega])
            (by
              intro j g hj
              rw [show k + 1 + j = k + (j + 1) by omega]
              exact H2 (j + 1) g (by simpa using hj)) H3
          refine ⟨?_, h2.2⟩
          rw [show n + 1 + more = n + more + 1 by omega, fieldLoop, List.append_assoc, List.append_assoc]
          refine .bind (parses_unpackU htb (by omega)) ?_
          rw [H2 0 tg rfl]; dsimp only
          refine .bind (a := (F (.set v ds.blank), m1)) (Parses.wrap ?_) h2.1
          have := H1 0 (.unset ds.blank) m (p + tb.length) b (.set v ds.blank, m1) (by
            rw [decNth.eq_def]
            exact h1.1.map (f := fun x : Val × Nat => (FVals.set x.1 ds.blank, x.2)))
          exact this
end

/-- A packet read at top level (no limit yet), possibly after garbage. -/
theorem rt_packet {env : Env} (hr : env.Registered) {fs : FVals} {base cls : Cls}
    {bs g : Bytes} {f m' p : Nat}
    (he : encV env (.packet cls fs) (.packet base) = .ok bs)
    (ha : accepts env (.packet cls fs) (.packet base) = true) (has : asciiV (.packet cls fs) = true)
    (hd : depthV (.packet cls fs) ≤ f) (hlim : limV (serLen env) 0 (.packet cls fs) = some m')
    (hg : Clean g bs) :
    Parses p (decPacket env f base 0) (g ++ bs) (.packet cls fs, m') :=
  (packet_of_F hr (rt_F hr fs) he ha has hd hlim (.inl rfl) hg).1

end Verif
