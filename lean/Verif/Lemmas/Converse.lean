import Verif.Lemmas.Stream
/-! The converse of the round trip: a packet that is decoded back to itself satisfies the conditions
of `Carried`. -/
namespace Verif

/-- On the bytes `bs` (whatever follows) the program raises. -/
inductive Fails {α : Type} : Nat → Dec α → Bytes → Prop where
  | fail {p e bs} : Fails p (.fail e) bs
  | read {p n k b bs} : b.length = n → Fails (p + n) (k b) bs → Fails p (.read n k) (b ++ bs)
  | tell {p k bs} : Fails p (k p) bs → Fails p (.tell k) bs
  | sync {p k len bs} : len < 2 ^ 64 → Fails (p + 16) (k len p) bs →
      Fails p (.sync p none k) (hdr16 len ++ bs)

theorem Fails.bind {α β} {d : Dec α} {f : α → Dec β} {p bs} (h : Fails p d bs) (bs' : Bytes) :
    Fails p (d.bind f) (bs ++ bs') := by
  induction h with
  | fail => exact .fail
  | read hl _ ih => rw [Dec.bind, List.append_assoc]; exact .read hl ih
  | tell _ ih => rw [Dec.bind]; exact .tell ih
  | sync hl _ ih => rw [Dec.bind, List.append_assoc]; exact .sync hl ih

theorem Fails.map {α β} {d : Dec α} {f : α → Dec β} {p bs} (h : Fails p d bs) :
    Fails p (d.bind f) bs := by
  have := h.bind (f := f) []
  simpa using this

theorem Fails.wrap {α} {d : Dec α} {p bs} (h : Fails p d bs) : Fails p d.wrap bs := by
  induction h with
  | fail => exact .fail
  | read hl _ ih => exact .read hl ih
  | tell _ ih => exact .tell ih
  | sync hl _ ih => exact .sync hl ih

/-- Like `Parses`, without garbage. -/
inductive Parses0 {α : Type} : Nat → Dec α → Bytes → α → Prop where
  | ret {p a} : Parses0 p (.ret a) [] a
  | read {p n k b bs a} : b.length = n → Parses0 (p + n) (k b) bs a → Parses0 p (.read n k) (b ++ bs) a
  | tell {p k bs a} : Parses0 p (k p) bs a → Parses0 p (.tell k) bs a
  | sync {p k len bs a} : len < 2 ^ 64 → Parses0 (p + 16) (k len p) bs a →
      Parses0 p (.sync p none k) (hdr16 len ++ bs) a

theorem Parses0.parses {α} {d : Dec α} {p bs a} (h : Parses0 p d bs a) : Parses p d bs a := by
  induction h with
  | ret => exact .ret
  | read hl _ ih => exact .read hl ih
  | tell _ ih => exact .tell ih
  | sync hl _ ih => exact Parses.sync (g := []) hl trivial ih

theorem Parses0.bind {α β} {d : Dec α} {f : α → Dec β} {p bs bs' a b}
    (h : Parses0 p d bs a) (h' : Parses0 (p + bs.length) (f a) bs' b) :
    Parses0 p (d.bind f) (bs ++ bs') b := by
  induction h with
  | ret => simpa [Dec.bind] using h'
  | @read p n k b0 bs0 a hl _ ih =>
    rw [Dec.bind, List.append_assoc]
    refine .read hl (ih ?_)
    rw [List.length_append, hl] at h'
    rwa [Nat.add_assoc]
  | tell _ ih => rw [Dec.bind]; exact .tell (ih h')
  | @sync p k len bs0 a hl _ ih =>
    rw [Dec.bind, List.append_assoc]
    refine .sync hl (ih ?_)
    simp only [List.length_append, hdr16_length] at h'
    rwa [show p + 16 + bs0.length = p + (16 + bs0.length) by omega]

theorem Parses0.bind_fails {α β} {d : Dec α} {f : α → Dec β} {p bs bs' a}
    (h : Parses0 p d bs a) (h' : Fails (p + bs.length) (f a) bs') :
    Fails p (d.bind f) (bs ++ bs') := by
  induction h with
  | ret => simpa [Dec.bind] using h'
  | @read p n k b0 bs0 a hl _ ih =>
    rw [Dec.bind, List.append_assoc]
    refine .read hl (ih ?_)
    rw [List.length_append, hl] at h'
    rwa [Nat.add_assoc]
  | tell _ ih => rw [Dec.bind]; exact .tell (ih h')
  | @sync p k len bs0 a hl _ ih =>
    rw [Dec.bind, List.append_assoc]
    refine .sync hl (ih ?_)
    simp only [List.length_append, hdr16_length] at h'
    rwa [show p + 16 + bs0.length = p + (16 + bs0.length) by omega]

theorem Parses0.wrap {α} {d : Dec α} {p bs a} (h : Parses0 p d bs a) : Parses0 p d.wrap bs a := by
  induction h with
  | ret => exact .ret
  | read hl _ ih => exact .read hl ih
  | tell _ ih => exact .tell ih
  | sync hl _ ih => exact .sync hl ih

theorem Parses0.map {α β} {d : Dec α} {f : α → β} {p bs a} (h : Parses0 p d bs a) :
    Parses0 p (d.bind fun x => .ret (f x)) bs (f a) := by
  have := h.bind (f := fun x => Dec.ret (f x)) (bs' := []) .ret
  simpa using this

theorem Fails.run {α} {d : Dec α} {p bs} (h : Fails p d bs) :
    ∀ (pre post : Bytes), pre.length = p →
      ∃ e q, d.run (pre ++ (bs ++ post)) p = (.error e, q) := by
  induction h with
  | fail => intro pre post hp; exact ⟨_, _, rfl⟩
  | @read p n k b0 bs0 hl _ ih =>
    intro pre post hp
    rw [Dec.run, if_neg (by simp; omega)]
    rw [show pre ++ (b0 ++ bs0 ++ post) = pre ++ (b0 ++ (bs0 ++ post)) by simp]
    rw [window_at hp.symm hl.symm]
    have := ih (pre ++ b0) post (by simp [hp, hl])
    rwa [show pre ++ (b0 ++ (bs0 ++ post)) = pre ++ b0 ++ (bs0 ++ post) by simp]
  | tell _ ih => intro pre post hp; rw [Dec.run]; exact ih pre post hp
  | @sync p k len bs0 hl _ ih =>
    intro pre post hp
    rw [Dec.run, scan]
    have := ih (pre ++ hdr16 len) post (by simp [hp])
    rcases scanFrom_spec hl (bs := bs0 ++ post) [] pre (hdr16 len ++ (bs0 ++ post)) []
      ((pre ++ (hdr16 len ++ bs0 ++ post)).length + 1) (by simp) trivial (by simp; omega) with
      ⟨h, h1, h2, h3⟩ | ⟨u, g', h, h1, h2, h3, h4⟩ | ⟨u, g', qb, h, h1, h2, h3, h4, h5⟩
    · simp only [List.append_assoc] at h3 this ⊢
      subst hp
      rw [h3]; simp only [List.length_nil, Nat.add_zero]
      exact this
    · have := congrArg List.length h1
      have := congrArg List.length h2
      simp at *; omega
    · have := congrArg List.length h1
      have := congrArg List.length h2
      simp at *; omega

theorem parses0_unpack {p max n : Nat} {b : Bytes} (hl : b.length = n) (hm : max = 0 ∨ n ≤ max) :
    Parses0 p (unpack max n) b b := by
  unfold unpack
  rw [if_neg (by omega)]
  have := Parses0.read (p := p) (n := n) (k := Dec.ret) (b := b) (bs := []) (a := b) hl .ret
  simpa using this

theorem parses0_unpackU {p max n v : Nat} {b : Bytes} (h : packU n (v : Int) = .ok b)
    (hm : max = 0 ∨ n ≤ max) : Parses0 p (unpackU max n) b v := by
  unfold unpackU
  have := (parses0_unpack (p := p) (packU_len h) hm).map (f := beDec)
  rwa [packU_decN h] at this

theorem parses0_num {p : Nat} {signed : Bool} {a : NumAttrs} {i : Int} {m w : Nat} {b : Bytes}
    (hw : numWidth a = .ok w) (h : (if signed then packS w i else packU w i) = .ok b)
    (hacc : ((signed || decide (0 ≤ i)) && a.validates i) = true) (hm : m = 0 ∨ 8 ≤ m) :
    Parses0 p (decNum signed a m) b (.num i) := by
  have h8 := numWidth_le hw
  unfold decNum
  rw [hw]
  dsimp only
  have hl : b.length = w ∧ (if signed then unpackS w b else (beDec b : Int)) = i := by
    cases signed with
    | true => exact packS_ok h
    | false => exact ⟨packU_len h, packU_dec h⟩
  have := (parses0_unpack (p := p) (max := m) hl.1 (by omega)).bind
    (f := fun b => if ((signed || decide (0 ≤ (if signed then unpackS w b else (beDec b : Int)))) &&
        a.validates (if signed then unpackS w b else (beDec b : Int))) = true
      then Dec.ret (Val.num (if signed then unpackS w b else (beDec b : Int))) else .fail .value)
    (bs' := []) (b := .num i) (by rw [hl.2, if_pos hacc]; exact .ret)
  simpa using this

/-- What may come out when the value `v` is decoded: an error, or a value that equals `v` only if
`cond` holds (`cond` also fixes the limit afterwards). -/
def Outcome {β : Type} (p : Nat) (d : Dec β) (bs : Bytes) (res : β → Prop) : Prop :=
  Fails p d bs ∨ ∃ r, Parses0 p d bs r ∧ res r

theorem Outcome.bind {α β} {p : Nat} {d : Dec α} {f : α → Dec β} {bs bs' : Bytes} {res : α → Prop}
    {res' : β → Prop} (h : Outcome p d bs res)
    (h' : ∀ r, res r → Outcome (p + bs.length) (f r) bs' res') :
    Outcome p (d.bind f) (bs ++ bs') res' := by
  rcases h with h | ⟨r, h1, h2⟩
  · exact .inl (h.bind _)
  · rcases h' r h2 with h3 | ⟨r', h3, h4⟩
    · exact .inl (h1.bind_fails h3)
    · exact .inr ⟨r', h1.bind h3, h4⟩

theorem Outcome.wrap {α} {p : Nat} {d : Dec α} {bs : Bytes} {res : α → Prop} (h : Outcome p d bs res) :
    Outcome p d.wrap bs res := by
  rcases h with h | ⟨r, h1, h2⟩
  · exact .inl h.wrap
  · exact .inr ⟨r, h1.wrap, h2⟩

theorem Outcome.map {α β} {p : Nat} {d : Dec α} {f : α → β} {bs : Bytes} {res : α → Prop}
    {res' : β → Prop} (h : Outcome p d bs res) (h' : ∀ r, res r → res' (f r)) :
    Outcome p (d.bind fun x => .ret (f x)) bs res' := by
  rcases h with h | ⟨r, h1, h2⟩
  · exact .inl h.map
  · exact .inr ⟨f r, h1.map, h' r h2⟩

theorem Outcome.of_parses {α} {p : Nat} {d : Dec α} {bs : Bytes} {a : α} (h : Parses0 p d bs a) :
    Outcome p d bs (· = a) := .inr ⟨a, h, rfl⟩

theorem Outcome.mono {α} {p : Nat} {d : Dec α} {bs : Bytes} {res res' : α → Prop}
    (h : Outcome p d bs res) (h' : ∀ r, res r → res' r) : Outcome p d bs res' := by
  rcases h with h | ⟨r, h1, h2⟩
  · exact .inl h
  · exact .inr ⟨r, h1, h' r h2⟩

def OkV (env : Env) (v : Val) (f m : Nat) (r : Val × Nat) : Prop :=
  20 ≤ r.2 ∧ (r.1 = v → asciiV v = true ∧ depthV v ≤ f ∧ limV (serLen env) m v = some r.2)
def OkL (env : Env) (v : VList) (f m : Nat) (r : VList × Nat) : Prop :=
  20 ≤ r.2 ∧ (r.1 = v → asciiL v = true ∧ depthL v ≤ f ∧ limL (serLen env) m v = some r.2)
def OkF (env : Env) (v : FVals) (f m : Nat) (r : FVals × Nat) : Prop :=
  20 ≤ r.2 ∧ (r.1 = v → asciiF v = true ∧ depthF v ≤ f ∧ limF (serLen env) m v = some r.2)

def CvF (env : Env) (fs : FVals) : Prop := ∀ (ds : FDecls) (tgs : List Nat) (n : Nat)
    (bs : Bytes) (f m p : Nat) (T : List Nat) (k : Nat) (F : FVals → FVals)
    (one : Nat → FVals → Nat → Dec (FVals × Nat)),
    encF env fs ds tgs = .ok bs → acceptsF env fs ds = true →
    countSet fs ds = .ok n → 20 ≤ m →
    (∀ j r mm q cs res, Outcome q (decNth env (decPacket env f) ds j r mm) cs res →
      Outcome q (one (k + j) (F r) mm) cs (fun x => ∃ y, res y ∧ x = (F y.1, y.2))) →
    (∀ (j g : Nat), tgs[j]? = some g → T.findIdx? (· == g) = some (k + j)) →
    Outcome p (fieldLoop T one n (F ds.blank) m) bs
      (fun x => ∃ fs' m', OkF env fs f m (fs', m') ∧ x = ⟨F fs', m', false⟩)

theorem cv_packet {env : Env} (hr : env.Registered) {fs : FVals} (hF : CvF env fs) {base cls : Cls}
    {bs : Bytes} {f m p : Nat}
    (he : encV env (.packet cls fs) (.packet base) = .ok bs)
    (ha : accepts env (.packet cls fs) (.packet base) = true)
    (hm : m = 0 ∨ 8 ≤ m) :
    Outcome p (decPacket env f base m) bs (OkV env (.packet cls fs) f m) := by
  cases f with
  | zero => exact .inl .fail
  | succ f =>
    have hsl := serLen_packet he
    have h20 := (encPacket_len he).1
    obtain ⟨d, tags, n, h, body, hdr, hcls, ht, hn, hh, hb, hhdr, rfl⟩ := encPacket_inv he
    rw [accepts.eq_def] at ha; dsimp only at ha
    rw [hcls] at ha
    simp only [Bool.and_eq_true] at ha
    have hs := processFields_spec ht
    have hl := packU_len hh
    obtain ⟨ver, hv1, hv2⟩ := hr cls d base hcls ha.1
    have key := fun q => hF d.fields tags n body f (hdr ++ (h ++ body)).length q tags 0 id
      (fun i fs m => decNth env (decPacket env f) d.fields i fs m) hb ha.2 hn h20
      (by
        intro j r mm q cs res hx
        simp only [Nat.zero_add, id]
        exact hx.mono (fun r hr => ⟨r, hr, rfl⟩))
      (by intro j g hj; simpa using findIdx?_nodup hs.1 hj)
    unfold encHeader at hhdr
    obtain ⟨q1, e1, hhdr⟩ := bindE hhdr
    obtain ⟨q2, e2, hhdr⟩ := bindE hhdr
    obtain ⟨l1, e3, hhdr⟩ := bindE hhdr
    obtain ⟨l2, e4, hhdr⟩ := bindE hhdr
    cases hhdr
    have t1 := packU_ok e1
    have t2 := packU_ok e2
    have hL : (q1 ++ (q2 ++ (l1 ++ (utf8 d.ident ++ (l2 ++ utf8 d.version)))) ++ (h ++ body)).length
        = 16 + (1 + (utf8 d.ident).length) + (1 + (utf8 d.version).length) + (h.length + body.length) := by
      simp only [List.length_append, packU_len e1, packU_len e2, packU_len e3, packU_len e4]; omega
    rw [hL] at key hsl
    generalize hT : 16 + (1 + (utf8 d.ident).length) + (1 + (utf8 d.version).length)
      + (h.length + body.length) = total at *
    have htot : total < 2 ^ 64 := by
      have h1 := t1.2.1; have h2 : ((256 : Int) ^ 8) = 2 ^ 64 := by decide
      omega
    rw [decPacket]
    have hrest : Outcome (p + 16) (packetRest env
          (fun d m => decBody d.fields
            (fun i fs m => decNth env (decPacket env f) d.fields i fs m) d.fields.blank m)
          base total p) (l1 ++ (utf8 d.ident ++ (l2 ++ (utf8 d.version ++ (h ++ body)))))
          (OkV env (.packet cls fs) (f + 1) m) := by
      unfold packetRest
      refine (Outcome.of_parses (parses0_unpackU e3 (by omega))).bind ?_
      rintro _ rfl
      refine (Outcome.of_parses (parses0_unpack rfl (by omega))).bind ?_
      rintro _ rfl
      rw [utf8Dec_utf8]; dsimp only
      refine (Outcome.of_parses (parses0_unpackU e4 (by omega))).bind ?_
      rintro _ rfl
      refine (Outcome.of_parses (parses0_unpack rfl (by omega))).bind ?_
      rintro _ rfl
      rw [utf8Dec_utf8]; dsimp only
      rw [hv1]; dsimp only
      rw [hv2]; dsimp only
      rw [hcls]; dsimp only
      rw [if_pos ha.1]
      unfold decBody
      rw [ht]; dsimp only
      rw [← List.append_nil (h ++ body)]
      refine ((Outcome.of_parses (parses0_unpackU hh (by omega))).bind (bs' := body)
        (res' := fun x => ∃ fs' m', OkF env fs f total (fs', m') ∧ x = ⟨fs', m', false⟩) ?_).bind ?_
      · rintro _ rfl
        exact key _
      · rintro _ ⟨fs', m', hok, rfl⟩
        unfold finishPacket
        right
        refine ⟨(.packet cls fs', m'), .tell ?_, ?_⟩
        · simp only [List.length_append, packU_len e3, packU_len e4] at *
          rw [if_neg]
          · exact .ret
          · simp only [ne_eq, Decidable.not_not]
            omega
        · refine ⟨hok.1, ?_⟩
          intro heq
          simp only [Val.packet.injEq, true_and] at heq
          obtain ⟨x1, x2, x3⟩ := hok.2 heq
          refine ⟨by rw [asciiV]; exact x1, by rw [depthV]; omega, ?_⟩
          rw [limV.eq_def]; dsimp only
          rw [hsl]; exact x3
    rw [t1.2.2, t2.2.2]
    simp only [Int.toNat_natCast, List.append_assoc]
    rw [show ∀ r, beEnc 8 total ++ (beEnc 8 (compl64 total) ++ r) = hdr16 total ++ r by
      intro r; simp [hdr16]]
    rcases hrest with hf | ⟨r, h1, h2⟩
    · left
      refine .tell ?_
      rw [if_neg (by omega)]
      exact .sync htot hf
    · right
      refine ⟨r, .tell ?_, h2⟩
      rw [if_neg (by omega)]
      exact .sync htot h1

theorem cv_float {env : Env} {p m f : Nat} {a : NumAttrs} {w : Bool} {x : F64} {bs : Bytes} (he : encFloat a x = .ok bs)
    (ha : (w == a.single && a.validatesFloat x) = true) (hm : 20 ≤ m) :
    Outcome p (decFloat a m) bs fun v => v = .float w x → asciiV (.float w x) = true := by
  rw [Bool.and_eq_true] at ha
  have hw : w = a.single := by simpa using ha.1
  rw [← List.append_nil bs]
  rcases encFloat_cases he with ⟨hb, hp⟩ | ⟨hb, y, hy, hp⟩
  · rw [decFloat_double hb]
    refine (Outcome.of_parses (parses0_unpackU hp (by omega))).bind ?_
    rintro _ rfl
    rw [UInt64.ofNat_toNat, setFloat, if_pos ha.2]
    refine .inr ⟨_, .ret, fun _ => ?_⟩
    have hsg : w = false := by rw [hw, NumAttrs.single, hb]; rfl
    subst hsg
    rfl
  · rw [decFloat_single hb]
    refine (Outcome.of_parses (parses0_unpackU hp (by omega))).bind ?_
    rintro _ rfl
    rw [UInt32.ofNat_toNat, setFloat]
    split
    · refine .inr ⟨_, .ret, fun h => ?_⟩
      have hsg : w = true := by rw [hw, NumAttrs.single]; rcases hb with hb | hb <;> rw [hb] <;> rfl
      subst hsg
      rw [asciiV, isSingle_of hy]
      simp only [Val.float.injEq] at h
      exact h.2
    · exact .inl .fail

mutual
theorem cv_V {env : Env} (hr : env.Registered) : (v : Val) → ∀ (t : FType) (bs : Bytes) (f m p : Nat),
    encV env v t = .ok bs → accepts env v t = true → 20 ≤ m →
    Outcome p (decT env (decPacket env f) t none m) bs (OkV env v f m)
  | .num i => by
    intro t bs f m p he ha hm
    cases t with
    | num signed a =>
      rw [encV.eq_def] at he; dsimp only at he
      obtain ⟨w, hw, he⟩ := bindE he
      rw [accepts.eq_def] at ha
      rw [decT.eq_def]; dsimp only
      refine (Outcome.of_parses (parses0_num hw he ha (by omega))).map ?_
      rintro _ rfl
      exact ⟨hm, fun _ => ⟨rfl, Nat.zero_le _, rfl⟩⟩
    | _ => rw [encV.eq_def] at he; cases he
  | .float w x => by
    intro t bs f m p he ha hm
    cases t with
    | float a =>
      rw [encV.eq_def] at he; dsimp only at he
      rw [accepts.eq_def] at ha
      rw [decT.eq_def]; dsimp only
      refine (cv_float (env := env) (f := f) he ha hm).map ?_
      intro v hv
      exact ⟨hm, fun h => ⟨hv h, Nat.zero_le _, rfl⟩⟩
    | _ => rw [encV.eq_def] at he; cases he
  | .bool b => by
    intro t bs f m p he ha hm
    cases t with
    | bool =>
      rw [encV.eq_def] at he; dsimp only at he; cases he
      rw [decT.eq_def]; dsimp only
      have hp : packU 1 (((if b then 1 else 0 : Nat) : Nat) : Int) = .ok [if b then 1 else 0] := by
        cases b <;> rfl
      refine (Outcome.of_parses (parses0_unpackU hp (by omega))).map ?_
      rintro _ rfl
      exact ⟨hm, fun _ => ⟨rfl, Nat.zero_le _, rfl⟩⟩
    | _ => rw [encV.eq_def] at he; cases he
  | .str s => by
    intro t bs f m p he ha hm
    cases t with
    | str =>
      rw [encV.eq_def] at he; dsimp only at he
      split at he
      · cases he
      obtain ⟨h, hh, he⟩ := bindE he
      cases he
      rw [decT.eq_def]; dsimp only
      refine (Outcome.of_parses (parses0_unpackU hh (by omega))).bind ?_
      rintro _ rfl
      have hlen : ((utf8 s).take s.length).length = s.length := by
        have := length_le_utf8 s
        simp; omega
      by_cases hle : s.length ≤ m
      · rw [← List.append_nil ((utf8 s).take s.length)]
        refine (Outcome.of_parses (parses0_unpack hlen (by omega))).bind ?_
        rintro _ rfl
        cases hd : utf8Dec ((utf8 s).take s.length) with
        | none => exact .inl .fail
        | some s' =>
          right
          refine ⟨_, .ret, hm, ?_⟩
          intro heq
          simp only [Val.str.injEq] at heq
          subst heq
          have hu := utf8_of_dec _ _ hd
          refine ⟨?_, Nat.zero_le _, by rw [limV.eq_def]; dsimp only; rw [if_pos hle]⟩
          rw [asciiV]
          cases hasc : isAscii s' with
          | true => rfl
          | false =>
            have := utf8_length_not_ascii hasc
            rw [hu, hlen] at this; omega
      · left
        refine Fails.map ?_
        unfold unpack
        rw [if_pos (by omega)]; exact .fail
    | _ => rw [encV.eq_def] at he; cases he
  | .buf b => by
    intro t bs f m p he ha hm
    cases t with
    | buf =>
      rw [encV.eq_def] at he; dsimp only at he
      split at he
      · cases he
      obtain ⟨h, hh, he⟩ := bindE he
      cases he
      rw [decT.eq_def]; dsimp only
      refine (Outcome.of_parses (parses0_unpackU hh (by omega))).bind ?_
      rintro _ rfl
      by_cases hle : b.length ≤ m
      · refine (Outcome.of_parses (parses0_unpack rfl (by omega))).map ?_
        rintro _ rfl
        exact ⟨hm, fun _ => ⟨rfl, Nat.zero_le _, by rw [limV.eq_def]; dsimp only; rw [if_pos hle]⟩⟩
      · left
        refine Fails.map ?_
        unfold unpack
        rw [if_pos (by omega)]; exact .fail
    | _ => rw [encV.eq_def] at he; cases he
  | .list vs => by
    intro t bs f m p he ha hm
    cases t with
    | list t =>
      rw [encV.eq_def] at he; dsimp only at he
      obtain ⟨h, hh, he⟩ := bindE he
      obtain ⟨body, hb, he⟩ := bindE he
      cases he
      rw [accepts.eq_def] at ha
      rw [decT.eq_def]; dsimp only
      refine (Outcome.of_parses (parses0_unpackU hh (by omega))).bind ?_
      rintro _ rfl
      refine (cv_L hr vs t body f m _ .nil hb ha hm).map ?_
      rintro r ⟨r', hok, rfl⟩
      refine ⟨hok.1, ?_⟩
      intro heq
      simp only [Val.list.injEq] at heq
      obtain ⟨x1, x2, x3⟩ := hok.2 heq
      exact ⟨by rw [asciiV]; exact x1, by rw [depthV]; exact x2, by rw [limV.eq_def]; exact x3⟩
    | _ => rw [encV.eq_def] at he; cases he
  | .struct fs => by
    intro t bs f m p he ha hm
    cases t with
    | struct ds =>
      rw [encV.eq_def] at he; dsimp only at he
      obtain ⟨tags, ht, he⟩ := bindE he
      obtain ⟨n, hn, he⟩ := bindE he
      obtain ⟨h, hh, he⟩ := bindE he
      obtain ⟨body, hb, he⟩ := bindE he
      cases he
      rw [accepts.eq_def] at ha
      have hs := processFields_spec ht
      have key := fun q => cv_F hr fs ds tags n body f m q tags 0 id
        (fun i fs m => decNth env (decPacket env f) ds i fs m) hb ha hn hm
        (by
          intro j r mm q cs res hx
          simp only [Nat.zero_add, id]
          exact hx.mono (fun r hr => ⟨r, hr, rfl⟩))
        (by intro j g hj; simpa using findIdx?_nodup hs.1 hj)
      rw [decT.eq_def]; dsimp only
      unfold decBody
      rw [ht]; dsimp only
      rw [← List.append_nil (h ++ body)]
      refine ((Outcome.of_parses (parses0_unpackU hh (by omega))).bind (bs' := body)
        (res' := fun x => ∃ fs' m', OkF env fs f m (fs', m') ∧ x = ⟨fs', m', false⟩) ?_).bind ?_
      · rintro _ rfl
        exact key _
      · rintro _ ⟨fs', m', hok, rfl⟩
        right
        refine ⟨_, .ret, hok.1, ?_⟩
        intro heq
        simp only [Val.struct.injEq] at heq
        obtain ⟨x1, x2, x3⟩ := hok.2 heq
        exact ⟨by rw [asciiV]; exact x1, by rw [depthV]; exact x2, by rw [limV.eq_def]; exact x3⟩
    | _ => rw [encV.eq_def] at he; cases he
  | .packet cls fs => by
    intro t bs f m p he ha hm
    cases t with
    | packet base =>
      rw [decT.eq_def]
      exact cv_packet hr (cv_F hr fs) he ha (by omega)
    | _ => rw [encV.eq_def] at he; cases he
theorem cv_L {env : Env} (hr : env.Registered) : (vs : VList) → ∀ (t : FType) (bs : Bytes)
    (f m p : Nat) (acc : VList),
    encL env vs t = .ok bs → acceptsL env vs t = true → 20 ≤ m →
    Outcome p (listLoop (fun m => decT env (decPacket env f) t none m) vs.length acc m) bs
      (fun x => ∃ y, OkL env vs f m y ∧ x = (acc.app y.1, y.2))
  | .nil => by
    intro t bs f m p acc he ha hm
    rw [encL.eq_def] at he; cases he
    rw [VList.length, listLoop]
    right
    refine ⟨_, .ret, (.nil, m), ⟨hm, fun _ => ⟨rfl, Nat.zero_le _, rfl⟩⟩, ?_⟩
    rw [VList.app_nil]
  | .cons v r => by
    intro t bs f m p acc he ha hm
    rw [encL.eq_def] at he; dsimp only at he
    obtain ⟨b, hb, he⟩ := bindE he
    obtain ⟨bs', hbs, he⟩ := bindE he
    cases he
    rw [acceptsL] at ha; simp only [Bool.and_eq_true] at ha
    rw [VList.length, listLoop]
    refine (cv_V hr v t b f m p hb ha.1 hm).wrap.bind ?_
    intro x hx
    refine (cv_L hr r t bs' f x.2 (p + b.length) (acc.snoc x.1) hbs ha.2 hx.1).mono ?_
    rintro _ ⟨y, hy, rfl⟩
    refine ⟨(.cons x.1 y.1, y.2), ⟨hy.1, ?_⟩, by rw [VList.snoc_app]⟩
    intro heq
    simp only [VList.cons.injEq] at heq
    obtain ⟨x1, x2, x3⟩ := hx.2 heq.1
    obtain ⟨y1, y2, y3⟩ := hy.2 heq.2
    refine ⟨by rw [asciiL, x1, y1]; rfl, by rw [depthL]; exact Nat.max_le.mpr ⟨x2, y2⟩, ?_⟩
    rw [limL, x3]; exact y3
theorem cv_F {env : Env} (hr : env.Registered) : (fs : FVals) → CvF env fs
  | .nil => by
    intro ds tgs n bs f m p T k F one he ha hn hm H1 H2
    cases ds with
    | cons => rw [encF.eq_def] at he; cases he
    | nil =>
      cases tgs with
      | cons => rw [encF.eq_def] at he; cases he
      | nil =>
        rw [encF.eq_def] at he; cases he
        rw [countSet.eq_def] at hn; cases hn
        right
        exact ⟨_, .ret, .nil, m, ⟨hm, fun _ => ⟨rfl, Nat.zero_le _, rfl⟩⟩, rfl⟩
  | .unset r => by
    intro ds tgs n bs f m p T k F one he ha hn hm H1 H2
    cases ds with
    | nil => rw [encF.eq_def] at he; cases he
    | cons name tag opt t ds =>
      cases tgs with
      | nil => rw [encF.eq_def] at he; cases he
      | cons tg tgs =>
        rw [encF.eq_def] at he; dsimp only at he
        rw [acceptsF] at ha
        rw [FDecls.blank]
        refine (cv_F hr r ds tgs n bs f m p T (k + 1) (fun r => F (.unset r)) one he ha
          (countSet_unset hn) hm ?_ ?_).mono ?_
        · intro j r mm q cs res hx
          have := H1 (j + 1) (.unset r) mm q cs (fun x => ∃ y, res y ∧ x = (.unset y.1, y.2)) (by
            rw [decNth.eq_def]
            exact hx.map (fun y hy => ⟨y, hy, rfl⟩))
          rw [show k + 1 + j = k + (j + 1) by omega]
          refine this.mono ?_
          rintro _ ⟨_, ⟨y, hy, rfl⟩, rfl⟩
          exact ⟨y, hy, rfl⟩
        · intro j g hj
          rw [show k + 1 + j = k + (j + 1) by omega]
          exact H2 (j + 1) g (by simpa using hj)
        · rintro _ ⟨fs', m', hok, rfl⟩
          refine ⟨.unset fs', m', ⟨hok.1, ?_⟩, rfl⟩
          intro heq
          simp only [FVals.unset.injEq] at heq
          obtain ⟨x1, x2, x3⟩ := hok.2 heq
          exact ⟨by rw [asciiF]; exact x1, by rw [depthF]; exact x2, by rw [limF]; exact x3⟩
  | .set v r => by
    intro ds tgs n bs f m p T k F one he ha hn hm H1 H2
    cases ds with
    | nil => rw [encF.eq_def] at he; cases he
    | cons name tag opt t ds =>
      cases tgs with
      | nil => rw [encF.eq_def] at he; cases he
      | cons tg tgs =>
        rw [encF.eq_def] at he; dsimp only at he
        obtain ⟨tb, htb, he⟩ := bindE he
        obtain ⟨b, hb, he⟩ := bindE he
        obtain ⟨bs', hbs, he⟩ := bindE he
        cases he
        have htb := wrapE_ok htb
        have hb := wrapE_ok hb
        rw [acceptsF] at ha; simp only [Bool.and_eq_true] at ha
        obtain ⟨n, hn', rfl⟩ := countSet_set hn
        rw [FDecls.blank, fieldLoop]
        refine (Outcome.of_parses (parses0_unpackU htb (by omega))).bind ?_
        intro tg' htg'
        subst htg'
        rw [H2 0 tg' rfl]; dsimp only
        have h1 := H1 0 (.unset ds.blank) m (p + tb.length) b
          (fun x => ∃ y, OkV env v f m y ∧ x = (.set y.1 ds.blank, y.2)) (by
            rw [decNth.eq_def]
            exact (cv_V hr v t b f m _ hb ha.1 hm).map (fun y hy => ⟨y, hy, rfl⟩))
        refine h1.wrap.bind ?_
        rintro _ ⟨_, ⟨y, hy, rfl⟩, rfl⟩
        refine (cv_F hr r ds tgs n bs' f y.2 (p + tb.length + b.length) T (k + 1)
          (fun r => F (.set y.1 r)) one hbs ha.2 hn' hy.1 ?_ ?_).mono ?_
        · intro j r mm q cs res hx
          have := H1 (j + 1) (.set y.1 r) mm q cs (fun x => ∃ z, res z ∧ x = (.set y.1 z.1, z.2)) (by
            rw [decNth.eq_def]
            exact hx.map (fun z hz => ⟨z, hz, rfl⟩))
          rw [show k + 1 + j = k + (j + 1) by omega]
          refine this.mono ?_
          rintro _ ⟨_, ⟨z, hz, rfl⟩, rfl⟩
          exact ⟨z, hz, rfl⟩
        · intro j g hj
          rw [show k + 1 + j = k + (j + 1) by omega]
          exact H2 (j + 1) g (by simpa using hj)
        · rintro _ ⟨fs', m', hok, rfl⟩
          refine ⟨.set y.1 fs', m', ⟨hok.1, ?_⟩, rfl⟩
          intro heq
          simp only [FVals.set.injEq] at heq
          obtain ⟨x1, x2, x3⟩ := hy.2 heq.1
          obtain ⟨y1, y2, y3⟩ := hok.2 heq.2
          refine ⟨by rw [asciiF, x1, y1]; rfl, by rw [depthF]; exact Nat.max_le.mpr ⟨x2, y2⟩, ?_⟩
          rw [limF, x3]; exact y3
end

end Verif
