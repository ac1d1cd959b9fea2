import Verif.Lemmas.RoundTrip
import Verif.Model.Deserializer
/-! Behaviour of the Deserializer on a stream of (possibly garbage-preceded) packets. -/
namespace Verif

theorem ser_eq {env : Env} {v : Val} {b : Bytes} (h : serialize env 0 v = .ok b) : ser env v = b := by
  simp [ser, h]

/-! ### flat packets satisfy the limit condition -/
mutual
theorem flat_limV (env : Env) (len : Val → Nat) : (v : Val) → ∀ (t : FType) (bs : Bytes) (m : Nat),
    flatV v = true → encV env v t = .ok bs → bs.length ≤ m → limV len m v = some m
  | .num _ => by intros; rfl
  | .float _ _ => by intros; rfl
  | .bool _ => by intros; rfl
  | .str s => by
    intro t bs m hf he hl
    cases t with
    | str =>
      rw [encV.eq_def] at he; dsimp only at he
      split at he
      · cases he
      obtain ⟨h, hh, he⟩ := bindE he
      cases he
      have := length_le_utf8 s
      simp only [List.length_append, List.length_take] at hl
      rw [limV.eq_def]; dsimp only
      rw [if_pos (by omega)]
    | _ => rw [encV.eq_def] at he; cases he
  | .buf b => by
    intro t bs m hf he hl
    cases t with
    | buf =>
      rw [encV.eq_def] at he; dsimp only at he
      split at he
      · cases he
      obtain ⟨h, hh, he⟩ := bindE he
      cases he
      simp only [List.length_append] at hl
      rw [limV.eq_def]; dsimp only
      rw [if_pos (by omega)]
    | _ => rw [encV.eq_def] at he; cases he
  | .list vs => by
    intro t bs m hf he hl
    cases t with
    | list t =>
      rw [encV.eq_def] at he; dsimp only at he
      obtain ⟨h, hh, he⟩ := bindE he
      obtain ⟨body, hb, he⟩ := bindE he
      cases he
      simp only [List.length_append] at hl
      rw [flatV] at hf
      rw [limV.eq_def]
      exact flat_limL env len vs t body m hf hb (by omega)
    | _ => rw [encV.eq_def] at he; cases he
  | .struct fs => by
    intro t bs m hf he hl
    cases t with
    | struct ds =>
      rw [encV.eq_def] at he; dsimp only at he
      obtain ⟨tags, ht, he⟩ := bindE he
      obtain ⟨n, hn, he⟩ := bindE he
      obtain ⟨h, hh, he⟩ := bindE he
      obtain ⟨body, hb, he⟩ := bindE he
      cases he
      simp only [List.length_append] at hl
      rw [flatV] at hf
      rw [limV.eq_def]
      exact flat_limF env len fs ds tags body m hf hb (by omega)
    | _ => rw [encV.eq_def] at he; cases he
  | .packet cls fs => by intro t bs m hf; cases hf
theorem flat_limL (env : Env) (len : Val → Nat) : (vs : VList) → ∀ (t : FType) (bs : Bytes) (m : Nat),
    flatL vs = true → encL env vs t = .ok bs → bs.length ≤ m → limL len m vs = some m
  | .nil => by intros; rfl
  | .cons v r => by
    intro t bs m hf he hl
    rw [encL.eq_def] at he; dsimp only at he
    obtain ⟨b, hb, he⟩ := bindE he
    obtain ⟨bs', hbs, he⟩ := bindE he
    cases he
    rw [flatL] at hf; simp only [Bool.and_eq_true] at hf
    simp only [List.length_append] at hl
    rw [limL, flat_limV env len v t b m hf.1 hb (by omega)]
    exact flat_limL env len r t bs' m hf.2 hbs (by omega)
theorem flat_limF (env : Env) (len : Val → Nat) : (fs : FVals) → ∀ (ds : FDecls) (tgs : List Nat)
    (bs : Bytes) (m : Nat),
    flatF fs = true → encF env fs ds tgs = .ok bs → bs.length ≤ m → limF len m fs = some m
  | .nil => by intros; rfl
  | .unset r => by
    intro ds tgs bs m hf he hl
    cases ds with
    | nil => rw [encF.eq_def] at he; cases he
    | cons name tag opt t ds =>
      cases tgs with
      | nil => rw [encF.eq_def] at he; cases he
      | cons tg tgs =>
        rw [encF.eq_def] at he; dsimp only at he
        rw [flatF] at hf
        rw [limF]
        exact flat_limF env len r ds tgs bs m hf he hl
  | .set v r => by
    intro ds tgs bs m hf he hl
    cases ds with
    | nil => rw [encF.eq_def] at he; cases he
    | cons name tag opt t ds =>
      cases tgs with
      | nil => rw [encF.eq_def] at he; cases he
      | cons tg tgs =>
        rw [encF.eq_def] at he; dsimp only at he
        obtain ⟨tb, htb, he⟩ := bindE he
        obtain ⟨b, hb, he⟩ := bindE he
        obtain ⟨bs', hbs, he⟩ := bindE he
        cases he
        rw [flatF] at hf; simp only [Bool.and_eq_true] at hf
        simp only [List.length_append] at hl
        rw [limF, flat_limV env len v t b m hf.1 (wrapE_ok hb) (by omega)]
        exact flat_limF env len r ds tgs bs' m hf.2 hbs (by omega)
end

mutual
theorem flat_depthV : (v : Val) → flatV v = true → depthV v = 0
  | .num _, _ => rfl
  | .float _ _, _ => rfl
  | .bool _, _ => rfl
  | .str _, _ => rfl
  | .buf _, _ => rfl
  | .list vs, h => by rw [depthV]; rw [flatV] at h; exact flat_depthL vs h
  | .struct fs, h => by rw [depthV]; rw [flatV] at h; exact flat_depthF fs h
  | .packet _ _, h => by cases h
theorem flat_depthL : (v : VList) → flatL v = true → depthL v = 0
  | .nil, _ => rfl
  | .cons v r, h => by
    rw [flatL] at h; simp only [Bool.and_eq_true] at h
    rw [depthL, flat_depthV v h.1, flat_depthL r h.2]; rfl
theorem flat_depthF : (v : FVals) → flatF v = true → depthF v = 0
  | .nil, _ => rfl
  | .unset r, h => by rw [flatF] at h; rw [depthF]; exact flat_depthF r h
  | .set v r, h => by
    rw [flatF] at h; simp only [Bool.and_eq_true] at h
    rw [depthF, flat_depthV v h.1, flat_depthF r h.2]; rfl
end

/-- The parts of the encoding of a packet. -/
theorem encPacket_inv {env : Env} {cls base : Cls} {fs : FVals} {bs : Bytes}
    (he : encV env (.packet cls fs) (.packet base) = .ok bs) :
    ∃ d tags n h body hdr, env.classDef cls = some d ∧ processFields d.fields = .ok tags ∧
      countSet fs d.fields = .ok n ∧ packU 2 (n : Int) = .ok h ∧
      encF env fs d.fields tags = .ok body ∧
      encHeader (16 + (1 + (utf8 d.ident).length) + (1 + (utf8 d.version).length)
        + (h.length + body.length)) (utf8 d.ident) (utf8 d.version) = .ok hdr ∧
      bs = hdr ++ (h ++ body) := by
  rw [encV.eq_def] at he; dsimp only at he
  split at he
  · cases he
  next d hcls =>
  obtain ⟨tags, ht, he⟩ := bindE he
  obtain ⟨n, hn, he⟩ := bindE he
  obtain ⟨h, hh, he⟩ := bindE he
  obtain ⟨body, hb, he⟩ := bindE he
  obtain ⟨hdr, hhdr, he⟩ := bindE he
  cases he
  exact ⟨d, tags, n, h, body, hdr, hcls, ht, hn, hh, hb, hhdr, rfl⟩

theorem encHeader_inv {total : Nat} {i v hdr : Bytes} (h : encHeader total i v = .ok hdr) :
    total < 2 ^ 64 ∧ i.length < 256 ∧ v.length < 256 ∧
    hdr = hdr16 total ++ (UInt8.ofNat i.length :: (i ++ (UInt8.ofNat v.length :: v))) := by
  unfold encHeader at h
  obtain ⟨q1, e1, h⟩ := bindE h
  obtain ⟨q2, e2, h⟩ := bindE h
  obtain ⟨l1, e3, h⟩ := bindE h
  obtain ⟨l2, e4, h⟩ := bindE h
  cases h
  obtain ⟨_, a1, a2⟩ := packU_ok e1
  obtain ⟨_, b1, b2⟩ := packU_ok e2
  obtain ⟨_, c1, c2⟩ := packU_ok e3
  obtain ⟨_, d1, d2⟩ := packU_ok e4
  have p8 : ((256 : Int) ^ 8) = 2 ^ 64 := by decide
  have p1 : ((256 : Int) ^ 1) = 256 := by decide
  rw [p8] at a1
  rw [p1] at c1 d1
  refine ⟨by omega, by omega, by omega, ?_⟩
  rw [a2, b2, c2, d2]
  have one : ∀ x : Nat, x < 256 → beEnc 1 x = [UInt8.ofNat x] := by
    intro x hx; simp [beEnc, Nat.mod_eq_of_lt hx]
  simp only [Int.toNat_natCast]
  rw [one _ (by omega), one _ (by omega)]
  simp [hdr16]

theorem encPacket_len {env : Env} {cls base : Cls} {fs : FVals} {bs : Bytes}
    (he : encV env (.packet cls fs) (.packet base) = .ok bs) :
    20 ≤ bs.length ∧ ∃ r, bs = hdr16 bs.length ++ r ∧ bs.length < 2 ^ 64 := by
  obtain ⟨d, tags, n, h, body, hdr, hcls, ht, hn, hh, hb, hhdr, rfl⟩ := encPacket_inv he
  obtain ⟨h1, h2, h3, h4⟩ := encHeader_inv hhdr
  have hl := packU_len hh
  have hL : (hdr ++ (h ++ body)).length = 16 + (1 + (utf8 d.ident).length) + (1 + (utf8 d.version).length)
        + (h.length + body.length) := by
    rw [h4]; simp; omega
  refine ⟨by omega, ?_⟩
  rw [hL]
  refine ⟨(UInt8.ofNat (utf8 d.ident).length :: ((utf8 d.ident) ++ (UInt8.ofNat (utf8 d.version).length ::
    (utf8 d.version)))) ++ (h ++ body), ?_, h1⟩
  rw [← List.append_assoc (hdr16 _), ← h4]

theorem Clean_of_garbage {g b : Bytes} (hb : 16 ≤ b.length) (h : CleanGarbage g b) : Clean g b := by
  induction g with
  | nil => trivial
  | cons x g ih =>
    refine ⟨?_, ih ?_⟩
    · intro hl
      unfold looksHdr at hl
      have h0 := h 0 (by simp) (beDec ((x :: (g ++ b)).take 8)) (by
        have := beDec_lt ((x :: (g ++ b)).take 8)
        have e : ((x :: (g ++ b)).take 8).length = 8 := by simp; omega
        rw [e] at this
        exact this)
      apply h0
      have e1 : ((x :: (g ++ b)).take 8).length = 8 := by simp; omega
      have e2 : (((x :: (g ++ b)).drop 8).take 8).length = 8 := by simp; omega
      have q2 := beDec_lt (((x :: (g ++ b)).drop 8).take 8)
      rw [e2] at q2
      have r1 := beEnc_beDec ((x :: (g ++ b)).take 8)
      have r2 := beEnc_beDec (((x :: (g ++ b)).drop 8).take 8)
      rw [e1] at r1
      rw [e2] at r2
      rw [r1, hl, compl64_compl64 q2, r2]
      simp only [List.cons_append, List.drop_zero]
      rw [← List.take_add]
    · intro i hi n hn
      have := h (i + 1) (by simp; omega) n hn
      simpa using this

theorem wire_cons (env : Env) (x : Bytes × Val) (l : List (Bytes × Val)) :
    wire env (x :: l) = (x.1 ++ ser env x.2) ++ wire env l := by simp [wire]

/-! ### The invariant of the Deserializer -/

/-- One item is carried and its garbage is clean. -/
def ItemOK (env : Env) (depth : Nat) (cls : Cls) (x : Bytes × Val) : Prop :=
  Carried env depth cls x.2 ∧ CleanGarbage x.1 (ser env x.2)

theorem accepts_packet {env : Env} {v : Val} {base : Cls} (h : accepts env v (.packet base) = true) :
    ∃ cls fs, v = .packet cls fs := by
  cases v with
  | packet cls fs => exact ⟨cls, fs, rfl⟩
  | _ => rw [accepts.eq_def] at h; cases h

theorem item_parses {env : Env} (hr : env.Registered) {depth : Nat} {cls : Cls} {x : Bytes × Val}
    (h : ItemOK env depth cls x) (p : Nat) :
    ∃ m, Parses p (freshGen env depth cls) (x.1 ++ ser env x.2) (x.2, m) := by
  obtain ⟨hc, hg⟩ := h
  obtain ⟨g, v⟩ := x
  obtain ⟨c, fs, rfl⟩ := accepts_packet hc.accepted
  obtain ⟨b, hb⟩ := hc.serializes
  obtain ⟨m, hm⟩ := hc.limits
  have he : encV env (.packet c fs) (.packet cls) = .ok b := by
    rw [← hb]; unfold serialize; rw [encV, encV]
  refine ⟨m, ?_⟩
  rw [ser_eq hb] at hg ⊢
  exact rt_packet hr he hc.accepted hc.ascii hc.nesting hm
    (Clean_of_garbage (by have := encPacket_len he; omega) hg)

theorem item_pos {env : Env} {depth : Nat} {cls : Cls} {x : Bytes × Val} (h : ItemOK env depth cls x) :
    0 < (x.1 ++ ser env x.2).length := by
  obtain ⟨hc, hg⟩ := h
  obtain ⟨g, v⟩ := x
  obtain ⟨c, fs, rfl⟩ := accepts_packet hc.accepted
  obtain ⟨b, hb⟩ := hc.serializes
  have := encPacket_len hb
  rw [ser_eq hb]
  simp; omega

/-- `gen` is new, or waits for a packet header at position `pos`. -/
def Idle (env : Env) (depth : Nat) (cls : Cls) (pos : Nat) (gen : Dec (Val × Nat)) : Prop :=
  gen = freshGen env depth cls ∨ ∃ k : Nat → Nat → Nat → Dec (Val × Nat), freshGen env depth cls = .tell (fun s => .sync s none (k s)) ∧
    gen = .sync pos none (k pos)

theorem fresh_form (env : Env) (depth : Nat) (cls : Cls) :
    ∃ k : Nat → Nat → Nat → Dec (Val × Nat), freshGen env (depth + 1) cls = .tell (fun s => .sync s none (k s)) := by
  refine ⟨fun _ len start' => packetRest env
    (fun d m => decBody d.fields
      (fun i fs m => decNth env (decPacket env depth) d.fields i fs m) d.fields.blank m)
    cls len start', ?_⟩
  unfold freshGen
  rw [decPacket]
  simp only [ne_eq, not_true_eq_false, false_and, if_false]

/-- Where the Deserializer stands when `qs` is still to be delivered and the bytes `fut` have not
arrived. -/
def Inv (env : Env) (depth : Nat) (cls : Cls) (st : DState) (qs : List (Bytes × Val)) (fut : Bytes) : Prop :=
  match qs with
  | [] => fut = [] ∧ st.pos = st.buf.length ∧ Idle env depth cls st.pos st.gen
  | q :: qs' => ∃ pre rest bs m, st.buf = pre ++ rest ∧ st.pos = pre.length ∧
      Resid pre st.gen bs (q.2, m) ∧ bs ++ wire env qs' = rest ++ fut ∧ 0 < pre.length + bs.length

theorem Inv.init {env : Env} (hr : env.Registered) {depth : Nat} {cls : Cls} {qs : List (Bytes × Val)}
    (hq : ∀ x ∈ qs, ItemOK env depth cls x) {buf fut : Bytes} (h : buf ++ fut = wire env qs) :
    Inv env depth cls ⟨buf, 0, freshGen env depth cls⟩ qs fut := by
  cases qs with
  | nil =>
    simp [wire] at h
    exact ⟨h.2, by simp [h.1], .inl rfl⟩
  | cons q qs =>
    obtain ⟨m, hm⟩ := item_parses hr (hq q (by simp)) 0
    refine ⟨[], buf, _, m, rfl, rfl, .main hm, ?_, ?_⟩
    · rw [h, wire_cons]
    · have := item_pos (hq q (by simp)); simpa using this

theorem Inv.update {env : Env} {depth : Nat} {cls : Cls} {qs : List (Bytes × Val)} {st : DState}
    {b fut : Bytes} (h : Inv env depth cls st qs (b ++ fut)) :
    Inv env depth cls (st.update b) qs fut := by
  cases qs with
  | nil =>
    obtain ⟨h1, h2, h3⟩ := h
    simp at h1
    exact ⟨h1.2, by simp [DState.update, h2, h1.1], h3⟩
  | cons q qs =>
    obtain ⟨pre, rest, bs, m, h1, h2, h3, h4, h5⟩ := h
    exact ⟨pre, rest ++ b, bs, m, by simp [DState.update, h1], h2, h3, by simp [h4], h5⟩

/-- Bytes that still have to arrive before the next packet is complete. -/
def Blocked (env : Env) (depth : Nat) (cls : Cls) (st : DState) (qs : List (Bytes × Val)) (fut : Bytes) : Prop :=
  Inv env depth cls st qs fut ∧
  match qs with
  | [] => True
  | _ :: qs' => (wire env qs').length < fut.length

/-- Without enough bytes for a header the Deserializer waits. -/
theorem idle_iter {env : Env} {depth : Nat} {cls : Cls} {st : DState} {k : Nat → Nat → Nat → Dec (Val × Nat)}
    (hk : freshGen env (depth + 1) cls = .tell (fun s => .sync s none (k s)))
    (h : Idle env (depth + 1) cls st.pos st.gen) (hp : st.buf.length < st.pos + 8) :
    st.iter env (depth + 1) cls = (none, ⟨st.buf, st.pos, .sync st.pos none (k st.pos)⟩) := by
  have hscan : scan st.buf st.pos none = .wait1 st.pos := by
    rw [scan, scanFrom, if_pos hp]
  unfold DState.iter
  dsimp only
  rcases h with hg | ⟨k', hk', hg⟩
  · rw [hg, hk, Dec.run, Dec.run, hscan]
  · have : k' = k := by
      rw [hk] at hk'
      injection hk' with hk'
      funext s
      have := congrFun hk' s
      injection this with _ _ this
      exact this.symm
    subst this
    rw [hg, Dec.run, hscan]

theorem Inv.iter {env : Env} (hr : env.Registered) {depth : Nat} {cls : Cls} {qs : List (Bytes × Val)}
    (hq : ∀ x ∈ qs, ItemOK env (depth + 1) cls x) {st : DState} {fut : Bytes}
    (h : Inv env (depth + 1) cls st qs fut) :
    (∃ st', st.iter env (depth + 1) cls = (none, st') ∧ Blocked env (depth + 1) cls st' qs fut) ∨
    (∃ st' q qs', qs = q :: qs' ∧ st.iter env (depth + 1) cls = (some (.packet q.2), st') ∧
      Inv env (depth + 1) cls st' qs' fut ∧ st'.buf.length < st.buf.length) := by
  cases qs with
  | nil =>
    left
    obtain ⟨h1, h2, h3⟩ := h
    obtain ⟨k, hk⟩ := fresh_form env depth cls
    obtain ⟨buf, pos, gen⟩ := st
    simp only at h2 h3
    refine ⟨⟨buf, pos, .sync pos none (k pos)⟩, ?_, ⟨h1, h2, .inr ⟨k, hk, rfl⟩⟩, trivial⟩
    rw [idle_iter hk h3 (by simp only; omega)]
  | cons q qs =>
    obtain ⟨pre, rest, bs, m, h1, h2, h3, h4, h5⟩ := h
    rcases List.append_eq_append_iff.mp h4 with ⟨c, c1, c2⟩ | ⟨c, c1, c2⟩
    · -- all bytes of the packet are there
      right
      have hrun := h3.run c
      refine ⟨⟨c, 0, freshGen env (depth + 1) cls⟩, q, qs, rfl, ?_, ?_, ?_⟩
      · unfold DState.iter
        rw [h1, h2, c1, hrun]
        simp only [Prod.mk.injEq, DState.mk.injEq, and_true, true_and]
        rw [← List.append_assoc, show pre.length + bs.length = (pre ++ bs).length by simp,
          List.drop_left]
      · exact Inv.init hr (fun x hx => hq x (by simp [hx])) c2.symm
      · rw [h1, c1]; simp; omega
    · by_cases hc : c = []
      · subst hc
        simp only [List.append_nil, List.nil_append] at c1 c2
        right
        have hrun := h3.run []
        refine ⟨⟨[], 0, freshGen env (depth + 1) cls⟩, q, qs, rfl, ?_, ?_, ?_⟩
        · unfold DState.iter
          rw [List.append_nil, c1] at hrun
          rw [h1, h2, hrun]
          simp only [Prod.mk.injEq, DState.mk.injEq, and_true, true_and]
          apply List.drop_eq_nil_of_le; simp
        · exact Inv.init hr (fun x hx => hq x (by simp [hx])) (by simpa using c2)
        · rw [h1, ← c1]; simp; omega
      · left
        obtain ⟨d', used, hv, e1, e2, e3⟩ := h3.run_partial rest c c1 hc
        refine ⟨⟨st.buf, (pre ++ used).length, d'⟩, ?_, ⟨pre ++ used, hv, hv ++ c, m, ?_, rfl, e3, ?_, ?_⟩, ?_⟩
        · unfold DState.iter
          rw [h1, h2, e2]
        · simp [h1, e1]
        · rw [List.append_assoc, c2]
        · have := congrArg List.length c1
          have := congrArg List.length e1
          have : 0 < c.length := List.length_pos_iff.mpr hc
          simp; omega
        · have : 0 < c.length := List.length_pos_iff.mpr hc
          rw [c2]; simp; omega

theorem Inv.next {env : Env} (hr : env.Registered) {depth : Nat} {cls : Cls} :
    ∀ (f : Nat) (qs : List (Bytes × Val)) (st : DState) (fut : Bytes),
    (∀ x ∈ qs, ItemOK env (depth + 1) cls x) → Inv env (depth + 1) cls st qs fut → st.buf.length < f →
    ∃ done left st', qs = done ++ left ∧
      nextLoop env (depth + 1) cls f st = (done.map (fun x => Event.packet x.2), st', true) ∧
      Blocked env (depth + 1) cls st' left fut := by
  intro f
  induction f with
  | zero => intro qs st fut hq h hf; omega
  | succ f ih =>
    intro qs st fut hq h hf
    rw [nextLoop]
    rcases h.iter hr hq with ⟨st', h1, h2⟩ | ⟨st', q, qs', rfl, h1, h2, h3⟩
    · rw [h1]; exact ⟨[], qs, st', rfl, rfl, h2⟩
    · rw [h1]
      obtain ⟨done, left, st'', e1, e2, e3⟩ := ih qs' st' fut (fun x hx => hq x (by simp [hx])) h2 (by omega)
      refine ⟨q :: done, left, st'', by simp [e1], ?_, e3⟩
      simp only [e2]; rfl

theorem Inv.ops {env : Env} (hr : env.Registered) {depth : Nat} {cls : Cls} :
    ∀ (ops : List DOp) (qs : List (Bytes × Val)) (st : DState) (fut : Bytes),
    (∀ x ∈ qs, ItemOK env (depth + 1) cls x) →
    Inv env (depth + 1) cls st qs (received ops ++ fut) →
    ∃ done left st', qs = done ++ left ∧
      runOps env (depth + 1) cls st ops = (done.map (fun x => Event.packet x.2), st') ∧
      Inv env (depth + 1) cls st' left fut := by
  intro ops
  induction ops with
  | nil => intro qs st fut hq h; exact ⟨[], qs, st, rfl, rfl, h⟩
  | cons op ops ih =>
    intro qs st fut hq h
    cases op with
    | update b =>
      rw [received, List.append_assoc] at h
      exact ih qs (st.update b) fut hq h.update
    | next =>
      rw [received] at h
      obtain ⟨done, left, st', e1, e2, e3⟩ := Inv.next hr (st.buf.length + 1) qs st _ hq h (by omega)
      obtain ⟨done', left', st'', f1, f2, f3⟩ := ih left st' fut
        (fun x hx => hq x (by simp [e1, hx])) e3.1
      refine ⟨done ++ done', left', st'', by simp [e1, f1], ?_, f3⟩
      rw [runOps, DState.next]
      simp only [e2, f2, List.map_append]

end Verif
