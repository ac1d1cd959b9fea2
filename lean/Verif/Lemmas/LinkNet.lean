import Verif.Spec.LinkNet
import Verif.Props.Framed
import Verif.Props.Spmp
import Verif.Props.Switch
import Verif.Props.Fragment
/-! # Lemmas about a switch and its links on byte streams -/
namespace Verif

/-- More is sent while a Deserializer waits. -/
theorem FInv.extend {env : Env} (hr : env.Registered) {cls : Cls} {qs : List Val} {st : FState} {fut : Bytes} {p : Val} (hp : FOK env cls p)
    (h : FInv env cls st qs fut) : FInv env cls st (qs ++ [p]) (fut ++ frame (ser env p)) := by
  have hw : fwire env (qs ++ [p]) = fwire env qs ++ frame (ser env p) := by simp [fwire]
  obtain ⟨frm, run⟩ := st
  cases run with
  | none =>
    have h' : FInv env cls ⟨frm, none⟩ (qs ++ [p]) (fut ++ frame (ser env p)) ↔
      (frm.s.pos ≤ frm.s.buf.length ∧ frm.s.buf.drop frm.s.pos ++ (fut ++ frame (ser env p)) = fwire env (qs ++ [p])) := by
      cases qs <;> rfl
    have h : frm.s.pos ≤ frm.s.buf.length ∧ frm.s.buf.drop frm.s.pos ++ fut = fwire env qs := by
      cases qs <;> exact h
    rw [h', hw, ← h.2, List.append_assoc]
    exact ⟨h.1, rfl⟩
  | some d =>
    cases qs with
    | nil =>
      obtain ⟨h1, h2, h3, h4, h5, k, hk, rfl⟩ := h
      subst h1
      dsimp only at h2 h3 h4 h5
      obtain ⟨m, hm⟩ := item_parses hr (x := ([], p)) ⟨hp.carried, by intro i hi; simp at hi⟩ 0
      have hpos := item_pos (x := ([], p)) ⟨hp.carried, by intro i hi; simp at hi⟩
      have hm : Parses 0 (framedGen env cls) (ser env p) (p, m) := hm
      have hm' : Parses 0 (.sync 0 none (k 0)) (ser env p) (p, m) := by
        rw [hk] at hm
        cases hm with
        | tell hm => exact hm
      refine ⟨[], [], ser env p, m, ⟨?_, ?_, ⟨[], frame (ser env p), by simp⟩, hp.small, Nat.zero_le _, by intro h; simp at h, .inl ⟨h4, h5, rfl, h3⟩⟩, rfl, ?_,
        .main hm', .inr ⟨_, _, _, rfl⟩, by simp [fwire]⟩
      · show frm.s.buf.drop frm.start = []
        rw [h2, List.drop_length]
      · show frm.start ≤ _
        rw [h2]; exact Nat.le_refl _
      · intro h0; rw [h0] at hpos; simp at hpos
    | cons q qs =>
      obtain ⟨y, pre, bs, m, h1, h2, h3, h4, h5, h6⟩ := h
      refine ⟨y, pre, bs, m, h1, h2, h3, h4, h5, ?_⟩
      have : fwire env (qs ++ [p]) = fwire env qs ++ frame (ser env p) := by simp [fwire]
      show y ++ (fut ++ _) = frame (ser env q) ++ fwire env (qs ++ [p])
      rw [← List.append_assoc, h6, this, List.append_assoc]

theorem FBlocked.extend {env : Env} (hr : env.Registered) {cls : Cls} {qs : List Val} {st : FState} {fut : Bytes} {p : Val} (hp : FOK env cls p)
    (h : FBlocked env cls st qs fut) : FBlocked env cls st (qs ++ [p]) (fut ++ frame (ser env p)) := by
  refine ⟨h.1.extend hr hp, ?_⟩
  cases qs with
  | nil => simp [fwire, frame]; omega
  | cons q qs =>
    have : fwire env (qs ++ [p]) = fwire env qs ++ frame (ser env p) := by simp [fwire]
    have h2 := h.2
    show (fwire env (qs ++ [p])).length < _
    rw [this, List.length_append, List.length_append]
    exact Nat.add_lt_add_right h2 _

/-- What has not arrived is not more than what is still to be delivered. -/
theorem FInv.fut_le {env : Env} {cls : Cls} {qs : List Val} {st : FState} {fut : Bytes} (h : FInv env cls st qs fut) :
    fut.length ≤ (fwire env qs).length := by
  obtain ⟨frm, run⟩ := st
  cases run with
  | none =>
    have h : frm.s.pos ≤ frm.s.buf.length ∧ frm.s.buf.drop frm.s.pos ++ fut = fwire env qs := by
      cases qs <;> exact h
    rw [← h.2, List.length_append]; omega
  | some d =>
    cases qs with
    | nil => rw [h.1]; simp
    | cons q qs =>
      obtain ⟨y, pre, bs, m, h1, h2, h3, h4, h5, h6⟩ := h
      have := congrArg List.length h6
      simp only [fwire, List.flatMap_cons, List.length_append] at this ⊢
      omega

/-- If a chunk of data completes two packets, it is longer than the second. -/
theorem FBlocked.two {env : Env} {cls : Cls} {st st' : FState} {q r : Val} {done left : List Val} {fut : Bytes} {k : Nat}
    (h : FBlocked env cls st (q :: r :: (done ++ left)) fut) (h' : FInv env cls st' left (fut.drop k)) : (frame (ser env r)).length < k := by
  have h1 := h.2
  have h2 := h'.fut_le
  simp only [fwire, List.flatMap_cons, List.flatMap_append, List.length_append, List.length_drop] at h1 h2
  omega

end Verif

namespace Verif.Link

/-- A packet whose parts fit into their fields. -/
def Pkt.Good : Pkt → Prop
  | .announce a => Text a
  | .wire w => Text w.header.source ∧ Text w.header.destination ∧ w.header.sourcePort < 2 ^ 16 ∧ w.header.destinationPort < 2 ^ 16 ∧
      (∀ i, w.frag = some i → i.fragId < 2 ^ 32 ∧ i.totalSize < 2 ^ 64 ∧ i.offset < 2 ^ 64) ∧ w.data.length ≤ 2 ^ 16

theorem wire_fields : wireDef.fields = .cons "source" none false .str (.cons "sourcePort" none false (uint 16) (.cons "destination" none false .str
    (.cons "destinationPort" none false (uint 16) (.cons "fragData" none true (.struct fragDecls) (.cons "data" none false .buf .nil))))) := rfl

theorem announce_fields : announceDef.fields = .cons "address" none false .str .nil := rfl

theorem Classes.Ok.ne {c : Classes} (h : c.Ok) : c.wire ≠ c.announce := by
  intro he
  have := h.wireIs
  rw [he, h.announceIs] at this
  exact absurd (Option.some.inj this) (by decide +kernel)

/-! ## The packets survive the codec -/

theorem ofVal_val {c : Classes} (hc : c.Ok) (p : Pkt) : ofVal c (p.val c) = some p := by
  cases p with
  | announce a => simp [Pkt.val, ofVal]
  | wire w =>
    obtain ⟨⟨s, sp, d, dp⟩, f, data⟩ := w
    simp only [Pkt.val, ofVal]
    rw [if_neg hc.ne]
    cases f with
    | none => simp [fragVals, readRest]
    | some i => obtain ⟨i, t, o⟩ := i; simp [fragVals, readRest]

theorem val_inj {c : Classes} (hc : c.Ok) {p q : Pkt} (h : p.val c = q.val c) : p = q := by
  have := ofVal_val hc p
  rw [h, ofVal_val hc q] at this
  exact (Option.some.inj this).symm

theorem encStr {env : Env} {s : Str} (h : Text s) : encV env (.str s) .str = .ok (beEnc 2 s.length ++ (utf8 s).take s.length) := by
  have := h.2
  rw [encV, if_neg (by omega), packU_nat (w := 2) (v := s.length) (by omega)]
  rfl

theorem width16 : numWidth { bits := some 16 } = .ok 2 := by decide
theorem width32 : numWidth { bits := some 32 } = .ok 4 := by decide
theorem width64 : numWidth { bits := some 64 } = .ok 8 := by decide

theorem enc16 {env : Env} {n : Nat} (h : n < 2 ^ 16) : encV env (.num n) (uint 16) = .ok (beEnc 2 n) := by
  rw [uint, encV, width16, Spmp.bindOk rfl, if_neg Bool.false_ne_true, packU_nat (w := 2) (v := n) (by omega)]

theorem enc32 {env : Env} {n : Nat} (h : n < 2 ^ 32) : encV env (.num n) (uint 32) = .ok (beEnc 4 n) := by
  rw [uint, encV, width32, Spmp.bindOk rfl, if_neg Bool.false_ne_true, packU_nat (w := 4) (v := n) (by omega)]

theorem enc64 {env : Env} {n : Nat} (h : n < 2 ^ 64) : encV env (.num n) (uint 64) = .ok (beEnc 8 n) := by
  rw [uint, encV, width64, Spmp.bindOk rfl, if_neg Bool.false_ne_true, packU_nat (w := 8) (v := n) (by omega)]

theorem encBuf {env : Env} {b : Bytes} (h : b.length < 2 ^ 64) : encV env (.buf b) .buf = .ok (beEnc 8 b.length ++ b) := by
  rw [encV, if_neg (by omega), packU_nat (w := 8) (v := b.length) (by omega)]
  rfl

/-- One more field. -/
theorem encF_set {env : Env} {v : Val} {r : FVals} {nm tg op t ds} {tag : Nat} {tags : List Nat} {b bs : Bytes} (ht : tag < 2 ^ 16)
    (hv : encV env v t = .ok b) (hr : encF env r ds tags = .ok bs) :
    encF env (.set v r) (.cons nm tg op t ds) (tag :: tags) = .ok (beEnc 2 tag ++ (b ++ bs)) := by
  rw [encF, packU_nat (w := 2) (v := tag) (by omega), hv, hr]
  rfl

theorem encF_unset {env : Env} {r : FVals} {nm tg op t ds} {tag : Nat} {tags : List Nat} :
    encF env (.unset r) (.cons nm tg op t ds) (tag :: tags) = encF env r ds tags := by
  rw [encF]

/-- The header of a packet of moderate size. -/
theorem header_ok (total : Nat) (idb verb : Bytes) (ht : total < 2 ^ 63) (hi : idb.length < 2 ^ 8) (hv : verb.length < 2 ^ 8) :
    ∃ hdr, encHeader total idb verb = .ok hdr ∧ hdr.length = 18 + idb.length + verb.length := by
  unfold encHeader
  have hc := compl64_lt (x := total) (by omega)
  rw [packU_nat (w := 8) (v := total) (by omega), packU_nat (w := 8) (v := compl64 total) (by omega), packU_nat (w := 1) (v := idb.length) (by omega),
    packU_nat (w := 1) (v := verb.length) (by omega)]
  refine ⟨_, rfl, ?_⟩
  simp; omega

/-- A packet of moderate size goes out in a frame. -/
theorem framed_of_body {env : Env} {base cls : Cls} {fs : FVals} {d : PDef} {tags : List Nat} {n : Nat} {body : Bytes}
    (hc : env.classDef cls = some d) (hs : env.isSub cls base = true) (ht : processFields d.fields = .ok tags)
    (hn : countSet fs d.fields = .ok n) (hn' : n < 2 ^ 16) (hb : encF env fs d.fields tags = .ok body) (hl : body.length < 2 ^ 31)
    (hi : (utf8 d.ident).length < 2 ^ 8) (hv : (utf8 d.version).length < 2 ^ 8)
    (ha : acceptsF env fs d.fields = true) (hf : flatF fs = true) (has : asciiF fs = true) :
    FramedSendable env base (.packet cls fs) := by
  obtain ⟨hdr, hh, hhl⟩ := header_ok (16 + (1 + (utf8 d.ident).length) + (1 + (utf8 d.version).length) + ((beEnc 2 n).length + body.length))
    (utf8 d.ident) (utf8 d.version) (by simp; omega) hi hv
  have hser := Spmp.ser_packet (cls := cls) hc ht hn (packU_nat (w := 2) (v := n) (by omega)) hb hh
  refine ⟨?_, ⟨cls, fs, rfl, hf⟩, ?_, ?_⟩
  · rw [accepts, hs, hc]; exact ha
  · rw [asciiV]; exact has
  · unfold framedSerialize
    rw [hser]
    exact ⟨_, (framedBytes_eq (by simp [hhl]; omega)).1 (by simp [hhl]; omega)⟩

theorem take_le {α : Type} (l : List α) (n : Nat) : (l.take n).length ≤ n := by rw [List.length_take]; exact Nat.min_le_left _ _

theorem text_len {s : Str} (h : Text s) : (beEnc 2 s.length ++ (utf8 s).take s.length).length < 2 + 2 ^ 16 := by
  have h1 := take_le (utf8 s) s.length
  have h2 := h.2
  rw [List.length_append, beEnc_length]
  omega

/-- Every such packet can be sent to receivers looking for packets of its class, or of the class of all framed packets. -/
theorem Pkt.Good.announce_sendable {c : Classes} (hc : c.Ok) {a : Str} (h : Text a) : FramedSendable c.env c.framed (Pkt.val c (.announce a)) := by
  have htags : processFields announceDef.fields = .ok [0] := by decide +kernel
  have hl := text_len h
  refine framed_of_body (n := 1) hc.announceIs hc.announceFramed htags (by rw [announce_fields]; rfl) (by omega)
    (body := beEnc 2 0 ++ ((beEnc 2 a.length ++ (utf8 a).take a.length) ++ [])) ?_ ?_ (by decide +kernel) (by decide +kernel) ?_ ?_ ?_
  · rw [announce_fields]
    exact encF_set (by omega) (encStr h) (by rw [encF])
  · rw [List.length_append, List.length_append, beEnc_length]
    simp only [List.length_nil]
    omega
  · rw [announce_fields]; simp [acceptsF, accepts]
  · simp [flatF, flatV]
  · simp [asciiF, asciiV, h.1]

theorem wire_frag {env : Env} {i : Frag.Info} (h : i.fragId < 2 ^ 32 ∧ i.totalSize < 2 ^ 64 ∧ i.offset < 2 ^ 64) :
    ∃ b, encV env (.struct (.set (.num i.fragId) (.set (.num i.totalSize) (.set (.num i.offset) .nil)))) (.struct fragDecls) = .ok b ∧ b.length < 100 := by
  have htags : processFields fragDecls = .ok [0, 1, 2] := by decide +kernel
  have hn : countSet (.set (.num i.fragId) (.set (.num i.totalSize) (.set (.num i.offset) .nil))) fragDecls = .ok 3 := rfl
  have hb : encF env (.set (.num i.fragId) (.set (.num i.totalSize) (.set (.num i.offset) .nil))) fragDecls [0, 1, 2] = .ok _ :=
    encF_set (tag := 0) (by omega) (enc32 h.1) (encF_set (tag := 1) (by omega) (enc64 h.2.1) (encF_set (tag := 2) (by omega) (enc64 h.2.2) (by rw [encF])))
  rw [encV, htags]
  rw [Spmp.bindOk rfl, Spmp.bindOk hn, Spmp.bindOk (packU_nat (w := 2) (v := 3) (by omega)), Spmp.bindOk hb]
  exact ⟨_, rfl, by simp⟩

theorem validates_nat (n bits : Nat) (h : n < 2 ^ bits) : accepts (env := env) (.num n) (uint bits) = true := by
  have h1 : ((n : Int)) ≤ (2 : Int) ^ bits - 1 := by
    have : ((2 ^ bits : Nat) : Int) = (2 : Int) ^ bits := by push_cast; rfl
    omega
  simp only [uint, accepts, NumAttrs.validates, NumAttrs.effMax, Option.map]
  simp
  omega

theorem acc_str (env : Env) (s : Str) : accepts env (.str s) .str = true := by rw [accepts]
theorem acc_buf (env : Env) (b : Bytes) : accepts env (.buf b) .buf = true := by rw [accepts]

theorem wire_sendable {c : Classes} (hc : c.Ok) {base : Cls} (hb : c.env.isSub c.wire base = true) {w : Frag.Wire} (h : Pkt.Good (.wire w)) :
    FramedSendable c.env base (Pkt.val c (.wire w)) := by
  obtain ⟨⟨s, sp, d, dp⟩, f, data⟩ := w
  obtain ⟨h1, h2, h3, h4, h5, h6⟩ := h
  dsimp only at h1 h2 h3 h4 h5 h6
  have htags : processFields wireDef.fields = .ok [0, 1, 2, 3, 4, 5] := by decide +kernel
  have l1 := text_len h1
  have l2 := text_len h2
  cases f with
  | none =>
    refine framed_of_body (n := 5) hc.wireIs hb htags (by rw [wire_fields]; rfl) (by omega)
      (by rw [wire_fields]; exact encF_set (by omega) (encStr h1) (encF_set (by omega) (enc16 h3) (encF_set (by omega) (encStr h2)
        (encF_set (by omega) (enc16 h4) (by
          rw [fragVals, encF_unset]; exact encF_set (by omega) (encBuf (by show data.length < _; omega)) (by rw [encF])))))) ?_ (by decide +kernel) (by decide +kernel) ?_ ?_ ?_
    · simp only [List.length_append, beEnc_length, List.length_nil] at l1 l2 ⊢
      omega
    · rw [wire_fields]; simp [fragVals, acceptsF, validates_nat, h3, h4, acc_str, acc_buf]
    · simp [fragVals, flatF, flatV]
    · simp [fragVals, asciiF, asciiV, h1.1, h2.1]
  | some i =>
    obtain ⟨i1, i2, i3⟩ := h5 i rfl
    obtain ⟨fb, hf, hfl⟩ := wire_frag (env := c.env) (h5 i rfl)
    refine framed_of_body (n := 6) hc.wireIs hb htags (by rw [wire_fields]; rfl) (by omega)
      (by rw [wire_fields]; exact encF_set (by omega) (encStr h1) (encF_set (by omega) (enc16 h3) (encF_set (by omega) (encStr h2)
        (encF_set (by omega) (enc16 h4) (by
          rw [fragVals]; exact encF_set (by omega) hf (encF_set (by omega) (encBuf (by show data.length < _; omega)) (by rw [encF]))))))) ?_ (by decide +kernel) (by decide +kernel) ?_ ?_ ?_
    · simp only [List.length_append, beEnc_length, List.length_nil] at l1 l2 ⊢
      omega
    · have hfr : accepts c.env (.struct (.set (.num i.fragId) (.set (.num i.totalSize) (.set (.num i.offset) .nil)))) (.struct fragDecls) = true := by
        rw [accepts, fragDecls]; simp [acceptsF, validates_nat, i1, i2, i3]
      rw [wire_fields]; simp [fragVals, acceptsF, validates_nat, h3, h4, hfr, acc_str, acc_buf]
    · simp [fragVals, flatF, flatV]
    · simp [fragVals, asciiF, asciiV, h1.1, h2.1]

theorem Pkt.Good.sendable {c : Classes} (hc : c.Ok) {p : Pkt} (h : p.Good) : FramedSendable c.env c.framed (p.val c) := by
  cases p with
  | announce a => exact announce_sendable hc h
  | wire w => exact wire_sendable hc hc.wireFramed h

/-- The bytes of a packet. -/
def pser (c : Classes) (p : Pkt) : Bytes := fser c.env (p.val c)

theorem Pkt.Good.ser {c : Classes} (hc : c.Ok) {p : Pkt} (h : p.Good) : framedSerialize c.env 0 (p.val c) = .ok (pser c p) := by
  obtain ⟨b, hb⟩ := (h.sendable hc).serializes
  unfold pser fser; rw [hb]

theorem Pkt.Good.ser_ne {c : Classes} (hc : c.Ok) {p : Pkt} (h : p.Good) : pser c p ≠ [] := by
  unfold pser
  rw [fser_eq (h.sendable hc)]
  intro he
  have := congrArg List.length he
  simp [frame] at this

/-- Every wire packet has at least 67 bytes. -/
theorem Pkt.Good.ser_len {c : Classes} (hc : c.Ok) {w : Frag.Wire} (h : Pkt.Good (.wire w)) : 67 ≤ (pser c (.wire w)).length := by
  have hs := wire_sendable hc hc.wireSelf h
  obtain ⟨cls, fs, c', h0, h1, h2, h3⟩ := sendable_cases hs.inv.1
  obtain ⟨d, tags, n, hd, body, hdr, hcls, ht, hn, hh, hb, hhdr, rfl⟩ := encPacket_inv h3
  have hk : cls = c.wire := by
    have := congrArg (fun v => match v with | Val.packet k _ => k | _ => 0) h0
    exact this.symm
  rw [hk, hc.wireIs] at hcls
  cases hcls
  obtain ⟨_, _, _, h4⟩ := encHeader_inv hhdr
  have hl := packU_len hh
  have e1 : (utf8 wireDef.ident).length = 20 := by decide +kernel
  have e2 : (utf8 wireDef.version).length = 3 := by decide +kernel
  rw [pser, fser_eq hs, h2]
  simp only [frame, framePrefix, frameSuffix, List.length_append, beEnc_length, MAGIC, REV_MAGIC, h4, hdr16, e1, e2, hl]
  simp
  omega

/-- Everything a link side writes fits. -/
theorem write_good {h : Frag.Header} {id : Nat} {data : Bytes} {l : Nat} (hf : Fits (.write l h id data)) : ∀ p ∈ (Frag.write h id data).map Pkt.wire, p.Good := by
  obtain ⟨h1, h2, h3, h4, h5, h6⟩ := hf
  intro p hp
  obtain ⟨w, hw, rfl⟩ := List.mem_map.mp hp
  by_cases hs : data.length ≤ 2 ^ 16
  · rw [Frag.C29_sender_small _ _ _ hs] at hw
    cases List.mem_singleton.mp hw
    exact ⟨h1, h2, h3, h4, by simp, hs⟩
  · obtain ⟨_, g, _⟩ := Frag.C29_sender h id data (by unfold Frag.MAX_MSG_SIZE; omega)
    obtain ⟨g1, g2, g3, o, g4, g5, _⟩ := g w hw
    rw [← g1] at h1 h2 h3 h4
    refine ⟨h1, h2, h3, h4, ?_, g3⟩
    intro i hi
    rw [g4] at hi
    cases hi
    exact ⟨h5, h6, by show o < _; omega⟩

/-! ## What the events do -/

@[simp] theorem upd_same {α : Type} (f : Nat → α) (l : Nat) (x : α) : upd f l x l = x := by simp [upd]
theorem upd_other {α : Type} (f : Nat → α) {l k : Nat} (x : α) (h : k ≠ l) : upd f l x k = f k := by simp [upd, h]
theorem upd_upd {α : Type} (f : Nat → α) (l : Nat) (x y : α) : upd (upd f l x) l y = upd f l y := by
  funext k; unfold upd; split <;> rfl
theorem upd_self {α : Type} (f : Nat → α) (l : Nat) : upd f l (f l) = f := by
  funext k; unfold upd; split
  · next h => rw [h]
  · rfl

theorem mem_add (l : List Nat) (x k : Nat) : k ∈ add l x ↔ k ∈ l ∨ k = x := by
  unfold add; split
  · constructor
    · exact .inl
    · rintro (h | rfl) <;> assumption
  · simp

theorem send_eq {c : Classes} (hc : c.Ok) (l : Nat) : ∀ (ps : List Pkt), (∀ p ∈ ps, p.Good) → ∀ n : Net,
    n.send c l ps = { n with toSwitch := upd n.toSwitch l (n.toSwitch l ++ ps.flatMap (pser c)) }
  | [], _, n => by simp [Net.send, upd_self]
  | p :: ps, hp, n => by
    unfold Net.send
    rw [(hp p (by simp)).ser hc]
    dsimp only
    rw [send_eq hc l ps (fun q hq => hp q (by simp [hq]))]
    simp [upd_upd]

theorem forward_eq {c : Classes} (hc : c.Ok) {p : Pkt} (hp : p.Good) : ∀ (ls : List Nat), ls.Nodup → ∀ n : Net, (∀ l ∈ ls, l ∈ n.swUp) →
    n.forward c (p.val c) ls = ({ n with toHost := fun k => if k ∈ ls then n.toHost k ++ pser c p else n.toHost k }, false)
  | [], _, n, _ => by simp [Net.forward]
  | d :: ds, hd, n, hu => by
    unfold Net.forward
    rw [hp.ser hc]
    dsimp only
    rw [if_pos (hu d (by simp)), forward_eq hc hp ds (List.nodup_cons.mp hd).2 { n with toHost := upd n.toHost d (n.toHost d ++ pser c p) } (fun l hl => hu l (by simp [hl]))]
    congr 2
    funext k
    have hnd := (List.nodup_cons.mp hd).1
    by_cases hk : k = d
    · subst hk; simp [hnd]
    · simp [upd_other _ _ hk, hk]

theorem ops_append (a b : List Act) : ops (a ++ b) = ops a ++ ops b := by
  induction a with
  | nil => rfl
  | cons x a ih =>
    cases x with
    | handled l p => cases p <;> simp [ops, ih]
    | lost l => simp [ops, ih]

theorem handledFrom_append (l : Nat) (a b : List Act) : handledFrom l (a ++ b) = handledFrom l a ++ handledFrom l b := by
  induction a with
  | nil => rfl
  | cons x a ih =>
    cases x with
    | handled k p => by_cases hk : k = l <;> simp [handledFrom, ih, hk]
    | lost l => simp [handledFrom, ih]

theorem losses_append (a b : List Act) : losses (a ++ b) = losses a ++ losses b := by
  induction a with
  | nil => rfl
  | cons x a ih => cases x <;> simp [losses, ih]

/-- Handling a packet at the switch. -/
theorem handle_spec {c : Classes} (hc : c.Ok) {n : Net} {log : List Act} (hsw : Switch.new.exec (ops log) = .ok n.switch)
    (hup : ∀ l a, n.switch.linkToAddress.get l = some a → l ∈ n.swUp) {l : Nat} (hl : l ∈ n.swUp) {p : Pkt} (hp : p.Good) :
    ∃ sw th raised, n.handle c l (p.val c) = ({ n with switch := sw, toHost := th }, raised) ∧
      Switch.new.exec (ops (log ++ [.handled l p])) = .ok sw ∧ (∀ l a, sw.linkToAddress.get l = some a → l ∈ n.swUp) ∧
      (∀ k, ((∃ w, p = .wire w ∧ Receives log k w) → th k = n.toHost k ++ pser c p) ∧
        ((¬ ∃ w, p = .wire w ∧ Receives log k w) → th k = n.toHost k)) ∧ (CalmPkt p → raised = false) := by
  obtain ⟨s', e1, e2, e3⟩ := Switch.exec_spec (ops log)
  rw [hsw] at e1; cases e1
  unfold Net.handle
  rw [ofVal_val hc]
  cases p with
  | announce a =>
    dsimp only
    obtain ⟨s', g1, g2, g3⟩ := Switch.register_spec e2 a l
    rw [g1]
    refine ⟨s', n.toHost, false, rfl, ?_, ?_, fun k => ⟨by rintro ⟨w, hw, _⟩; simp at hw, fun _ => rfl⟩, fun _ => rfl⟩
    · rw [ops_append, Switch.exec_append, hsw]
      simp only [ops, Switch.exec, Switch.step, g1]
    · intro q b hb
      rw [g3] at hb
      split at hb
      · next hq => rw [hq.1]; exact hl
      · exact hup q b hb
  | wire w =>
    dsimp only
    have hops : ops (log ++ [.handled l (.wire w)]) = ops log := by rw [ops_append]; simp [ops]
    cases hb : Addr.blockFromString w.header.destination with
    | ok a =>
      obtain ⟨ls, g1, g2, g3⟩ := C27_links_block (ops log) n.switch hsw w.header.destination a hb
      have hrec : ∀ k, k ∈ ls ↔ ∃ w', Pkt.wire w = .wire w' ∧ Receives log k w' := by
        intro k
        rw [g3]
        constructor
        · rintro ⟨b, h1, h2⟩
          exact ⟨w, rfl, b.str, h2, a, hb, List.mem_map.mpr ⟨b, h1, rfl⟩⟩
        · rintro ⟨w', he, b, h1, a', h2, h3⟩
          cases he
          rw [hb] at h2; cases h2
          obtain ⟨x, hx, rfl⟩ := List.mem_map.mp h3
          exact ⟨x, hx, h1⟩
      rw [g1]
      dsimp only
      rw [forward_eq hc hp ls g2 n (by
        intro k hk
        obtain ⟨b, _, h2⟩ := (g3 k).mp hk
        exact hup k _ ((e3 k _).mpr h2))]
      refine ⟨n.switch, _, false, rfl, by rw [hops]; exact hsw, hup, fun k => ⟨fun h => ?_, fun h => ?_⟩, fun _ => rfl⟩
      · rw [if_pos ((hrec k).mpr h)]
      · rw [if_neg (fun hk => h ((hrec k).mp hk))]
    | error e =>
      have hno : ∀ k, ¬ ∃ w', Pkt.wire w = .wire w' ∧ Receives log k w' := by
        rintro k ⟨w', he, b, h1, a', h2, h3⟩
        cases he
        rw [hb] at h2; cases h2
      by_cases hv : BlockText w.header.destination
      · have : n.switch.getOutboundLinks w.header.destination = .error .invalidAddress :=
          (C28_raises_iff n.switch w.header.destination).mpr ⟨hv, fun a ha => by rw [hb] at ha; cases ha⟩
        rw [this]
        refine ⟨n.switch, n.toHost, true, rfl, by rw [hops]; exact hsw, hup, fun k => ⟨fun h => absurd h (hno k), fun _ => rfl⟩, ?_⟩
        rintro (⟨a, ha⟩ | h)
        · rw [hb] at ha; cases ha
        · exact absurd hv h
      · rw [(C28_ignored_partial n.switch _ hv l).2]
        exact ⟨n.switch, n.toHost, false, rfl, by rw [hops]; exact hsw, hup, fun k => ⟨fun h => absurd h (hno k), fun _ => rfl⟩, fun _ => rfl⟩

/-- What the receiving link side makes of the packets that become complete. -/
theorem Tx.loop_spec {c : Classes} (hc : c.Ok) : ∀ (k : Nat) (left : List Frag.Wire) (t : Tx) (v : Option Bytes) (fut : Bytes),
    (∀ w ∈ left, Pkt.Good (.wire w)) → FInv c.env c.wire t.des (left.map fun w => Pkt.val c (.wire w)) fut → t.des.frm.s.buf.length < k →
    ∃ done left', left = done ++ left' ∧ FBlocked c.env c.wire (Tx.loop c k t v).des (left'.map fun w => Pkt.val c (.wire w)) fut ∧
      (Tx.loop c k t v).store = (Frag.loop t.store v done).1 ∧ (Tx.loop c k t v).got = t.got ++ (Frag.loop t.store v done).2
  | 0, _, _, _, _, _, _, hn => absurd hn (by omega)
  | k + 1, left, t, v, fut, hg, hi, hn => by
    unfold Tx.loop
    rcases hi.iter hc.registered (fun x hx => by
        obtain ⟨w, hw, rfl⟩ := List.mem_map.mp hx
        exact (wire_sendable hc hc.wireSelf (hg w hw)).ok hc.registered) with ⟨st', h1, h2⟩ | ⟨st', q, qs', he, h1, h2, h3⟩
    · rw [h1]
      exact ⟨[], left, rfl, h2, rfl, by simp [Frag.loop]⟩
    · rw [h1]
      cases left with
      | nil => simp at he
      | cons w left =>
        simp only [List.map_cons, List.cons.injEq] at he
        obtain ⟨rfl, rfl⟩ := he
        dsimp only
        rw [ofVal_val hc]
        dsimp only
        obtain ⟨done, left', e1, e2, e3, e4⟩ := Tx.loop_spec hc k left
          ⟨st', (Frag.absorb t.store w).1, t.got ++ Frag.deliver w (Frag.keep v (Frag.absorb t.store w).2)⟩
          (Frag.keep v (Frag.absorb t.store w).2) fut (fun x hx => hg x (by simp [hx])) h2 (by dsimp only; omega)
        refine ⟨w :: done, left', by rw [e1]; rfl, e2, ?_, ?_⟩
        · rw [e3]; rfl
        · rw [e4, List.append_assoc]; rfl

/-- What holds of every network that arises: `log` is what the switch has seen, `S` what the link sides have written, `W` what was routed to them,
`E` what they have received, `I` the kinds of what has happened there. -/
structure Core (c : Classes) (n : Net) (log : List Act) (S : Nat → List Pkt) (W : Nat → List Frag.Wire) (E : Nat → List Frag.Ev)
    (I : Nat → List (Option Nat)) : Prop where
  sw : Switch.new.exec (ops log) = .ok n.switch
  up : ∀ l a, n.switch.linkToAddress.get l = some a → l ∈ n.swUp
  good : ∀ l, ∀ p ∈ S l, p.Good
  rx : ∀ l, ∃ left, S l = handledFrom l log ++ left ∧ FInv c.env c.framed (n.rx l) (left.map (Pkt.val c)) (n.toSwitch l)
  tx : ∀ l, ∃ left, Routed l log (W l) ∧ W l = Frag.packets (E l) ++ left ∧ (∀ w ∈ left, Pkt.Good (.wire w)) ∧
    FBlocked c.env c.wire (n.tx l).des (left.map fun w => Pkt.val c (.wire w)) (n.toHost l) ∧
    (n.tx l).store = (Frag.exec [] (E l)).1 ∧ (n.tx l).got = (Frag.exec [] (E l)).2 ∧ kinds (E l) = I l

/-- Everything that has arrived from `l` has been handled. -/
def Done (n : Net) (log : List Act) (S : Nat → List Pkt) (l : Nat) : Prop :=
  (∀ p ∈ S l, CalmPkt p) → S l = handledFrom l log ∨ n.toSwitch l ≠ []

/-- One packet is handled. -/
theorem Core.handled {c : Classes} (hc : c.Ok) {n : Net} {log : List Act} {S W E I} (h : Core c n log S W E I) {l : Nat} {p : Pkt} {left : List Pkt}
    (hS : S l = handledFrom l log ++ p :: left) {d : FState} (hd : FInv c.env c.framed d (left.map (Pkt.val c)) (n.toSwitch l)) {sw th}
    (h1 : Switch.new.exec (ops (log ++ [.handled l p])) = .ok sw) (h2 : ∀ l a, sw.linkToAddress.get l = some a → l ∈ n.swUp)
    (h3 : ∀ k, ((∃ w, p = .wire w ∧ Receives log k w) → th k = n.toHost k ++ pser c p) ∧
        ((¬ ∃ w, p = .wire w ∧ Receives log k w) → th k = n.toHost k)) :
    ∃ W' : Nat → List Frag.Wire, Core c { n with rx := upd n.rx l d, switch := sw, toHost := th } (log ++ [.handled l p]) S (fun k => W k ++ W' k) E I := by
  have hp : p.Good := h.good l p (by rw [hS]; simp)
  have hW : ∃ W' : Nat → List Frag.Wire, ∀ k, (∀ w, p = .wire w → Receives log k w → W' k = [w]) ∧
      ((¬ ∃ w, p = .wire w ∧ Receives log k w) → W' k = []) := by
    have : ∀ k, ∃ x : List Frag.Wire, (∀ w, p = .wire w → Receives log k w → x = [w]) ∧
        ((¬ ∃ w, p = .wire w ∧ Receives log k w) → x = []) := by
      intro k
      by_cases hr : ∃ w, p = .wire w ∧ Receives log k w
      · obtain ⟨w, rfl, hr⟩ := hr
        exact ⟨[w], fun w' he _ => by cases he; rfl, fun h => absurd ⟨w, rfl, hr⟩ h⟩
      · exact ⟨[], fun w he hw => absurd ⟨w, he, hw⟩ hr, fun _ => rfl⟩
    exact ⟨fun k => Classical.choose (this k), fun k => Classical.choose_spec (this k)⟩
  obtain ⟨W', hW'⟩ := hW
  refine ⟨W', h1, h2, h.good, fun k => ?_, fun k => ?_⟩
  · rw [handledFrom_append]
    by_cases hk : k = l
    · subst hk
      refine ⟨left, by rw [hS]; simp [handledFrom], ?_⟩
      simpa using hd
    · obtain ⟨lf, e1, e2⟩ := h.rx k
      refine ⟨lf, by simp [handledFrom, Ne.symm hk, e1], ?_⟩
      simpa [upd_other _ _ hk] using e2
  · obtain ⟨lf, e1, e2, e3, e4, e5, e6, e7⟩ := h.tx k
    by_cases hr : ∃ w, p = .wire w ∧ Receives log k w
    · have ht := (h3 k).1 hr
      obtain ⟨w, rfl, hr⟩ := hr
      rw [(hW' k).1 w rfl hr]
      refine ⟨lf ++ [w], .gets e1 hr, by rw [e2, List.append_assoc], ?_, ?_, e5, e6, e7⟩
      · intro x hx
        rcases List.mem_append.mp hx with hx | hx
        · exact e3 x hx
        · cases List.mem_singleton.mp hx; exact hp
      · dsimp only
        rw [ht, List.map_append]
        have hsend := wire_sendable hc hc.wireSelf hp
        have := e4.extend hc.registered (hsend.ok hc.registered)
        rw [pser, fser_eq hsend]
        exact this
    · have ht := (h3 k).2 hr
      rw [(hW' k).2 hr, List.append_nil]
      refine ⟨lf, ?_, e2, e3, by dsimp only; rw [ht]; exact e4, e5, e6, e7⟩
      cases p with
      | announce a => exact .announce e1
      | wire w => exact .ignored e1 (fun h => hr ⟨w, rfl, h⟩)

/-- One call of `data_received` at the switch. -/
theorem loop_spec {c : Classes} (hc : c.Ok) {S : Nat → List Pkt} {E I} {l : Nat} : ∀ (k : Nat) (n : Net) (log : List Act) (W : Nat → List Frag.Wire),
    Core c n log S W E I → l ∈ n.swUp → (n.rx l).frm.s.buf.length < k →
    ∃ (acts : List Act) (W' : Nat → List Frag.Wire), Core c (Net.loop c l k n) (log ++ acts) S (fun k => W k ++ W' k) E I ∧ (∀ a ∈ acts, ∃ p, a = .handled l p) ∧
      (Net.loop c l k n).swUp = n.swUp ∧ (Net.loop c l k n).hostUp = n.hostUp ∧ (Net.loop c l k n).toSwitch = n.toSwitch ∧
      Done (Net.loop c l k n) (log ++ acts) S l
  | 0, _, _, _, _, _, hk => absurd hk (by omega)
  | k + 1, n, log, W, h, hl, hk => by
    unfold Net.loop
    obtain ⟨left, e1, e2⟩ := h.rx l
    have hgood : ∀ p ∈ left, p.Good := fun p hp => h.good l p (by rw [e1]; simp [hp])
    rcases e2.iter hc.registered (fun x hx => by
        obtain ⟨p, hp, rfl⟩ := List.mem_map.mp hx
        exact ((hgood p hp).sendable hc).ok hc.registered) with ⟨st', g1, g2⟩ | ⟨st', q, qs', he, g1, g2, g3⟩
    · rw [g1]
      refine ⟨[], fun _ => [], ?_, by simp, rfl, rfl, rfl, ?_⟩
      · simp only [List.append_nil]
        refine ⟨h.sw, h.up, h.good, fun j => ?_, h.tx⟩
        by_cases hj : j = l
        · subst hj; exact ⟨left, e1, by simpa using g2.1⟩
        · obtain ⟨lf, a1, a2⟩ := h.rx j
          exact ⟨lf, a1, by simpa [upd_other _ _ hj] using a2⟩
      · intro _
        rw [List.append_nil]
        cases left with
        | nil => left; rw [e1, List.append_nil]
        | cons p left =>
          right
          intro h0
          have := g2.2
          simp only [List.map_cons] at this
          rw [show n.toSwitch l = [] from h0] at this
          simp at this
    · rw [g1]
      cases left with
      | nil => simp at he
      | cons p left =>
        simp only [List.map_cons, List.cons.injEq] at he
        obtain ⟨rfl, rfl⟩ := he
        dsimp only
        obtain ⟨sw, th, raised, r1, r2, r3, r4, r5⟩ := handle_spec hc (n := { n with rx := upd n.rx l st' }) h.sw h.up hl (hgood p (by simp))
        obtain ⟨W1, hcore⟩ := h.handled hc e1 (d := st') g2 r2 r3 r4
        rw [r1]
        cases raised with
        | true =>
          dsimp only
          refine ⟨[.handled l p], W1, hcore, by simp, rfl, rfl, rfl, ?_⟩
          intro hcalm
          exact absurd (r5 (hcalm p (by rw [e1]; simp))) (by simp)
        | false =>
          dsimp only
          obtain ⟨acts, W2, a1, a2, a3, a4, a5, a6⟩ := loop_spec hc k { n with rx := upd n.rx l st', switch := sw, toHost := th } (log ++ [.handled l p]) _ hcore hl
            (by simp; omega)
          refine ⟨.handled l p :: acts, fun k => W1 k ++ W2 k, ?_, ?_, a3, a4, a5, ?_⟩
          · simp only [List.append_assoc] at a1; exact a1
          · intro a ha
            rcases List.mem_cons.mp ha with rfl | ha
            · exact ⟨p, rfl⟩
            · exact a2 a ha
          · rw [List.append_assoc] at a6; exact a6

theorem exec_snoc (st : Frag.State) (h : List Frag.Ev) (e : Frag.Ev) :
    Frag.exec st (h ++ [e]) = ((Frag.step (Frag.exec st h).1 e).1, (Frag.exec st h).2 ++ (Frag.step (Frag.exec st h).1 e).2) := by
  induction h generalizing st with
  | nil => simp [Frag.exec]
  | cons x h ih => simp only [List.cons_append, Frag.exec, ih, List.append_assoc]

theorem packets_snoc (h : List Frag.Ev) (ws : List Frag.Wire) : Frag.packets (h ++ [.data ws]) = Frag.packets h ++ ws := by
  induction h with
  | nil => simp [Frag.packets]
  | cons x h ih => cases x <;> simp [Frag.packets, ih]

theorem packets_timeout (h : List Frag.Ev) (i : Nat) : Frag.packets (h ++ [.timeout i]) = Frag.packets h := by
  induction h with
  | nil => simp [Frag.packets]
  | cons x h ih => cases x <;> simp [Frag.packets, ih]

theorem kinds_snoc (h : List Frag.Ev) (e : Frag.Ev) : kinds (h ++ [e]) = kinds h ++ kinds [e] := by
  induction h with
  | nil => rfl
  | cons x h ih => cases x <;> simp [kinds, ih]

/-- Several more packets are sent. -/
theorem FInv.extends {env : Env} (hr : env.Registered) {cls : Cls} {st : FState} : ∀ (ps : List Val), (∀ p ∈ ps, FramedSendable env cls p) →
    ∀ {qs : List Val} {fut : Bytes}, FInv env cls st qs fut → FInv env cls st (qs ++ ps) (fut ++ ps.flatMap (fser env))
  | [], _, qs, fut, h => by simpa using h
  | p :: ps, hp, qs, fut, h => by
    have h1 := h.extend hr ((hp p (by simp)).ok hr)
    rw [← fser_eq (hp p (by simp))] at h1
    have h2 := FInv.extends hr ps (fun q hq => hp q (by simp [hq])) h1
    simpa using h2

/-- A link side writes packets. -/
theorem Core.sends {c : Classes} (hc : c.Ok) {n : Net} {log : List Act} {S W E I} (h : Core c n log S W E I) (hd : ∀ l, Done n log S l) (l : Nat) (ps : List Pkt)
    (hp : ∀ p ∈ ps, p.Good) :
    Core c (n.send c l ps) log (fun k => if k = l then S k ++ ps else S k) W E I ∧ ∀ k, Done (n.send c l ps) log (fun k => if k = l then S k ++ ps else S k) k := by
  rw [send_eq hc l ps hp]
  refine ⟨⟨h.sw, h.up, fun k p hk => ?_, fun k => ?_, h.tx⟩, fun k => ?_⟩
  · split at hk
    · rcases List.mem_append.mp hk with hk | hk
      · exact h.good k p hk
      · exact hp p hk
    · exact h.good k p hk
  · obtain ⟨left, e1, e2⟩ := h.rx k
    by_cases hk : k = l
    · subst hk
      refine ⟨left ++ ps, by simp [e1], ?_⟩
      have := FInv.extends hc.registered (ps.map (Pkt.val c)) (fun x hx => by
        obtain ⟨p, hm, rfl⟩ := List.mem_map.mp hx
        exact (hp p hm).sendable hc) e2
      rw [List.flatMap_map] at this
      dsimp only
      rw [upd_same, List.map_append]
      exact this
    · exact ⟨left, by simp [hk, e1], by simpa [upd_other _ _ hk] using e2⟩
  · unfold Done
    by_cases hk : k = l
    · subst hk
      simp only [if_true, upd_same]
      intro hcalm
      cases ps with
      | nil =>
        rw [List.append_nil] at hcalm ⊢
        simpa using hd k hcalm
      | cons p ps =>
        right
        intro he
        exact (hp p (by simp)).ser_ne hc (List.append_eq_nil_iff.mp (List.append_eq_nil_iff.mp he).2).1
    · simp only [if_neg hk, upd_other _ _ hk]
      exact hd k

/-- What an event adds for each connection. -/
theorem step_spec {c : Classes} (hc : c.Ok) {n : Net} {log : List Act} {S W E I} (h : Core c n log S W E I) (hd : ∀ l, Done n log S l) {e : Ev} (he : Fits e) :
    ∃ (acts : List Act) (W' : Nat → List Frag.Wire) (E' : Nat → List Frag.Ev), Core c (n.step c e) (log ++ acts) (fun l => S l ++ sent (decide (l ∈ n.hostUp)) l [e]) (fun l => W l ++ W' l) (fun l => E l ++ E' l)
        (fun l => I l ++ inputs (decide (l ∈ n.hostUp)) l [e]) ∧
      (∀ l, Done (n.step c e) (log ++ acts) (fun l => S l ++ sent (decide (l ∈ n.hostUp)) l [e]) l) ∧ losses acts = lossesIn [e] ∧
      ∀ l ws, Frag.Ev.data ws ∈ E' l → 2 ≤ ws.length → ∃ k, e = .toHost l k ∧ 67 < k := by
  cases e with
  | accept l =>
    refine ⟨[], fun _ => [], fun _ => [], ?_, ?_, rfl, by simp⟩
    · simp only [sent, inputs, List.append_nil]
      exact ⟨h.sw, fun k a hk => (mem_add _ _ _).mpr (.inl (h.up k a hk)), h.good, h.rx, h.tx⟩
    · simp only [sent, List.append_nil]; exact hd
  | connect l a =>
    have h' : Core c { n with hostUp := add n.hostUp l } log S W E I := ⟨h.sw, h.up, h.good, h.rx, h.tx⟩
    obtain ⟨g1, g2⟩ := h'.sends hc hd l [.announce a] (by intro p hp; cases List.mem_singleton.mp hp; exact he)
    have hS : (fun k => S k ++ sent (decide (k ∈ n.hostUp)) k [.connect l a]) = fun k => if k = l then S k ++ [.announce a] else S k := by
      funext k
      by_cases hk : l = k
      · subst hk; simp [sent]
      · simp [sent, hk, Ne.symm hk]
    have hI : (fun k => I k ++ inputs (decide (k ∈ n.hostUp)) k [.connect l a]) = I := by
      funext k; simp [inputs]
    rw [hS, hI]
    refine ⟨[], fun _ => [], fun _ => [], ?_, ?_, rfl, by simp⟩
    · simp only [List.append_nil]; exact g1
    · rw [List.append_nil]; exact g2
  | announce l a =>
    have hI : (fun k => I k ++ inputs (decide (k ∈ n.hostUp)) k [.announce l a]) = I := by
      funext k; simp [inputs]
    rw [hI]
    refine ⟨[], fun _ => [], fun _ => [], ?_⟩
    simp only [List.append_nil]
    rw [Net.step]
    by_cases hl : l ∈ n.hostUp
    · obtain ⟨g1, g2⟩ := h.sends hc hd l [.announce a] (by intro p hp; cases List.mem_singleton.mp hp; exact he)
      have hS : (fun k => S k ++ sent (decide (k ∈ n.hostUp)) k [.announce l a]) = fun k => if k = l then S k ++ [.announce a] else S k := by
        funext k
        by_cases hk : l = k
        · subst hk; simp [sent, hl]
        · simp [sent, hk, Ne.symm hk]
      rw [hS, if_pos hl]
      exact ⟨g1, g2, rfl, by simp⟩
    · have hS : (fun k => S k ++ sent (decide (k ∈ n.hostUp)) k [.announce l a]) = S := by
        funext k
        by_cases hk : l = k
        · subst hk; simp [sent, hl]
        · simp [sent, hk]
      rw [hS, if_neg hl]
      exact ⟨h, hd, rfl, by simp⟩
  | write l hd' id data =>
    have hI : (fun k => I k ++ inputs (decide (k ∈ n.hostUp)) k [.write l hd' id data]) = I := by
      funext k; simp [inputs]
    rw [hI]
    refine ⟨[], fun _ => [], fun _ => [], ?_⟩
    simp only [List.append_nil]
    rw [Net.step]
    by_cases hl : l ∈ n.hostUp
    · obtain ⟨g1, g2⟩ := h.sends hc hd l ((Frag.write hd' id data).map .wire) (write_good he)
      have hS : (fun k => S k ++ sent (decide (k ∈ n.hostUp)) k [.write l hd' id data]) =
          fun k => if k = l then S k ++ (Frag.write hd' id data).map .wire else S k := by
        funext k
        by_cases hk : l = k
        · subst hk; simp [sent, hl]
        · simp [sent, hk, Ne.symm hk]
      rw [hS, if_pos hl]
      exact ⟨g1, g2, rfl, by simp⟩
    · have hS : (fun k => S k ++ sent (decide (k ∈ n.hostUp)) k [.write l hd' id data]) = S := by
        funext k
        by_cases hk : l = k
        · subst hk; simp [sent, hl]
        · simp [sent, hk]
      rw [hS, if_neg hl]
      exact ⟨h, hd, rfl, by simp⟩
  | toSwitch l k =>
    have hS : (fun j => S j ++ sent (decide (j ∈ n.hostUp)) j [.toSwitch l k]) = S := by funext j; simp [sent]
    have hI : (fun j => I j ++ inputs (decide (j ∈ n.hostUp)) j [.toSwitch l k]) = I := by funext j; simp [inputs]
    rw [hS, hI, Net.step]
    by_cases hl : l ∈ n.swUp
    · rw [if_pos hl]
      unfold Net.switchData
      have h' : Core c { n with toSwitch := upd n.toSwitch l ((n.toSwitch l).drop k), rx := upd n.rx l ((n.rx l).update ((n.toSwitch l).take k)) } log S W E I := by
        refine ⟨h.sw, h.up, h.good, fun j => ?_, h.tx⟩
        obtain ⟨left, e1, e2⟩ := h.rx j
        refine ⟨left, e1, ?_⟩
        by_cases hj : j = l
        · subst hj
          simp only [upd_same]
          refine FInv.update ?_
          rw [List.take_append_drop]; exact e2
        · simpa [upd_other _ _ hj] using e2
      obtain ⟨acts, W', a1, a2, a3, a4, a5, a6⟩ := loop_spec hc (l := l) (((n.rx l).update ((n.toSwitch l).take k)).frm.s.buf.length + 1) _ log W h' hl (by simp)
      refine ⟨acts, W', fun _ => [], by simp only [List.append_nil]; exact a1, fun j => ?_, ?_, by simp⟩
      · by_cases hj : j = l
        · subst hj; exact a6
        · intro hcalm
          have hz : handledFrom j acts = [] := by
            have : ∀ acts : List Act, (∀ a ∈ acts, ∃ p, a = .handled l p) → handledFrom j acts = [] := by
              intro acts
              induction acts with
              | nil => intro _; rfl
              | cons a acts ih =>
                intro ha
                obtain ⟨p, rfl⟩ := ha a (by simp)
                simp [handledFrom, Ne.symm hj, ih (fun a h => ha a (by simp [h]))]
            exact this acts a2
          rcases hd j hcalm with hs | hs
          · left; rw [handledFrom_append, hz, List.append_nil]; exact hs
          · right
            rw [show (Net.loop c l _ _).toSwitch = _ from a5]
            simpa [upd_other _ _ hj] using hs
      · have : ∀ acts : List Act, (∀ a ∈ acts, ∃ p, a = .handled l p) → losses acts = [] := by
          intro acts
          induction acts with
          | nil => intro _; rfl
          | cons a acts ih =>
            intro ha
            obtain ⟨p, rfl⟩ := ha a (by simp)
            simp [losses, ih (fun a h => ha a (by simp [h]))]
        exact this acts a2
    · rw [if_neg hl]
      exact ⟨[], fun _ => [], fun _ => [], by simp only [List.append_nil]; exact h, by rw [List.append_nil]; exact hd, rfl, by simp⟩
  | toHost l k =>
    have hS : (fun j => S j ++ sent (decide (j ∈ n.hostUp)) j [.toHost l k]) = S := by funext j; simp [sent]
    rw [hS, Net.step]
    by_cases hl : l ∈ n.hostUp
    · rw [if_pos hl]
      obtain ⟨left, e1, e2, e3, e4, e5, e6, e7⟩ := h.tx l
      obtain ⟨done, left', g1, g2, g3, g4⟩ := Tx.loop_spec hc (((n.tx l).des.update ((n.toHost l).take k)).frm.s.buf.length + 1) left
          { n.tx l with des := (n.tx l).des.update ((n.toHost l).take k) } none ((n.toHost l).drop k) e3
          (FInv.update (by rw [List.take_append_drop]; exact e4.1)) (Nat.lt_succ_self _)
      refine ⟨[], fun _ => [], fun j => if j = l then [.data done] else [], ?_, ?_, rfl, ?_⟩
      · simp only [List.append_nil]
        refine ⟨h.sw, h.up, h.good, h.rx, fun j => ?_⟩
        by_cases hj : j = l
        · subst hj
          simp only [upd_same, if_true]
          refine ⟨left', e1, ?_, fun w hw => e3 w (by rw [g1]; simp [hw]), g2, ?_, ?_, ?_⟩
          · rw [packets_snoc, e2, g1, List.append_assoc]
          · rw [exec_snoc, ← e5]; exact g3
          · rw [exec_snoc, ← e5, ← e6]; exact g4
          · rw [kinds_snoc, e7]; simp [kinds, inputs, hl]
        · obtain ⟨left, e1, e2, e3, e4, e5, e6, e7⟩ := h.tx j
          simp only [if_neg hj, List.append_nil, upd_other _ _ hj]
          refine ⟨left, e1, e2, e3, e4, e5, e6, ?_⟩
          simpa [inputs, Ne.symm hj] using e7
      · rw [List.append_nil]; exact hd
      · intro j ws hw hlen
        dsimp only at hw
        split at hw
        · next hj =>
          subst hj
          cases List.mem_singleton.mp hw
          refine ⟨k, rfl, ?_⟩
          obtain _ | ⟨w1, _ | ⟨w2, done⟩⟩ := done
          · simp at hlen
          · simp at hlen
          · rw [g1] at e4
            have hg := e3 w2 (by rw [g1]; simp)
            have ht := FBlocked.two (done := done.map fun w => Pkt.val c (.wire w)) (left := left'.map fun w => Pkt.val c (.wire w)) (by simpa using e4) g2.1
            have hlen := hg.ser_len hc
            rw [pser, fser_eq (wire_sendable hc hc.wireSelf hg)] at hlen
            exact Nat.lt_of_le_of_lt hlen ht
        · simp at hw
    · rw [if_neg hl]
      have hI : (fun j => I j ++ inputs (decide (j ∈ n.hostUp)) j [.toHost l k]) = I := by
        funext j
        by_cases hj : l = j
        · subst hj; simp [inputs, hl]
        · simp [inputs, hj]
      rw [hI]
      exact ⟨[], fun _ => [], fun _ => [], by simp only [List.append_nil]; exact h, by rw [List.append_nil]; exact hd, rfl, by simp⟩
  | timeout l i =>
    have hS : (fun j => S j ++ sent (decide (j ∈ n.hostUp)) j [.timeout l i]) = S := by funext j; simp [sent]
    rw [hS, Net.step]
    refine ⟨[], fun _ => [], fun j => if j = l then [.timeout i] else [], ?_, ?_, rfl, ?_⟩
    · simp only [List.append_nil]
      refine ⟨h.sw, h.up, h.good, h.rx, fun j => ?_⟩
      obtain ⟨left, e1, e2, e3, e4, e5, e6, e7⟩ := h.tx j
      by_cases hj : j = l
      · subst hj
        simp only [upd_same, if_true]
        refine ⟨left, e1, by rw [packets_timeout]; exact e2, e3, e4, ?_, ?_, ?_⟩
        · rw [exec_snoc, ← e5]
        · rw [exec_snoc, e6]; simp [Frag.step]
        · rw [kinds_snoc, e7]; simp [kinds, inputs]
      · simp only [if_neg hj, List.append_nil, upd_other _ _ hj]
        refine ⟨left, e1, e2, e3, e4, e5, e6, ?_⟩
        simpa [inputs, Ne.symm hj] using e7
    · rw [List.append_nil]; exact hd
    · intro j ws hw
      dsimp only at hw
      split at hw
      · simp at hw
      · simp at hw
  | lostSwitch l =>
    have hS : (fun j => S j ++ sent (decide (j ∈ n.hostUp)) j [.lostSwitch l]) = S := by funext j; simp [sent]
    have hI : (fun j => I j ++ inputs (decide (j ∈ n.hostUp)) j [.lostSwitch l]) = I := by funext j; simp [inputs]
    rw [hS, hI, Net.step]
    obtain ⟨s0, x1, x2, x3⟩ := Switch.exec_spec (ops log)
    rw [h.sw] at x1; cases x1
    obtain ⟨s', g1, g2, g3⟩ := Switch.unregister_spec x2 l
    rw [g1]
    have hf : ∀ j, handledFrom j (log ++ [.lost l]) = handledFrom j log := by intro j; rw [handledFrom_append]; simp [handledFrom]
    refine ⟨[.lost l], fun _ => [], fun _ => [], ⟨?_, ?_, h.good, fun j => ?_, fun j => ?_⟩, fun j => ?_, rfl, by simp⟩
    · rw [ops_append, Switch.exec_append, h.sw]
      simp only [ops, Switch.exec, Switch.step, g1]
    · intro q a hq
      rw [g3] at hq
      split at hq
      · cases hq
      · next hne => exact List.mem_filter.mpr ⟨h.up q a hq, by simpa using hne⟩
    · rw [hf]; exact h.rx j
    · obtain ⟨left, e1, e2⟩ := h.tx j
      simp only [List.append_nil]
      exact ⟨left, .lost e1, e2⟩
    · unfold Done; rw [hf]; exact hd j
  | lostHost l =>
    have hS : (fun j => S j ++ sent (decide (j ∈ n.hostUp)) j [.lostHost l]) = S := by funext j; simp [sent]
    have hI : (fun j => I j ++ inputs (decide (j ∈ n.hostUp)) j [.lostHost l]) = I := by funext j; simp [inputs]
    rw [hS, hI]
    exact ⟨[], fun _ => [], fun _ => [], by simp only [List.append_nil]; exact ⟨h.sw, h.up, h.good, h.rx, h.tx⟩, by rw [List.append_nil]; exact hd, rfl, by simp⟩

/-! ## Histories -/

theorem sent_append (up : Bool) (l : Nat) (a b : List Ev) : sent up l (a ++ b) = sent up l a ++ sent (upAfter up l a) l b := by
  induction a generalizing up with
  | nil => rfl
  | cons e a ih =>
    cases e <;> simp only [List.cons_append, sent, upAfter, ih]
    case connect k x => split <;> simp
    case announce k x => split <;> simp
    case write k x y z => split <;> simp
    case lostHost k => split <;> simp

theorem inputs_append (up : Bool) (l : Nat) (a b : List Ev) : inputs up l (a ++ b) = inputs up l a ++ inputs (upAfter up l a) l b := by
  induction a generalizing up with
  | nil => rfl
  | cons e a ih =>
    cases e <;> simp only [List.cons_append, inputs, upAfter, ih]
    case connect k x => split <;> simp
    case toHost k x => split <;> simp
    case timeout k x => split <;> simp
    case lostHost k => split <;> simp

theorem upAfter_append (up : Bool) (l : Nat) (a b : List Ev) : upAfter up l (a ++ b) = upAfter (upAfter up l a) l b := by
  induction a generalizing up with
  | nil => rfl
  | cons e a ih => cases e <;> simp only [List.cons_append, upAfter, ih]

theorem lossesIn_append (a b : List Ev) : lossesIn (a ++ b) = lossesIn a ++ lossesIn b := by
  induction a with
  | nil => rfl
  | cons e a ih => cases e <;> simp [lossesIn, ih]

theorem exec_append (c : Classes) (n : Net) (a b : List Ev) : n.exec c (a ++ b) = (n.exec c a).exec c b := by
  induction a generalizing n with
  | nil => rfl
  | cons e a ih => exact ih _

theorem send_hostUp (c : Classes) (l : Nat) : ∀ (ps : List Pkt) (n : Net), (n.send c l ps).hostUp = n.hostUp
  | [], _ => rfl
  | p :: ps, n => by
    unfold Net.send
    split
    · rfl
    · rw [send_hostUp c l ps]

theorem forward_hostUp (c : Classes) (p : Val) : ∀ (ds : List Nat) (n : Net), (n.forward c p ds).1.hostUp = n.hostUp
  | [], _ => rfl
  | d :: ds, n => by
    unfold Net.forward
    split
    · rfl
    · split
      · rw [forward_hostUp c p ds]
      · rfl

theorem handle_hostUp (c : Classes) (n : Net) (l : Nat) (p : Val) : (n.handle c l p).1.hostUp = n.hostUp := by
  unfold Net.handle
  split
  · split <;> rfl
  · split
    · rfl
    · rw [forward_hostUp]
  · rfl

theorem loop_hostUp (c : Classes) (l : Nat) : ∀ (k : Nat) (n : Net), (Net.loop c l k n).hostUp = n.hostUp
  | 0, _ => rfl
  | k + 1, n => by
    unfold Net.loop
    split
    · rfl
    · rw [loop_hostUp c l k]
    · next p d _ =>
      have := handle_hostUp c { n with rx := upd n.rx l d } l p
      split
      · next n' he => rw [he] at this; exact this
      · next n' he => rw [he] at this; rw [loop_hostUp c l k]; exact this

theorem step_hostUp (c : Classes) (n : Net) (e : Ev) (l : Nat) : decide (l ∈ (n.step c e).hostUp) = upAfter (decide (l ∈ n.hostUp)) l [e] := by
  cases e with
  | accept k => rfl
  | connect k a =>
    simp only [Net.step, send_hostUp, upAfter, mem_add]
    by_cases h : k = l
    · simp [h]
    · simp [h, Ne.symm h]
  | announce k a =>
    simp only [Net.step, upAfter]
    split
    · rw [send_hostUp]
    · rfl
  | write k h id data =>
    simp only [Net.step, upAfter]
    split
    · rw [send_hostUp]
    · rfl
  | toSwitch k j =>
    simp only [Net.step, upAfter, Net.switchData]
    split
    · rw [loop_hostUp]
    · rfl
  | toHost k j =>
    simp only [Net.step, upAfter]
    split <;> rfl
  | timeout k i => rfl
  | lostSwitch k =>
    have : (n.step c (.lostSwitch k)).hostUp = n.hostUp := by
      simp only [Net.step]
      cases n.switch.unregisterLink k <;> rfl
    rw [this]; rfl
  | lostHost k =>
    simp only [Net.step, upAfter]
    by_cases h : k = l
    · simp [h]
    · simp [h, Ne.symm h]

theorem exec_hostUp (c : Classes) (l : Nat) : ∀ (h : List Ev) (n : Net), decide (l ∈ (n.exec c h).hostUp) = upAfter (decide (l ∈ n.hostUp)) l h
  | [], _ => rfl
  | e :: h, n => by
    show decide (l ∈ ((n.step c e).exec c h).hostUp) = upAfter _ l ([e] ++ h)
    rw [exec_hostUp c l h, step_hostUp, upAfter_append]

/-- What a history adds for each connection. -/
theorem exec_spec {c : Classes} (hc : c.Ok) : ∀ (h : List Ev) {n : Net} {log : List Act} {S W E I}, Core c n log S W E I → (∀ l, Done n log S l) →
    (∀ e ∈ h, Fits e) →
    ∃ (acts : List Act) (W' : Nat → List Frag.Wire) (E' : Nat → List Frag.Ev), Core c (n.exec c h) (log ++ acts)
        (fun l => S l ++ sent (decide (l ∈ n.hostUp)) l h) (fun l => W l ++ W' l) (fun l => E l ++ E' l)
        (fun l => I l ++ inputs (decide (l ∈ n.hostUp)) l h) ∧
      (∀ l, Done (n.exec c h) (log ++ acts) (fun l => S l ++ sent (decide (l ∈ n.hostUp)) l h) l) ∧ losses acts = lossesIn h ∧
      ∀ l ws, Frag.Ev.data ws ∈ E' l → 2 ≤ ws.length → ∃ k, .toHost l k ∈ h ∧ 67 < k
  | [], n, log, S, W, E, I, h, hd, _ => by
    refine ⟨[], fun _ => [], fun _ => [], ?_, ?_, rfl, by simp⟩
    · simp only [sent, inputs, List.append_nil]; exact h
    · simp only [sent, List.append_nil]; exact hd
  | e :: t, n, log, S, W, E, I, h, hd, hf => by
    obtain ⟨acts, W1, E1, g1, g2, g3, g4⟩ := step_spec hc h hd (hf e (by simp))
    obtain ⟨acts', W2, E2, k1, k2, k3, k4⟩ := exec_spec hc t g1 g2 (fun x hx => hf x (by simp [hx]))
    have hs : ∀ l, sent (decide (l ∈ n.hostUp)) l (e :: t) = sent (decide (l ∈ n.hostUp)) l [e] ++ sent (decide (l ∈ (n.step c e).hostUp)) l t := by
      intro l; rw [step_hostUp, ← sent_append]; rfl
    have hi : ∀ l, inputs (decide (l ∈ n.hostUp)) l (e :: t) = inputs (decide (l ∈ n.hostUp)) l [e] ++ inputs (decide (l ∈ (n.step c e).hostUp)) l t := by
      intro l; rw [step_hostUp, ← inputs_append]; rfl
    refine ⟨acts ++ acts', fun l => W1 l ++ W2 l, fun l => E1 l ++ E2 l, ?_, ?_, ?_, ?_⟩
    · simp only [hs, hi]
      simp only [List.append_assoc] at k1
      exact k1
    · simp only [hs]
      simp only [List.append_assoc] at k2
      exact k2
    · rw [losses_append, g3, k3]
      exact (lossesIn_append [e] t).symm
    · intro l ws hw hl
      rcases List.mem_append.mp hw with hw | hw
      · obtain ⟨k, rfl, hk⟩ := g4 l ws hw hl
        exact ⟨k, by simp, hk⟩
      · obtain ⟨k, hm, hk⟩ := k4 l ws hw hl
        exact ⟨k, by simp [hm], hk⟩

theorem core_init (c : Classes) : Core c Net.init [] (fun _ => []) (fun _ => []) (fun _ => []) (fun _ => []) := by
  refine ⟨rfl, ?_, by simp, fun l => ⟨[], rfl, FInv.init rfl⟩, fun l => ⟨[], .nil, rfl, by simp, ⟨FInv.init rfl, trivial⟩, rfl, rfl, rfl⟩⟩
  intro l a h
  simp [Net.init, Switch.new] at h

/-- The account of a history from the invariant. -/
theorem Core.explains {c : Classes} {h : List Ev} {log : List Act} {W E}
    (hk : Core c (Net.init.exec c h) log (fun l => sent false l h) W E (fun l => inputs false l h))
    (hd : ∀ l, Done (Net.init.exec c h) log (fun l => sent false l h) l) (hl : losses log = lossesIn h) : Explains c h log W E := by
  refine ⟨fun l => ?_, fun l hc h0 => ?_, hl, fun l => ?_, fun l => ?_, fun l h0 => ?_, fun l => ?_, fun l => ?_⟩
  · obtain ⟨left, e, _⟩ := hk.rx l
    exact ⟨left, e.symm⟩
  · rcases hd l hc with h | h
    · exact h.symm
    · exact absurd h0 h
  · obtain ⟨left, e, _⟩ := hk.tx l; exact e
  · obtain ⟨left, _, e, _⟩ := hk.tx l; exact ⟨left, e.symm⟩
  · obtain ⟨left, _, e, _, e4, _⟩ := hk.tx l
    cases left with
    | nil => rw [e, List.append_nil]
    | cons w left =>
      have := e4.2
      simp only [List.map_cons] at this
      rw [h0] at this
      simp at this
  · obtain ⟨left, _, _, _, _, _, _, e⟩ := hk.tx l; exact e
  · obtain ⟨left, _, _, _, _, _, e, _⟩ := hk.tx l; exact e

end Verif.Link
