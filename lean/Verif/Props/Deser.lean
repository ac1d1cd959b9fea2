import Verif.Lemmas.Skip
import Verif.Lemmas.Converse
import Verif.Props.RoundTrip
/-! # C05, C06, C51, C52: robustness of the packet Deserializer -/
namespace Verif

/-! ## C51 -/

/-- C51. Whatever bytes arrive and however they are cut, a call of `nextPackets()` ends: the loop
(whose fuel is the number of buffered bytes plus one) comes to its own end. -/
theorem C51_nextPackets_terminates (env : Env) (depth : Nat) (cls : Cls) (ops : List DOp) :
    ((runOps env (depth + 1) cls (.init env (depth + 1) cls) ops).2.next env (depth + 1) cls).2.2 = true := by
  have h := (Ready.ops ops _ (Ready.init env (depth + 1) cls)).1
  exact (Ready.next _ _ h (by omega)).1

/-- C51. The number of packets delivered and errors reported never exceeds the number of bytes
received: no input makes the Deserializer produce events out of nothing. -/
theorem C51_events_bounded (env : Env) (depth : Nat) (cls : Cls) (ops : List DOp) :
    (runOps env (depth + 1) cls (.init env (depth + 1) cls) ops).1.length ≤ (received ops).length := by
  have h := (Ready.ops ops _ (Ready.init env (depth + 1) cls)).2
  simpa [DState.init] using h

/-- Bytes that are no packet at all, with a header-like beginning of an undefined packet. -/
example : (runOps Ex.env 2 0 (.init Ex.env 2 0)
    [.update (hdr16 40 ++ [1, 65, 3, 49, 46, 48]), .next, .update (List.replicate 30 0), .next]).1
    = [.error .badPacket] := by decide

/-! ## C52 -/

/-- C52. `Deserialize` on a strict prefix of a packet's serialization neither returns nor raises:
it waits for more bytes (forever, as the buffer does not grow). -/
theorem C52_truncated_never_returns {env : Env} (hr : env.Registered) {depth : Nat} {base : Cls} {p : Val}
    (hs : Sendable env base p) (hd : Decodes env depth base (ser env p) p)
    (got miss : Bytes) (hb : ser env p = got ++ miss) (hm : miss ≠ []) :
    ∃ d, (deserialize env depth base got).1 = .wait d := by
  obtain ⟨m, hp⟩ := item_parses hr (x := (([] : Bytes), p))
    ⟨carried_of_decodes hr hs hd, cleanGarbage_nil _⟩ 0
  obtain ⟨d', used, hv, e1, e2, e3⟩ := hp.run_partial [] got miss rfl (by simpa using hb) hm
  refine ⟨d', ?_⟩
  unfold deserialize
  simp only [List.nil_append, freshGen] at e2
  rw [e2]

example : ∃ d, (deserialize Ex.env 1 0 ((ser Ex.env Ex.p1).take 20)).1 = .wait d :=
  C52_truncated_never_returns Ex.registered Ex.p1_sendable
    (C01_roundtrip_flat_partial Ex.registered Ex.p1_sendable (by decide) (by decide))
    _ ((ser Ex.env Ex.p1).drop 20) (by rw [List.take_append_drop]) (by decide)

/-! ## C05 -/

/-- The Deserializer after it has delivered all the packets `ps`: it stands at a packet boundary. -/
theorem boundary {env : Env} (hr : env.Registered) {depth : Nat} {cls : Cls} (ps : List Val)
    (hps : ∀ p ∈ ps, Sendable env cls p ∧ Decodes env (depth + 1) cls (ser env p) p)
    (ops : List DOp) (hrec : received ops = ps.flatMap (ser env)) :
    ∃ st, runOps env (depth + 1) cls (.init env (depth + 1) cls) (ops ++ [.next])
        = (ps.map .packet, st) ∧ st.pos = st.buf.length ∧ Idle env (depth + 1) cls st.pos st.gen ∧
      Ready env (depth + 1) cls st := by
  have hev := C02_any_chunking hr ps hps ops hrec
  have hq := itemOK_plain hr hps
  have hinit : Inv env (depth + 1) cls (.init env (depth + 1) cls)
      (ps.map (fun p => (([] : Bytes), p))) (received (ops ++ [.next]) ++ []) :=
    Inv.init hr hq (by
      have : ∀ o : List DOp, received (o ++ [.next]) = received o := by
        intro o
        induction o with
        | nil => rfl
        | cons x o ih => cases x <;> simp [received, ih]
      rw [wire_plain, this]; simpa using hrec)
  obtain ⟨done, left, st', e1, e2, e3⟩ := Inv.ops hr _ _ _ [] hq hinit
  have hrd := (Ready.ops (ops ++ [.next]) _ (Ready.init env (depth + 1) cls)).1
  rw [e2] at hev hrd
  have hl := congrArg List.length hev
  have hl' := congrArg List.length e1
  simp at hl hl'
  have : left = [] := List.eq_nil_of_length_eq_zero (by omega)
  subst this
  exact ⟨st', by rw [e2, ← hev], e3.2.1, e3.2.2, hrd⟩

/-- Common part of C05 and C06. -/
theorem special_item {env : Env} (hr : env.Registered) {depth : Nat} {cls : Cls} {u : Bytes} {ev : Event}
    (ps qs : List Val)
    (hps : ∀ p ∈ ps, Sendable env cls p ∧ Decodes env (depth + 1) cls (ser env p) p)
    (hqs : ∀ p ∈ qs, Sendable env cls p ∧ Decodes env (depth + 1) cls (ser env p) p)
    (H : ∀ st fut, Front env (depth + 1) cls u st (qs.map (fun p => (([] : Bytes), p))) fut →
      ∃ st', st.iter env (depth + 1) cls = (some ev, st') ∧
        Inv env (depth + 1) cls st' (qs.map (fun p => (([] : Bytes), p))) fut)
    (ops0 ops1 : List DOp) (a : Bytes) (h0 : received ops0 = ps.flatMap (ser env))
    (h1 : a ++ received ops1 = qs.flatMap (ser env)) :
    (runOps env (depth + 1) cls (.init env (depth + 1) cls)
      (ops0 ++ [.next] ++ (.update (u ++ a) :: (ops1 ++ [.next])))).1
      = ps.map .packet ++ ev :: qs.map .packet := by
  obtain ⟨st, e1, e2, e3, e4⟩ := boundary hr ps hps ops0 h0
  rw [runOps_append, e1, runOps]
  have hq := itemOK_plain hr hqs
  have := Front.ops hr hq H ops1 (st.update (u ++ a)) (e4.update _)
    ⟨st.buf, a, rfl, e2, e3, by rw [wire_plain]; exact h1⟩
  dsimp only
  rw [this, List.map_map]; rfl

theorem unknown_run {env : Env} {depth : Nat} {cls : Cls} {u pre rest : Bytes}
    (hu : UnknownPacket env cls u) :
    (freshGen env (depth + 1) cls).run (pre ++ (u ++ rest)) pre.length
      = (.error .badPacket, pre.length + u.length) := by
  obtain ⟨ident, ver, version, content, hL, hi, hv, hver, hlk, hu⟩ := hu
  have hlen := congrArg List.length hu
  have hu' : u = headOf u.length ident ver ++ content := by
    conv => lhs; rw [hu]
    simp [headOf, hdr16]
  unfold freshGen
  have hlen' := congrArg List.length hu'
  rw [List.length_append, headOf_length] at hlen'
  rw [head_run (rest := content ++ rest) hL (by omega) hi hv hver (by
    conv => lhs; rw [hu']
    simp)]
  rw [hlk]
  exact finish_run_none (by rw [headOf_length]; omega) (by simp)

/-- C05, proved part. The Deserializer has received packets `ps`; then a complete packet of unknown
definition arrives in one piece, and packets `qs` follow in any chunking. Then the events are `ps`,
one error, `qs` — provided that the packet directly behind the unknown one does not have the same
total length. Without this proviso the property is false: `C05_false_equal_length`; and without the
arrival in one piece too: `C05_false_late_content`. -/
theorem C05_unknown_packet_partial {env : Env} (hr : env.Registered) {depth : Nat} {cls : Cls} {u : Bytes}
    (hu : UnknownPacket env cls u) (ps qs : List Val)
    (hps : ∀ p ∈ ps, Sendable env cls p ∧ Decodes env (depth + 1) cls (ser env p) p)
    (hqs : ∀ p ∈ qs, Sendable env cls p ∧ Decodes env (depth + 1) cls (ser env p) p)
    (hne : ∀ q, qs.head? = some q → (ser env q).length ≠ u.length)
    (ops0 ops1 : List DOp) (a : Bytes) (h0 : received ops0 = ps.flatMap (ser env))
    (h1 : a ++ received ops1 = qs.flatMap (ser env)) :
    (runOps env (depth + 1) cls (.init env (depth + 1) cls)
      (ops0 ++ [.next] ++ (.update (u ++ a) :: (ops1 ++ [.next])))).1
      = ps.map .packet ++ .error .badPacket :: qs.map .packet := by
  refine special_item hr ps qs hps hqs ?_ ops0 ops1 a h0 h1
  rintro st fut ⟨pre, rest, g1, g2, g3, g4⟩
  refine ⟨⟨st.buf, pre.length + u.length, freshGen env (depth + 1) cls⟩, ?_, ?_⟩
  · unfold DState.iter
    have hrun : st.gen.run st.buf st.pos = (.error .badPacket, pre.length + u.length) := by
      rw [idle_run g3, g1, g2]; exact unknown_run hu
    dsimp only
    rw [hrun]
    dsimp only
    rw [if_neg]
    -- the next eight bytes differ from the first eight bytes of `u`
    intro heq
    have huu := hu
    obtain ⟨ident, ver, version, content, hL, hi, hv, hver, hlk, hu⟩ := hu
    have hu8 : 16 ≤ u.length := by
      have := congrArg List.length hu
      simp at this; omega
    have hpfx : window st.buf st.pos 8 = beEnc 8 u.length := by
      unfold window
      rw [g1, g2, List.drop_left, List.take_append_of_le_length (by omega)]
      conv => lhs; rw [hu]
      simp only [List.append_assoc]
      exact List.take_left' (by simp)
    have hnext : window st.buf (pre.length + u.length) 8 = rest.take 8 := by
      unfold window
      rw [g1, ← List.append_assoc, show pre.length + u.length = (pre ++ u).length by simp, List.drop_left]
    rw [hpfx, hnext] at heq
    have hr8 : 8 ≤ rest.length := by
      have := congrArg List.length heq
      simp at this; omega
    rw [wire_plain] at g4
    cases qs with
    | nil =>
      simp only [List.flatMap_nil, List.append_eq_nil_iff] at g4
      simp [g4.1] at hr8
    | cons q qs =>
      have hq := (hqs q (by simp)).1
      obtain ⟨c, fs, hq'⟩ := accepts_packet hq.1
      obtain ⟨b, hb⟩ := hq.2
      subst hq'
      obtain ⟨hl, r, hb', hlt⟩ := encPacket_len (base := 0) hb
      have hser := ser_eq hb
      have ht : rest.take 8 = b.take 8 := by
        have := congrArg (List.take 8) g4
        rw [List.take_append_of_le_length hr8, List.flatMap_cons, hser,
          List.take_append_of_le_length (by omega)] at this
        exact this
      have hb8 : b.take 8 = beEnc 8 b.length := by
        conv => lhs; rw [hb']
        simp [hdr16]
      rw [ht, hb8] at heq
      have := congrArg beDec heq
      rw [beDec_beEnc_lt (by omega), beDec_beEnc_lt (by omega)] at this
      apply hne _ rfl
      rw [hser]; exact this
  · have := Inv.initAt hr (pre := pre ++ u) (itemOK_plain hr hqs) g4
    simpa [g1] using this

/-- The unknown packet of the examples: identifier "x.y", version "1.0", no known content. -/
def Ex.u1 : Bytes := headOf 27 "x.y".toList "1.0".toList ++ [1, 2, 3]

theorem Ex.u1_unknown : UnknownPacket Ex.env 0 Ex.u1 :=
  ⟨"x.y".toList, "1.0".toList, ⟨1, 0⟩, [1, 2, 3], by decide, by decide, by decide, by decide, by rfl,
    by decide⟩

theorem Ex.flat_ok : ∀ p ∈ [Ex.p1, Ex.p3],
    Sendable Ex.env 0 p ∧ Decodes Ex.env (1 + 1) 0 (ser Ex.env p) p := by
  intro p hp
  simp only [List.mem_cons, List.not_mem_nil, or_false] at hp
  rcases hp with rfl | rfl
  · exact ⟨Ex.p1_sendable, C01_roundtrip_flat_partial Ex.registered Ex.p1_sendable (by decide) (by decide)⟩
  · exact ⟨Ex.p3_sendable, C01_roundtrip_flat_partial Ex.registered Ex.p3_sendable (by decide) (by decide)⟩

example : (runOps Ex.env 2 0 (.init Ex.env 2 0)
    [.update (ser Ex.env Ex.p1), .next, .update (Ex.u1 ++ (ser Ex.env Ex.p3).take 9), .next,
      .update ((ser Ex.env Ex.p3).drop 9), .next]).1
    = [.packet Ex.p1, .error .badPacket, .packet Ex.p3] :=
  C05_unknown_packet_partial (depth := 1) Ex.registered Ex.u1_unknown [Ex.p1] [Ex.p3]
    (fun p hp => Ex.flat_ok p (by simp at hp; simp [hp])) (fun p hp => Ex.flat_ok p (by simp at hp; simp [hp]))
    (by intro q hq; cases hq; decide)
    [.update (ser Ex.env Ex.p1)] [.next, .update ((ser Ex.env Ex.p3).drop 9)] _ (by decide) (by decide)

/-- C05 is false: if the packet behind the unknown one has the same total length, one of its bytes is
skipped and it is lost. -/
theorem C05_false_equal_length : ∃ u q, UnknownPacket Ex.env 0 u ∧ Sendable Ex.env 0 q ∧
    Decodes Ex.env 2 0 (ser Ex.env q) q ∧
    (runOps Ex.env 2 0 (.init Ex.env 2 0) [.update (u ++ ser Ex.env q), .next]).1 = [.error .badPacket] := by
  refine ⟨headOf 32 "x.one".toList "1.0".toList ++ [0, 1, 0, 0, 9, 9], Ex.p1',
    ⟨"x.one".toList, "1.0".toList, ⟨1, 0⟩, [0, 1, 0, 0, 9, 9], by decide, by decide, by decide, by decide,
      by rfl, by decide⟩, Ex.p1'_sendable,
    C01_roundtrip_flat_partial Ex.registered Ex.p1'_sendable (by decide) (by decide), by decide⟩

/-- `ser Ex.env Ex.p3` written out. -/
def Ex.p3bytes : Bytes := [0, 0, 0, 0, 0, 0, 0, 40, 255, 255, 255, 255, 255, 255, 255, 215, 7, 116, 46, 116,
  104, 114, 101, 101, 3, 49, 46, 48, 0, 2, 0, 0, 251, 0, 1, 0, 1, 0, 0, 1]

/-- C05 is false: if the content of the unknown packet arrives later, it is not skipped but
interpreted; a packet contained in it is delivered as if it had been sent. -/
theorem C05_false_late_content : ∃ u v, UnknownPacket Ex.env 0 (u ++ v) ∧
    (runOps Ex.env 2 0 (.init Ex.env 2 0) [.update u, .next, .update v, .next]).1
      = [.error .badPacket, .packet Ex.p3] := by
  have hp3 : ser Ex.env Ex.p3 = Ex.p3bytes := by decide
  refine ⟨headOf 64 "x.y".toList "1.0".toList, Ex.p3bytes,
    ⟨"x.y".toList, "1.0".toList, ⟨1, 0⟩, Ex.p3bytes, by decide, by decide, by decide, by decide,
      rfl, by decide⟩, by decide⟩

/-! ## C06 -/

theorem extended_run {env : Env} (hr : env.Registered) {depth : Nat} {base cls : Cls} {fs : FVals}
    {tag more : Nat} {junk u pre rest : Bytes} {m : Nat}
    (hu : ExtendedPacket env cls fs tag more junk u) (htag : 200 ≤ tag)
    (ha : accepts env (.packet cls fs) (.packet base) = true) (has : asciiF fs = true)
    (hd : depthF fs ≤ depth) (hlim : limF (serLen env) u.length fs = some m) :
    (freshGen env (depth + 1) base).run (pre ++ (u ++ rest)) pre.length
      = (.done (.packet cls fs, m), pre.length + u.length) := by
  obtain ⟨d, tags, n, body, hcls, ht, hn, hb, hnew, ht16, hn16, hL, hi, hv, hu⟩ := hu
  rw [accepts.eq_def] at ha; dsimp only at ha
  rw [hcls] at ha
  simp only [Bool.and_eq_true] at ha
  obtain ⟨version, hver, hlk⟩ := hr cls d base hcls ha.1
  have hu' : u = headOf u.length d.ident d.version ++ (beEnc 2 (n + 1 + more) ++ (body ++ beEnc 2 tag) ++ junk) := by
    conv => lhs; rw [hu]
    simp [headOf, hdr16]
  have hlen := congrArg List.length hu'
  simp only [List.length_append, headOf_length, beEnc_length] at hlen
  unfold freshGen
  rw [head_run (rest := (beEnc 2 (n + 1 + more) ++ (body ++ beEnc 2 tag) ++ junk) ++ rest) hL (by omega)
    hi hv hver (by
      conv => lhs; rw [hu']
      simp)]
  rw [hlk]; dsimp only
  rw [hcls]; dsimp only
  rw [if_pos ha.1]
  have hs := processFields_spec ht
  have hnone : tags.findIdx? (· == tag) = none := by
    rw [List.findIdx?_eq_none_iff]
    intro x hx
    simp only [beq_eq_false_iff_ne, ne_eq]
    rintro rfl
    exact hnew hx
  have key := fun q => rt_F hr fs d.fields tags n body depth _ m q tags 0 id
    (fun i fs m => decNth env (decPacket env depth) d.fields i fs m) (more + 1) (beEnc 2 tag) ⟨fs, m, true⟩
    hb ha.2 has hd hn hlim (by omega)
    (by intro j r mm q cs x hx; simpa using hx)
    (by intro j g hj; simpa using findIdx?_nodup hs.1 hj)
    (by
      intro hm q
      rw [fieldLoop]
      rw [← List.append_nil (beEnc 2 tag)]
      refine .bind (parses_unpackU (v := tag) (packU_nat (by omega)) (by omega)) ?_
      rw [hnone]; dsimp only
      rw [if_neg (by omega)]
      exact .ret)
  have hbody : Parses (pre.length + (headOf u.length d.ident d.version).length)
      (decBody d.fields (fun i fs m => decNth env (decPacket env depth) d.fields i fs m)
        d.fields.blank u.length) (beEnc 2 (n + 1 + more) ++ (body ++ beEnc 2 tag)) ⟨fs, m, true⟩ := by
    unfold decBody
    rw [ht]; dsimp only
    refine .bind (parses_unpackU (v := n + 1 + more) (packU_nat (by omega)) (by omega)) ?_
    rw [show n + 1 + more = n + (more + 1) by omega]
    exact (key _).1
  rw [hbody.run_then _ _ (pre ++ headOf u.length d.ident d.version) (junk ++ rest) (by
      conv => lhs; rw [hu']
      simp) (by simp)]
  refine finish_run_ext ?_ (by simp)
  simp only [List.length_append, headOf_length, beEnc_length]
  omega

/-- C06, proved part. The Deserializer has received packets `ps`; then a packet with an unknown
extension field (tag ≥ 200) behind its known fields arrives in one piece and packets `qs` follow in
any chunking. Then it is delivered with its known fields intact, its junk is skipped, and all of `qs`
are delivered. Missing: the case where the junk arrives later, in which the property is false
(`C06_false_late_junk`); and non-ASCII strings and long buffers behind nested packets, as in C01. -/
theorem C06_extension_skipped_partial {env : Env} (hr : env.Registered) {depth : Nat} {base cls : Cls}
    {fs : FVals} {tag more : Nat} {junk u : Bytes} {m : Nat}
    (hu : ExtendedPacket env cls fs tag more junk u) (htag : 200 ≤ tag)
    (ha : accepts env (.packet cls fs) (.packet base) = true) (has : asciiF fs = true)
    (hd : depthF fs ≤ depth) (hlim : limF (serLen env) u.length fs = some m) (ps qs : List Val)
    (hps : ∀ p ∈ ps, Sendable env base p ∧ Decodes env (depth + 1) base (ser env p) p)
    (hqs : ∀ p ∈ qs, Sendable env base p ∧ Decodes env (depth + 1) base (ser env p) p)
    (ops0 ops1 : List DOp) (a : Bytes) (h0 : received ops0 = ps.flatMap (ser env))
    (h1 : a ++ received ops1 = qs.flatMap (ser env)) :
    (runOps env (depth + 1) base (.init env (depth + 1) base)
      (ops0 ++ [.next] ++ (.update (u ++ a) :: (ops1 ++ [.next])))).1
      = ps.map .packet ++ .packet (.packet cls fs) :: qs.map .packet := by
  refine special_item hr ps qs hps hqs ?_ ops0 ops1 a h0 h1
  rintro st fut ⟨pre, rest, g1, g2, g3, g4⟩
  refine ⟨⟨rest, 0, freshGen env (depth + 1) base⟩, ?_, Inv.init hr (itemOK_plain hr hqs) g4⟩
  unfold DState.iter
  have hrun : st.gen.run st.buf st.pos = (.done (.packet cls fs, m), pre.length + u.length) := by
    rw [idle_run g3, g1, g2]; exact extended_run hr hu htag ha has hd hlim
  dsimp only
  rw [hrun]
  dsimp only
  rw [g1, ← List.append_assoc, show pre.length + u.length = (pre ++ u).length by simp, List.drop_left]

/-- `p1` with an extension field 300 and five bytes of unknown content. -/
def Ex.x1 : Bytes := headOf 51 "t.one".toList "1.0".toList ++ beEnc 2 4 ++
  ((ser Ex.env Ex.p1).drop 28) ++ beEnc 2 300 ++ [9, 9, 9, 9, 9]

theorem Ex.x1_extended : ExtendedPacket Ex.env 1
    (.set (.num 513) (.set (.str ['h', 'i']) (.set (.list (.cons (.num 1) (.cons (.num 255) .nil))) .nil)))
    300 0 [9, 9, 9, 9, 9] Ex.x1 :=
  ⟨Ex.t1, [0, 1, 7], 3, (ser Ex.env Ex.p1).drop 28, rfl, rfl, rfl, rfl, by decide,
    by decide, by decide, by decide, by decide, by decide, by decide⟩

example : (runOps Ex.env 2 0 (.init Ex.env 2 0)
    [.next, .update (Ex.x1 ++ ser Ex.env Ex.p3), .next]).1 = [.packet Ex.p1, .packet Ex.p3] :=
  C06_extension_skipped_partial (depth := 1) (m := 51) Ex.registered Ex.x1_extended (by decide) (by decide)
    (by decide) (by decide) (by decide) [] [Ex.p3] (by simp)
    (fun p hp => Ex.flat_ok p (by simp at hp; simp [hp])) [] [] _ rfl (by decide)

/-- C06 is false when the unknown content arrives later than the tag: it is not skipped but
interpreted, and a packet contained in it is delivered as if it had been sent. -/
theorem C06_false_late_junk : ∃ u junk, ExtendedPacket Ex.env 1 (.set (.num 7) (.unset (.unset .nil)))
      300 0 junk (u ++ junk) ∧ junk = ser Ex.env Ex.p3 ∧
    (runOps Ex.env 2 0 (.init Ex.env 2 0) [.update u, .next, .update junk, .next]).1
      = [.packet (.packet 1 (.set (.num 7) (.unset (.unset .nil)))), .packet Ex.p3] := by
  refine ⟨headOf 74 "t.one".toList "1.0".toList ++ [0, 2, 0, 0, 0, 7, 1, 44], Ex.p3bytes,
    ⟨Ex.t1, [0, 1, 7], 1, [0, 0, 0, 7], rfl, rfl, rfl, rfl, by decide, by decide, by decide, by decide,
      by decide, by decide, by decide⟩, by decide, by decide⟩

theorem Dec.bind_assoc {α β γ} (d : Dec α) (f : α → Dec β) (g : β → Dec γ) :
    (d.bind f).bind g = d.bind fun a => (f a).bind g := by
  induction d with
  | ret a => rfl
  | fail e => rfl
  | read n k ih => simp only [Dec.bind]; congr; funext b; exact ih b
  | tell k ih => simp only [Dec.bind]; congr; funext b; exact ih b
  | skip n k ih => simp only [Dec.bind, ih]
  | sync s q k ih => simp only [Dec.bind]; congr; funext a b; exact ih a b

theorem fieldLoop_add {tags : List Nat} {one : Nat → FVals → Nat → Dec (FVals × Nat)} {k : Nat} :
    ∀ (n : Nat) (vals : FVals) (max : Nat), fieldLoop tags one (n + k) vals max
      = (fieldLoop tags one n vals max).bind fun r =>
          if r.ext then .ret r else fieldLoop tags one k r.vals r.max := by
  intro n
  induction n with
  | zero => intro vals max; simp [fieldLoop, Dec.bind]
  | succ n ih =>
    intro vals max
    rw [show n + 1 + k = n + k + 1 by omega, fieldLoop, fieldLoop, Dec.bind_assoc]
    congr
    funext tag
    split
    · split <;> simp [Dec.bind]
    · rw [Dec.bind_assoc]
      congr
      funext r
      exact ih _ _

theorem low_tag_run {env : Env} (hr : env.Registered) {depth : Nat} {base cls : Cls} {fs : FVals}
    {tag more : Nat} {junk u pre rest : Bytes}
    (hu : ExtendedPacket env cls fs tag more junk u) (htag : tag < 200)
    (ha : accepts env (.packet cls fs) (.packet base) = true) :
    ∃ e n, (freshGen env (depth + 1) base).run (pre ++ (u ++ rest)) pre.length = (.error e, n) := by
  obtain ⟨d, tags, n, body, hcls, ht, hn, hb, hnew, ht16, hn16, hL, hi, hv, hu⟩ := hu
  rw [accepts.eq_def] at ha; dsimp only at ha
  rw [hcls] at ha
  simp only [Bool.and_eq_true] at ha
  obtain ⟨version, hver, hlk⟩ := hr cls d base hcls ha.1
  have hu' : u = headOf u.length d.ident d.version ++ (beEnc 2 (n + 1 + more) ++ (body ++ beEnc 2 tag) ++ junk) := by
    conv => lhs; rw [hu]
    simp [headOf, hdr16]
  have hlen := congrArg List.length hu'
  simp only [List.length_append, headOf_length, beEnc_length] at hlen
  unfold freshGen
  rw [head_run (rest := (beEnc 2 (n + 1 + more) ++ (body ++ beEnc 2 tag) ++ junk) ++ rest) hL (by omega)
    hi hv hver (by
      conv => lhs; rw [hu']
      simp)]
  rw [hlk]; dsimp only
  rw [hcls]; dsimp only
  rw [if_pos ha.1]
  have hs := processFields_spec ht
  have hnone : tags.findIdx? (· == tag) = none := by
    rw [List.findIdx?_eq_none_iff]
    intro x hx
    simp only [beq_eq_false_iff_ne, ne_eq]
    rintro rfl
    exact hnew hx
  have key := fun q => cv_F hr fs d.fields tags n body depth u.length q tags 0 id
    (fun i fs m => decNth env (decPacket env depth) d.fields i fs m)
    hb ha.2 hn (by omega)
    (by
      intro j r mm q cs res hx
      simp only [Nat.zero_add, id]
      exact hx.mono (fun r hr => ⟨r, hr, rfl⟩))
    (by intro j g hj; simpa using findIdx?_nodup hs.1 hj)
  have hbody : Fails (pre.length + (headOf u.length d.ident d.version).length)
      (decBody d.fields (fun i fs m => decNth env (decPacket env depth) d.fields i fs m)
        d.fields.blank u.length) (beEnc 2 (n + 1 + more) ++ (body ++ beEnc 2 tag)) := by
    unfold decBody
    rw [ht]; dsimp only
    refine (parses0_unpackU (v := n + 1 + more) (packU_nat (by omega)) (by omega)).bind_fails ?_
    rw [show n + 1 + more = n + (more + 1) by omega, fieldLoop_add]
    have := (key (pre.length + (headOf u.length d.ident d.version).length
      + (beEnc 2 (n + (more + 1))).length)).bind (bs' := beEnc 2 tag) (res' := fun _ : FRes => False)
      (f := fun r => if r.ext then .ret r else fieldLoop tags
        (fun i fs m => decNth env (decPacket env depth) d.fields i fs m) (more + 1) r.vals r.max) (by
        rintro _ ⟨fs', m', hok, rfl⟩
        left
        simp only [Bool.false_eq_true, if_false]
        rw [fieldLoop, ← List.append_nil (beEnc 2 tag)]
        have h20 := hok.1
        dsimp only at h20
        refine (parses0_unpackU (v := tag) (packU_nat (by omega)) (by omega)).bind_fails ?_
        rw [hnone]; dsimp only
        rw [if_pos htag]
        exact .fail)
    rcases this with h | ⟨_, _, h⟩
    · exact h
    · exact h.elim
  have := (hbody.bind (f := fun r => finishPacket u.length pre.length (some (.packet cls r.vals, r.max, r.ext)))
    []).run (pre ++ headOf u.length d.ident d.version) (junk ++ rest) (by simp)
  obtain ⟨e, n', h⟩ := this
  refine ⟨e, n', ?_⟩
  rw [← h]
  congr 1
  conv => lhs; rw [hu']
  simp

/-- C06, second half. An unknown tag below 200 behind the known fields is an error (not silently
skipped): the next event after the packets before it is an error. -/
theorem C06_low_tag_error {env : Env} (hr : env.Registered) {depth : Nat} {base cls : Cls} {fs : FVals}
    {tag more : Nat} {junk u : Bytes}
    (hu : ExtendedPacket env cls fs tag more junk u) (htag : tag < 200)
    (ha : accepts env (.packet cls fs) (.packet base) = true) (ps : List Val)
    (hps : ∀ p ∈ ps, Sendable env base p ∧ Decodes env (depth + 1) base (ser env p) p)
    (ops0 : List DOp) (a : Bytes) (h0 : received ops0 = ps.flatMap (ser env)) :
    ∃ e more, (runOps env (depth + 1) base (.init env (depth + 1) base)
      (ops0 ++ [.next] ++ [.update (u ++ a), .next])).1 = ps.map .packet ++ .error e :: more := by
  obtain ⟨st, e1, e2, e3, e4⟩ := boundary hr ps hps ops0 h0
  rw [runOps_append, e1, runOps]
  obtain ⟨e, n, hrun⟩ := low_tag_run (depth := depth) (pre := st.buf) (rest := a) hr hu htag ha
  simp only [runOps, DState.next, List.append_nil]
  rw [nextLoop]
  have hiter : ((st.update (u ++ a)).iter env (depth + 1) base).1 = some (.error e) := by
    unfold DState.iter DState.update
    dsimp only
    rw [idle_run e3, e2, hrun]
  split
  · next heq => rw [heq] at hiter; cases hiter
  · next ev st' heq =>
    rw [heq] at hiter
    cases hiter
    exact ⟨e, _, rfl⟩

example : ExtendedPacket Ex.env 1 (.set (.num 7) (.unset (.unset .nil))) 150 0 [1, 2]
    (headOf 36 "t.one".toList "1.0".toList ++ [0, 2, 0, 0, 0, 7, 0, 150] ++ [1, 2]) :=
  ⟨Ex.t1, [0, 1, 7], 1, [0, 0, 0, 7], rfl, rfl, rfl, rfl, by decide, by decide, by decide, by decide,
      by decide, by decide, by decide⟩

end Verif
