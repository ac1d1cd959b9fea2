import Verif.Lemmas.Converse
import Verif.Spec.Example
/-! # C01 – C04: transport of packets through the codec and the Deserializer -/
namespace Verif

/-! ## C01 -/

theorem sendable_cases {env : Env} {base : Cls} {p : Val} (h : Sendable env base p) :
    ∃ c fs b, p = .packet c fs ∧ serialize env 0 p = .ok b ∧ ser env p = b ∧
      encV env (.packet c fs) (.packet base) = .ok b := by
  obtain ⟨ha, b, hb⟩ := h
  obtain ⟨c, fs, rfl⟩ := accepts_packet ha
  refine ⟨c, fs, b, rfl, hb, ser_eq hb, ?_⟩
  rw [← hb]; unfold serialize; rw [encV, encV]

/-- C01, exact extent to which it holds. A packet is decoded back to itself if and only if its
strings are ASCII, its floats in fields of 32 bits are singles, its nesting is within the recursion limit
and no string or buffer is longer than the packet whose header precedes it most closely. The unconditional C01 is false:
`C01_false_truncated_string`, `C01_false_nested`. -/
theorem C01_roundtrip_iff_partial {env : Env} (hr : env.Registered) {depth : Nat} {base : Cls} {p : Val}
    (hs : Sendable env base p) :
    Decodes env depth base (ser env p) p ↔
      (asciiV p = true ∧ depthV p ≤ depth ∧ ∃ m, limV (serLen env) 0 p = some m) := by
  have hs' := hs
  obtain ⟨c, fs, b, rfl, hb, hser, he⟩ := sendable_cases hs
  rw [hser]
  constructor
  · rintro ⟨m, n, hd⟩
    unfold deserialize at hd
    rcases cv_packet hr (cv_F hr fs) (f := depth) (m := 0) (p := 0) he hs'.1 (.inl rfl) with hf | ⟨r, h1, h2⟩
    · obtain ⟨e, q, hrun⟩ := hf.run [] [] rfl
      simp only [List.nil_append, List.append_nil] at hrun
      rw [hrun] at hd; cases hd
    · have hrun := h1.parses.run [] [] rfl
      simp only [List.nil_append, List.append_nil] at hrun
      rw [hrun] at hd
      cases hd
      obtain ⟨x1, x2, x3⟩ := h2.2 rfl
      exact ⟨x1, x2, _, x3⟩
  · rintro ⟨h1, h2, m, h3⟩
    have := (rt_packet hr he hs'.1 h1 h2 h3 (g := []) (p := 0) trivial).run [] [] rfl
    simp only [List.nil_append, List.append_nil] at this
    exact ⟨m, _, this⟩

example : Sendable Ex.env 0 Ex.p2 ∧ Decodes Ex.env 3 0 (ser Ex.env Ex.p2) Ex.p2 :=
  ⟨Ex.p2_sendable, (C01_roundtrip_iff_partial Ex.registered Ex.p2_sendable).mpr
    ⟨by decide, by decide, _, show _ = some 44 by decide⟩⟩

/-- C01 for packets that contain no packets: every string ASCII is enough. -/
theorem C01_roundtrip_flat_partial {env : Env} (hr : env.Registered) {depth : Nat} {base cls : Cls}
    {fs : FVals} (hs : Sendable env base (.packet cls fs)) (hflat : flatF fs = true)
    (hascii : asciiF fs = true) :
    Decodes env (depth + 1) base (ser env (.packet cls fs)) (.packet cls fs) := by
  rw [C01_roundtrip_iff_partial hr hs]
  refine ⟨by rw [asciiV]; exact hascii, by rw [depthV, flat_depthF fs hflat]; omega, ?_⟩
  obtain ⟨c, fs', b, hp, hb, hser, he⟩ := sendable_cases hs
  cases hp
  rw [limV.eq_def]; dsimp only
  rw [serLen_packet he]
  obtain ⟨d, tags, n, h, body, hdr, hcls, ht, hn, hh, hbd, hhdr, rfl⟩ := encPacket_inv he
  exact ⟨_, flat_limF env _ fs d.fields tags body _ hflat hbd (by simp; omega)⟩

example : Decodes Ex.env 1 0 (ser Ex.env Ex.p1) Ex.p1 :=
  C01_roundtrip_flat_partial Ex.registered Ex.p1_sendable (by decide) (by decide)

/-- C01 is false: a packet whose string is "éa" serializes, and is received — without any error — with
the string "é". -/
theorem C01_false_truncated_string : ∃ p p', p ≠ p' ∧ Sendable Ex.env 0 p ∧
    Decodes Ex.env 1 0 (ser Ex.env p) p' := by
  refine ⟨.packet 1 (.set (.num 1) (.set (.str ['é', 'a']) (.unset .nil))),
    .packet 1 (.set (.num 1) (.set (.str ['é']) (.unset .nil))), by decide,
    Ex.sendable (by decide) (by decide), ?_⟩
  generalize hb : ser Ex.env (.packet 1 (.set (.num 1) (.set (.str ['é', 'a']) (.unset .nil)))) = b
  have h : Ex.result (deserialize Ex.env 1 0 b)
    = some (.packet 1 (.set (.num 1) (.set (.str ['é']) (.unset .nil)))) := by subst hb; decide
  unfold Ex.result at h
  split at h
  · next v m hm => cases h; exact ⟨m, (deserialize Ex.env 1 0 b).2, by rw [← hm]⟩
  · cases h

/-- C01 is false: a buffer behind a nested packet that is longer than the nested packet cannot be
decoded although the packet serializes. -/
theorem C01_false_nested : ∃ p, Sendable Ex.env 0 p ∧ ¬ Decodes Ex.env 5 0 (ser Ex.env p) p := by
  refine ⟨.packet 2 (.set Ex.p1' (.set (.buf (List.replicate 40 7)) .nil)),
    Ex.sendable (by decide) (by decide), ?_⟩
  exact Ex.not_decodes (o := none) (by decide) (by decide)

/-! ## C02, C03 -/

/-- A packet that is sendable and that `Deserialize` returns unchanged is a carried packet. -/
theorem carried_of_decodes {env : Env} (hr : env.Registered) {depth : Nat} {base : Cls} {p : Val}
    (hs : Sendable env base p) (hd : Decodes env depth base (ser env p) p) : Carried env depth base p := by
  obtain ⟨h1, h2, h3⟩ := (C01_roundtrip_iff_partial hr hs).mp hd
  exact ⟨hs.1, hs.2, h1, h2, h3⟩

theorem cleanGarbage_nil (b : Bytes) : CleanGarbage [] b := by
  intro i hi; simp at hi

theorem itemOK_plain {env : Env} (hr : env.Registered) {depth : Nat} {cls : Cls} {ps : List Val}
    (h : ∀ p ∈ ps, Sendable env cls p ∧ Decodes env depth cls (ser env p) p) :
    ∀ x ∈ ps.map (fun p => (([] : Bytes), p)), ItemOK env depth cls x := by
  intro x hx
  simp only [List.mem_map] at hx
  obtain ⟨p, hp, rfl⟩ := hx
  exact ⟨carried_of_decodes hr (h p hp).1 (h p hp).2, cleanGarbage_nil _⟩

theorem wire_plain (env : Env) (ps : List Val) :
    wire env (ps.map (fun p => (([] : Bytes), p))) = ps.flatMap (ser env) := by
  simp [wire, List.flatMap_map]

theorem runOps_append (env : Env) (depth : Nat) (cls : Cls) : ∀ (o1 o2 : List DOp) (st : DState),
    runOps env depth cls st (o1 ++ o2) =
      ((runOps env depth cls st o1).1 ++ (runOps env depth cls (runOps env depth cls st o1).2 o2).1,
       (runOps env depth cls (runOps env depth cls st o1).2 o2).2) := by
  intro o1
  induction o1 with
  | nil => intro o2 st; simp [runOps]
  | cons op o1 ih =>
    intro o2 st
    cases op with
    | update b => simp only [List.cons_append, runOps]; exact ih _ _
    | next => simp only [List.cons_append, runOps, ih, List.append_assoc]

/-- Everything the Deserializer does while it receives the packets `ps`, each sendable and decodable
on its own: after any history of calls whose bytes are a prefix of the stream, the events so far are
the first `k` packets, in order, without errors; the bytes of these `k` packets have arrived; and
directly after a call of `nextPackets()` the next packet has not arrived completely. -/
theorem C02_C03_prefix {env : Env} (hr : env.Registered) {depth : Nat} {cls : Cls} (ps : List Val)
    (hps : ∀ p ∈ ps, Sendable env cls p ∧ Decodes env (depth + 1) cls (ser env p) p)
    (ops : List DOp) (fut : Bytes) (hrec : received ops ++ fut = ps.flatMap (ser env)) :
    (∃ k ≤ ps.length,
      (runOps env (depth + 1) cls (.init env (depth + 1) cls) ops).1 = (ps.take k).map .packet) ∧
    (∃ k ≤ ps.length,
      (runOps env (depth + 1) cls (.init env (depth + 1) cls) (ops ++ [.next])).1
        = (ps.take k).map .packet ∧
      (k < ps.length → (received ops).length < ((ps.take (k + 1)).flatMap (ser env)).length)) := by
  have hq := itemOK_plain hr hps
  have hinit : Inv env (depth + 1) cls (.init env (depth + 1) cls)
      (ps.map (fun p => (([] : Bytes), p))) (received ops ++ fut) :=
    Inv.init hr hq (by rw [wire_plain]; simpa using hrec)
  obtain ⟨done, left, st', e1, e2, e3⟩ := Inv.ops hr ops _ _ fut hq hinit
  have hpsd : ∃ k ≤ ps.length, done = (ps.take k).map (fun p => (([] : Bytes), p)) ∧
      left = (ps.drop k).map (fun p => (([] : Bytes), p)) := by
    refine ⟨done.length, ?_, ?_, ?_⟩
    · have := congrArg List.length e1; simp at this; omega
    · have := congrArg (List.take done.length) e1
      rw [List.take_left, ← List.map_take] at this
      exact this.symm
    · have := congrArg (List.drop done.length) e1
      rw [List.drop_left, ← List.map_drop] at this
      exact this.symm
  obtain ⟨k, hk, hd, hl⟩ := hpsd
  refine ⟨⟨k, hk, ?_⟩, ?_⟩
  · rw [e2, hd, List.map_map]; rfl
  · -- one more `nextPackets()`
    -- the final state is blocked
    have hblock : ∃ done left st', ps.map (fun p => (([] : Bytes), p)) = done ++ left ∧
        runOps env (depth + 1) cls (.init env (depth + 1) cls) (ops ++ [.next])
          = (done.map (fun x => Event.packet x.2), st') ∧ Blocked env (depth + 1) cls st' left fut := by
      obtain ⟨d2, l2, s2, g1, g2, g3⟩ := Inv.next hr (st'.buf.length + 1) left st' fut
        (fun x hx => hq x (by rw [e1]; simp [hx])) e3 (by omega)
      refine ⟨done ++ d2, l2, s2, by rw [e1, g1]; simp, ?_, g3⟩
      rw [runOps_append, e2]
      simp only [runOps, DState.next, g2, List.map_append, List.append_nil]
    obtain ⟨d3, l3, s3, g1, g2, g3, g4⟩ := hblock
    refine ⟨d3.length, ?_, ?_, ?_⟩
    · have := congrArg List.length g1; simp at this; omega
    · have := congrArg (List.take d3.length) g1
      rw [List.take_left, ← List.map_take] at this
      rw [g2]
      show d3.map _ = _
      conv => lhs; rw [← this]
      rw [List.map_map]; rfl
    · intro hlt
      have hl3 := congrArg (List.drop d3.length) g1
      rw [List.drop_left, ← List.map_drop, List.drop_eq_getElem_cons hlt, List.map_cons] at hl3
      rw [← hl3] at g4
      simp only [wire_plain] at g4
      have h1 := congrArg List.length hrec
      have h2 : (ps.flatMap (ser env)).length = ((ps.take (d3.length + 1)).flatMap (ser env)).length
          + ((ps.drop (d3.length + 1)).flatMap (ser env)).length := by
        rw [← List.length_append, ← List.flatMap_append, List.take_append_drop]
      rw [List.length_append] at h1
      omega

/-- C02. However the bytes are cut into `update` calls and wherever `nextPackets()` is called in
between, exactly the packets come out, in order, without errors. -/
theorem C02_any_chunking {env : Env} (hr : env.Registered) {depth : Nat} {cls : Cls} (ps : List Val)
    (hps : ∀ p ∈ ps, Sendable env cls p ∧ Decodes env (depth + 1) cls (ser env p) p)
    (ops : List DOp) (hrec : received ops = ps.flatMap (ser env)) :
    (runOps env (depth + 1) cls (.init env (depth + 1) cls) (ops ++ [.next])).1 = ps.map .packet := by
  obtain ⟨_, k, hk, h1, h2⟩ := C02_C03_prefix hr ps hps ops [] (by simpa using hrec)
  by_cases hlt : k < ps.length
  · have := h2 hlt
    rw [hrec] at this
    have h3 : (ps.flatMap (ser env)).length = ((ps.take (k + 1)).flatMap (ser env)).length
        + ((ps.drop (k + 1)).flatMap (ser env)).length := by
      rw [← List.length_append, ← List.flatMap_append, List.take_append_drop]
    omega
  · rw [h1, List.take_of_length_le (by omega)]

/-- C03. As long as fewer bytes than the first packet have arrived, nothing comes out. -/
theorem C03_no_premature_packet {env : Env} (hr : env.Registered) {depth : Nat} {cls : Cls} (p : Val)
    (hp : Sendable env cls p ∧ Decodes env (depth + 1) cls (ser env p) p)
    (ops : List DOp) (fut : Bytes) (hrec : received ops ++ fut = ser env p) (hfut : fut ≠ []) :
    (runOps env (depth + 1) cls (.init env (depth + 1) cls) ops).1 = [] := by
  obtain ⟨⟨k, hk, h1⟩, _⟩ := C02_C03_prefix hr [p] (by simpa using hp) ops fut (by simpa using hrec)
  by_cases hk0 : k = 0
  · subst hk0; simpa using h1
  · -- all bytes would have arrived
    exfalso
    have hk1 : k = 1 := by simp at hk; omega
    subst hk1
    -- the invariant after the history says that nothing is missing
    have hq := itemOK_plain hr (depth := depth + 1) (cls := cls) (ps := [p]) (by simpa using hp)
    have hinit : Inv env (depth + 1) cls (.init env (depth + 1) cls)
        ([p].map (fun p => (([] : Bytes), p))) (received ops ++ fut) :=
      Inv.init hr hq (by rw [wire_plain]; simpa using hrec)
    obtain ⟨done, left, st', e1, e2, e3⟩ := Inv.ops hr ops _ _ fut hq hinit
    rw [e2] at h1
    have hlen := congrArg List.length h1
    have hlen' := congrArg List.length e1
    simp at hlen hlen'
    have : left = [] := List.eq_nil_of_length_eq_zero (by omega)
    subst this
    exact hfut e3.1

/-- Concrete history: two packets in three chunks, cut inside headers. -/
example : (runOps Ex.env 2 0 (.init Ex.env 2 0)
    [.update ((ser Ex.env Ex.p1 ++ ser Ex.env Ex.p3).take 11), .next,
     .update (((ser Ex.env Ex.p1 ++ ser Ex.env Ex.p3).drop 11).take 50), .next,
     .update ((ser Ex.env Ex.p1 ++ ser Ex.env Ex.p3).drop 61), .next]).1
    = [.packet Ex.p1, .packet Ex.p3] :=
  C02_any_chunking Ex.registered [Ex.p1, Ex.p3] (by
    intro p hp
    simp only [List.mem_cons, List.not_mem_nil, or_false] at hp
    rcases hp with rfl | rfl
    · exact ⟨Ex.p1_sendable, C01_roundtrip_flat_partial Ex.registered Ex.p1_sendable (by decide) (by decide)⟩
    · exact ⟨Ex.p3_sendable, C01_roundtrip_flat_partial Ex.registered Ex.p3_sendable (by decide) (by decide)⟩)
    [.update ((ser Ex.env Ex.p1 ++ ser Ex.env Ex.p3).take 11), .next,
     .update (((ser Ex.env Ex.p1 ++ ser Ex.env Ex.p3).drop 11).take 50), .next,
     .update ((ser Ex.env Ex.p1 ++ ser Ex.env Ex.p3).drop 61)] (by decide)

/-! ## C04 -/

/-- C04. Garbage in front of packets is skipped, for any chunking, provided that no position inside
the garbage looks like the beginning of a packet. -/
theorem C04_resync {env : Env} (hr : env.Registered) {depth : Nat} {cls : Cls}
    (items : List (Bytes × Val))
    (hitems : ∀ x ∈ items, Sendable env cls x.2 ∧ Decodes env (depth + 1) cls (ser env x.2) x.2 ∧
      CleanGarbage x.1 (ser env x.2))
    (ops : List DOp) (hrec : received ops = wire env items) :
    (runOps env (depth + 1) cls (.init env (depth + 1) cls) (ops ++ [.next])).1
      = items.map (fun x => .packet x.2) := by
  have hq : ∀ x ∈ items, ItemOK env (depth + 1) cls x := fun x hx =>
    ⟨carried_of_decodes hr (hitems x hx).1 (hitems x hx).2.1, (hitems x hx).2.2⟩
  have hinit : Inv env (depth + 1) cls (.init env (depth + 1) cls) items (received ops ++ []) :=
    Inv.init hr hq (by simpa using hrec)
  obtain ⟨done, left, st', e1, e2, e3⟩ := Inv.ops hr ops _ _ [] hq hinit
  obtain ⟨d2, l2, s2, g1, g2, g3⟩ := Inv.next hr (st'.buf.length + 1) left st' []
    (fun x hx => hq x (by rw [e1]; simp [hx])) e3 (by omega)
  rw [runOps_append, e2]
  simp only [runOps, DState.next, g2, List.append_nil]
  have hl2 : l2 = [] := by
    cases l2 with
    | nil => rfl
    | cons q qs => have := g3.2; simp at this
  subst hl2
  rw [List.append_nil] at g1
  subst g1
  rw [e1]; simp

example : (runOps Ex.env 2 0 (.init Ex.env 2 0)
    [.update ([1, 2, 3, 255, 0] ++ ser Ex.env Ex.p1), .next]).1 = [.packet Ex.p1] :=
  C04_resync Ex.registered [([1, 2, 3, 255, 0], Ex.p1)] (by
    intro x hx
    simp only [List.mem_cons, List.not_mem_nil, or_false] at hx
    subst hx
    refine ⟨Ex.p1_sendable, C01_roundtrip_flat_partial Ex.registered Ex.p1_sendable (by decide) (by decide), ?_⟩
    intro i hi n hn heq
    -- the first byte and the ninth byte of a header are complementary
    have hi : i < 5 := hi
    have h1 : ∀ i < 5, beDec ((([1, 2, 3, 255, 0] ++ ser Ex.env Ex.p1).drop i).take 8)
        ≠ compl64 (beDec (((([1, 2, 3, 255, 0] ++ ser Ex.env Ex.p1).drop i).drop 8).take 8)) := by decide
    apply h1 i hi
    have h2 := congrArg (List.take 8) heq
    have h3 := congrArg (fun l => (l.drop 8).take 8) heq
    simp only [List.take_take, Nat.min_eq_left (show 8 ≤ 16 by decide), List.drop_take] at h2 h3
    rw [h2]
    rw [show (16 - 8 : Nat) = 8 by decide, Nat.min_self] at h3
    rw [h3]
    have l1 : (beEnc 8 n ++ beEnc 8 (compl64 n)).take 8 = beEnc 8 n := List.take_left' (by simp)
    have l2 : ((beEnc 8 n ++ beEnc 8 (compl64 n)).drop 8).take 8 = beEnc 8 (compl64 n) := by
      rw [List.drop_left' (by simp), List.take_of_length_le (by simp)]
    rw [l1, l2, beDec_beEnc_lt (by omega), beDec_beEnc_lt (by have := compl64_lt hn; omega),
      compl64_compl64 hn])
    [.update ([1, 2, 3, 255, 0] ++ ser Ex.env Ex.p1)] (by decide)

end Verif
