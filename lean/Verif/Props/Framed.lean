import Verif.Lemmas.Framed
import Verif.Lemmas.FramedCount
import Verif.Props.RoundTrip
import Verif.Spec.Framed
/-! # C54: streams of packets in frames -/
namespace Verif

theorem framed_written {b : Bytes} (h16 : 16 ≤ b.length) :
    ∃ g', writePacket ⟨⟨[], 0⟩, 0, false, false, none⟩ b = (.ok (), g') ∧ Writing [] b g' := by
  generalize hd : List.replicate 16 (0 : UInt8) ++ b.drop 16 = d
  have hdl : d.length = b.length := by rw [← hd]; simp; omega
  obtain ⟨g, hg, w1, w2, w3, w4, w5⟩ := Writing.first (f := ⟨⟨[], 0⟩, 0, false, false, none⟩) (pre := []) rfl rfl rfl rfl d
  replace w2 : g.start = 0 := w2
  unfold writePacket
  rw [hd, hg]
  dsimp only
  have ht0 : Frm.tell ⟨⟨[], 0⟩, 0, false, false, none⟩ = 0 := rfl
  have hraw : g.rawSize = 12 + b.length := by unfold Frm.rawSize; rw [w1, w2]; simp [MAGIC]; try omega
  have ht : g.tell = b.length := by
    unfold Frm.tell; rw [hraw, if_neg (by omega), w1, w2]; simp [MAGIC]; try omega
  have hs : g.seekSet 0 = g.goto 12 := by
    unfold Frm.seekSet; rw [hraw, if_neg (by omega), w2]
  rw [ht0, hs, ht]
  have hb8 : (b.take 8).length = 8 := by simp; omega
  have hb8' : ((b.drop 8).take 8).length = 8 := by simp; omega
  have hsplit : d = List.replicate 8 (0 : UInt8) ++ (List.replicate 8 0 ++ b.drop 16) := by
    rw [← hd, ← List.append_assoc]; rfl
  have hbs : b.take 8 ++ ((b.drop 8).take 8 ++ b.drop 16) = b := by
    rw [show b.drop 16 = (b.drop 8).drop 8 by rw [List.drop_drop], List.take_append_drop, List.take_append_drop]
  -- the first length
  have e1 : (g.goto 12).write (b.take 8) =
      (.ok (), { g with s := ⟨(MAGIC ++ MAGIC ++ MAGIC ++ b.take 8) ++ (List.replicate 8 0 ++ b.drop 16), 20⟩ }) := by
    unfold Frm.write
    rw [if_neg (by show ¬ g.endChecked = true; simp [w4]), if_neg (by show ¬ (g.startChecked = false ∧ _); simp [w3]),
      if_pos (show (g.goto 12).startChecked = true from w3)]
    have hw : (g.goto 12).s.write (b.take 8) =
        ⟨(MAGIC ++ MAGIC ++ MAGIC ++ b.take 8) ++ (List.replicate 8 0 ++ b.drop 16), 20⟩ := by
      show Bio.write ⟨g.s.buf, 12⟩ (b.take 8) = _
      rw [w1, hsplit, List.nil_append]
      rw [Bio.write_mid (by simp [MAGIC]) (by rw [hb8]; rfl) (by intro h; rw [h] at hb8; simp at hb8)]
      rw [hb8]; simp [MAGIC]
    dsimp only
    rw [hw, show (g.goto 12).start = 0 from w2, show (g.goto 12).size = some d.length from w5, Option.getD_some]
    rw [if_neg (show ¬ d.length < 20 - 0 - 12 by omega)]
    dsimp only [Frm.goto]
    rw [w2, w5]
  rw [e1]
  dsimp only
  have e2 : ({ g with s := ⟨(MAGIC ++ MAGIC ++ MAGIC ++ b.take 8) ++ (List.replicate 8 0 ++ b.drop 16), 20⟩ } : Frm).write
      ((b.drop 8).take 8) = (.ok (), { g with s := ⟨MAGIC ++ MAGIC ++ MAGIC ++ b, 28⟩ }) := by
    unfold Frm.write
    rw [if_neg (by show ¬ g.endChecked = true; simp [w4]), if_neg (by show ¬ (g.startChecked = false ∧ _); simp [w3]),
      if_pos (show g.startChecked = true from w3)]
    dsimp only
    rw [Bio.write_mid (by simp [MAGIC]; omega) (by rw [hb8']; rfl) (by intro h; rw [h] at hb8'; simp at hb8')]
    rw [hb8', show (MAGIC ++ MAGIC ++ MAGIC ++ b.take 8).length + 8 = 28 by simp [MAGIC]; omega, w2, w5, Option.getD_some,
      if_neg (show ¬ d.length < 28 - 0 - 12 by omega)]
    congr 3
    all_goals first | exact w2.symm | exact w5.symm | (rw [List.append_assoc, hbs])
  rw [e2]
  dsimp only
  refine ⟨_, rfl, ?_⟩
  have hs2 : ({ g with s := ⟨MAGIC ++ MAGIC ++ MAGIC ++ b, 28⟩ } : Frm).seekSet b.length =
      { g with s := ⟨MAGIC ++ MAGIC ++ MAGIC ++ b, 12 + b.length⟩ } := by
    unfold Frm.seekSet Frm.rawSize
    rw [if_neg (by dsimp only; rw [w2]; simp [MAGIC]; omega)]
    dsimp only [Frm.goto]
    rw [w2, Nat.zero_add]
  rw [hs2]
  refine ⟨?_, w2, w3, w4, ?_⟩
  · simp [MAGIC]; omega
  · show g.size = _
    rw [w5, hdl]

theorem packU4_big {n : Nat} (h : ¬ n < 2 ^ 32) : packU 4 (n : Int) = .error .structError := by
  unfold packU
  rw [if_neg]
  intro hc
  have := hc.2
  omega

theorem framedBytes_write {b : Bytes} {g : Frm} (h : writePacket ⟨⟨[], 0⟩, 0, false, false, none⟩ b = (.ok (), g)) :
    framedBytes b = match g.writeFrame with
      | (.error e, _) => .error e
      | (.ok _, f) => .ok f.s.buf := by
  unfold framedBytes
  have hi : Frm.init ⟨[], 0⟩ = (.ok (), ⟨⟨[], 0⟩, 0, false, false, none⟩) := rfl
  rw [hi]
  dsimp only
  rw [h]
  rfl

theorem Writing.too_long {f : Frm} {pre data : Bytes} (h : Writing pre data f) (hl : ¬ data.length < 2 ^ 32) :
    ∃ g, f.writeFrame = (.error .structError, g) := by
  obtain ⟨v1, v2, v3, v4, v5⟩ := h
  unfold Frm.writeFrame
  rw [if_neg (by simp [v4]), v5]
  dsimp only
  rw [packU4_big hl, Frm.putFrame]
  exact ⟨_, rfl⟩

theorem framedBytes_eq {b : Bytes} (h16 : 16 ≤ b.length) :
    (b.length < 2 ^ 32 → framedBytes b = .ok (frame b)) ∧ (¬ b.length < 2 ^ 32 → framedBytes b = .error .structError) := by
  obtain ⟨g', h1, h2⟩ := framed_written h16
  constructor
  · intro hl
    obtain ⟨g2, h3, h4, _⟩ := h2.finish hl
    rw [framedBytes_write h1, h3]
    dsimp only
    rw [h4, List.nil_append]
  · intro hl
    obtain ⟨g2, h3⟩ := h2.too_long hl
    rw [framedBytes_write h1, h3]

theorem FramedSendable.inv {env : Env} {base : Cls} {p : Val} (h : FramedSendable env base p) :
    Sendable env base p ∧ (ser env p).length < 2 ^ 32 ∧ framedSerialize env 0 p = .ok (frame (ser env p)) := by
  obtain ⟨b, hb⟩ := h.serializes
  have hb' := hb
  unfold framedSerialize at hb
  cases hs : serialize env 0 p with
  | error e => rw [hs] at hb; cases hb
  | ok c =>
    have hsend : Sendable env base p := ⟨h.accepted, c, hs⟩
    obtain ⟨cls, fs, c', rfl, h1, h2, h3⟩ := sendable_cases hsend
    have hlen := (encPacket_len h3).1
    rw [hs] at h1
    cases h1
    rw [hs] at hb
    dsimp only at hb
    have hf := framedBytes_eq (b := c) (by omega)
    by_cases hl : List.length c < 2 ^ 32
    · rw [hf.1 hl] at hb
      rw [h2]
      exact ⟨hsend, hl, by rw [hb', ← hb]⟩
    · rw [hf.2 hl] at hb; cases hb

theorem FramedSendable.ok {env : Env} (hr : env.Registered) {base : Cls} {p : Val} (h : FramedSendable env base p) : FOK env base p := by
  obtain ⟨h1, h2, h3⟩ := h.inv
  obtain ⟨cls, fs, rfl, hf⟩ := h.flat
  have ha := h.ascii
  rw [asciiV] at ha
  exact ⟨carried_of_decodes hr h1 (C01_roundtrip_flat_partial (depth := 0) hr h1 hf ha), h2⟩

theorem fser_eq {env : Env} {base : Cls} {p : Val} (h : FramedSendable env base p) : fser env p = frame (ser env p) := by
  unfold fser; rw [h.inv.2.2]

theorem fwire_eq {env : Env} {base : Cls} : ∀ {ps : List Val}, (∀ p ∈ ps, FramedSendable env base p) → ps.flatMap (fser env) = fwire env ps
  | [], _ => rfl
  | p :: ps, h => by
    rw [List.flatMap_cons, fwire_cons, fser_eq (h p (by simp)), fwire_eq fun q hq => h q (by simp [hq])]

theorem FState.runOps_append (env : Env) (cls : Cls) : ∀ (a b : List DOp) (st : FState),
    FState.runOps env cls st (a ++ b) =
      ((FState.runOps env cls st a).1 ++ (FState.runOps env cls (FState.runOps env cls st a).2.1 b).1,
        (FState.runOps env cls (FState.runOps env cls st a).2.1 b).2.1,
        (FState.runOps env cls st a).2.2 && (FState.runOps env cls (FState.runOps env cls st a).2.1 b).2.2)
  | [], b, st => by simp [FState.runOps]
  | .update x :: a, b, st => by
    rw [List.cons_append, FState.runOps, FState.runOps, FState.runOps_append env cls a b]
  | .next :: a, b, st => by
    rw [List.cons_append, FState.runOps, FState.runOps_append env cls a b, FState.runOps]
    simp [List.append_assoc, Bool.and_assoc]

theorem FInv.init {env : Env} {cls : Cls} {qs : List Val} {fut : Bytes} (h : fut = fwire env qs) : FInv env cls .init qs fut := by
  unfold FInv FState.init
  cases qs <;> exact ⟨by simp, by simpa using h⟩

/-- C54, what is written: the serialization of a framed packet is a frame around the bytes the standard encoder makes of the packet. -/
theorem C54_format {env : Env} {base : Cls} {p : Val} (h : FramedSendable env base p) :
    framedSerialize env 0 p = .ok (frame (ser env p)) ∧ (ser env p).length < 2 ^ 32 := ⟨h.inv.2.2, h.inv.2.1⟩

/-- C54. For every list of packets, every way of cutting the bytes into pieces and every pattern of calls to `nextPackets`: what has been
delivered is the beginning of the list, every loop comes to its end, and if the last call is `nextPackets`, then every packet whose
bytes have all arrived has been delivered. -/
theorem C54_prefix {env : Env} (hr : env.Registered) {cls : Cls} (ps : List Val) (hps : ∀ p ∈ ps, FramedSendable env cls p)
    (ops : List DOp) (fut : Bytes) (hrec : received ops ++ fut = ps.flatMap (fser env)) :
    (∃ k ≤ ps.length, ∃ st, FState.runOps env cls .init ops = ((ps.take k).map .packet, st, true)) ∧
    (∃ k ≤ ps.length, ∃ st, FState.runOps env cls .init (ops ++ [.next]) = ((ps.take k).map .packet, st, true) ∧
      (k < ps.length → (received ops).length < ((ps.take (k + 1)).flatMap (fser env)).length)) := by
  have hok : ∀ x ∈ ps, FOK env cls x := fun x hx => (hps x hx).ok hr
  rw [fwire_eq hps] at hrec
  obtain ⟨done, left, st', e1, e2, e3⟩ := FInv.ops hr ops ps .init fut hok (FInv.init hrec)
  refine ⟨⟨done.length, by rw [e1]; simp, st', by rw [e2, e1]; simp⟩, ?_⟩
  obtain ⟨d2, l2, s2, g1, g2, g3, g4⟩ := FInv.next hr (st'.frm.s.buf.length + 1) left st' fut
    (fun x hx => hok x (by rw [e1]; simp [hx])) e3 (by omega)
  have hps' : ps = (done ++ d2) ++ l2 := by rw [e1, g1, List.append_assoc]
  refine ⟨(done ++ d2).length, by rw [hps']; simp, s2, ?_, ?_⟩
  · rw [FState.runOps_append, e2]
    dsimp only
    rw [FState.runOps, FState.next, g2]
    dsimp only
    rw [FState.runOps, hps', List.take_left]
    simp
  · intro hlt
    cases l2 with
    | nil => rw [hps'] at hlt; simp at hlt
    | cons q qs =>
      dsimp only at g4
      have ht : ps.take ((done ++ d2).length + 1) = done ++ d2 ++ [q] := by
        rw [hps', show done ++ d2 ++ q :: qs = done ++ d2 ++ [q] ++ qs by simp, List.take_left' (by simp; omega)]
      have hw : fwire env ps = fwire env (done ++ d2 ++ [q]) ++ fwire env qs := by
        rw [hps']; unfold fwire; simp [List.flatMap_append]
      have hl := congrArg List.length hrec
      rw [hw] at hl
      simp only [List.length_append] at hl
      rw [ht, fwire_eq (base := cls) fun x hx => hps x (by
        rw [hps', show done ++ d2 ++ q :: qs = done ++ d2 ++ [q] ++ qs by simp]; exact List.mem_append_left _ hx)]
      omega

/-- C54. However the bytes are cut into pieces and whenever `nextPackets` is called: once everything has arrived and `nextPackets` is called,
exactly the packets that were sent have been delivered, in order, and no error. -/
theorem C54_any_chunking {env : Env} (hr : env.Registered) {cls : Cls} (ps : List Val) (hps : ∀ p ∈ ps, FramedSendable env cls p)
    (ops : List DOp) (hrec : received ops = ps.flatMap (fser env)) :
    ∃ st, FState.runOps env cls .init (ops ++ [.next]) = (ps.map .packet, st, true) := by
  obtain ⟨_, k, hk, st, h1, h2⟩ := C54_prefix hr ps hps ops [] (by simpa using hrec)
  refine ⟨st, ?_⟩
  by_cases hlt : k < ps.length
  · have := h2 hlt
    rw [hrec] at this
    have h3 : (ps.flatMap (fser env)).length = ((ps.take (k + 1)).flatMap (fser env)).length
        + ((ps.drop (k + 1)).flatMap (fser env)).length := by
      rw [← List.length_append, ← List.flatMap_append, List.take_append_drop]
    omega
  · rw [h1, List.take_of_length_le (by omega)]

theorem framedSendable_of {p : Val} (h1 : accepts Ex.env p (.packet 0) = true)
    (h2 : (match p with | .packet _ fs => flatF fs | _ => false) = true) (h3 : asciiV p = true)
    (h4 : (match framedSerialize Ex.env 0 p with | .ok _ => true | .error _ => false) = true) : FramedSendable Ex.env 0 p := by
  refine ⟨h1, ?_, h3, ?_⟩
  · cases p <;> simp at h2
    exact ⟨_, _, rfl, h2⟩
  · cases h : framedSerialize Ex.env 0 p with
    | ok b => exact ⟨b, rfl⟩
    | error e => rw [h] at h4; cases h4

theorem p1_framed : FramedSendable Ex.env 0 Ex.p1 :=
  framedSendable_of (by decide +kernel) (by decide +kernel) (by decide +kernel) (by decide +kernel)
theorem p3_framed : FramedSendable Ex.env 0 Ex.p3 :=
  framedSendable_of (by decide +kernel) (by decide +kernel) (by decide +kernel) (by decide +kernel)

/-- Two packets, 68 bytes for the first one, cut inside the prefix of the first frame, inside its packet and inside the second frame. -/
example : ∃ st, FState.runOps Ex.env 0 .init ([.next, .update ((fser Ex.env Ex.p1 ++ fser Ex.env Ex.p3).take 11), .next,
     .update (((fser Ex.env Ex.p1 ++ fser Ex.env Ex.p3).drop 11).take 60), .next,
     .update ((fser Ex.env Ex.p1 ++ fser Ex.env Ex.p3).drop 71)] ++ [.next]) = ([Ex.p1, Ex.p3].map .packet, st, true) :=
  C54_any_chunking Ex.registered [Ex.p1, Ex.p3] (by
    intro p hp
    simp only [List.mem_cons, List.not_mem_nil, or_false] at hp
    rcases hp with rfl | rfl
    · exact p1_framed
    · exact p3_framed) _ (by decide +kernel)

example : (fser Ex.env Ex.p1).length = 68 ∧ fser Ex.env Ex.p1 ≠ fser Ex.env Ex.p3 := by decide +kernel

/-- C54. As long as a byte of the first frame is missing, nothing comes out, not even an error. -/
theorem C54_no_premature {env : Env} (hr : env.Registered) {cls : Cls} (p : Val) (hp : FramedSendable env cls p)
    (ops : List DOp) (fut : Bytes) (hrec : received ops ++ fut = fser env p) (hfut : fut ≠ []) :
    (FState.runOps env cls .init (ops ++ [.next])).1 = [] := by
  have hok := hp.ok hr
  rw [fser_eq hp] at hrec
  have hw : frame (ser env p) = fwire env [p] := by rw [fwire_cons]; simp [fwire]
  rw [hw] at hrec
  obtain ⟨done, left, st', e1, e2, e3⟩ := FInv.ops hr (ops ++ [.next]) [p] .init fut (by simpa using hok) (FInv.init (by
    rw [← hrec]; congr 1
    have : ∀ ops : List DOp, received (ops ++ [.next]) = received ops := by
      intro ops
      induction ops with
      | nil => rfl
      | cons o ops ih => cases o <;> simp [received, ih]
    exact this ops))
  rw [e2]
  cases done with
  | nil => rfl
  | cons q done =>
    exfalso
    have hl : left = [] := by
      have := (List.cons.inj e1).2
      exact (List.append_eq_nil_iff.mp this.symm).2
    subst hl
    unfold FInv at e3
    split at e3
    next heq => 
      exact hfut (List.append_eq_nil_iff.mp e3.2).2
    next => exact hfut e3.1
    next heq => cases heq

example : (FState.runOps Ex.env 0 .init ([.next, .update ((fser Ex.env Ex.p1).take 67)] ++ [.next])).1 = [] :=
  C54_no_premature Ex.registered Ex.p1 p1_framed [.next, .update ((fser Ex.env Ex.p1).take 67)] ((fser Ex.env Ex.p1).drop 67)
    (by decide +kernel) (by decide +kernel)

/-- C54 is false for strings that are not ASCII, as C01 is: the packet arrives with another string. -/
theorem C54_false_nonascii : ∃ p p', p ≠ p' ∧ accepts Ex.env p (.packet 0) = true ∧
    (FState.runOps Ex.env 0 .init [.update (fser Ex.env p), .next]).1 = [.packet p'] :=
  ⟨.packet 1 (.set (.num 1) (.set (.str ['é', 'a']) (.unset .nil))), .packet 1 (.set (.num 1) (.set (.str ['é']) (.unset .nil))),
    by decide, by decide +kernel, by decide +kernel⟩

/-- A frame that arrives complete and intact behind twelve bytes of garbage may be lost: two errors come out and no packet, and the packet
does not come out later either. -/
theorem C54_false_resync : ∃ ops, received ops = List.replicate 12 1 ++ fser Ex.env Ex.p1 ∧
    packetsIn (FState.runOps Ex.env 0 .init (ops ++ [.next, .next])).1 = [] ∧
    (FState.runOps Ex.env 0 .init (ops ++ [.next, .next])).1.length = 2 :=
  ⟨[.next, .update (List.replicate 12 1 ++ (fser Ex.env Ex.p1).take 15), .next, .update ((fser Ex.env Ex.p1).drop 15)],
    by decide +kernel, by decide +kernel, by decide +kernel⟩

/-- C54, for all bytes whatsoever and all calls: every packet that comes out has an intact frame of its own among the bytes received; the
bytes are these frames, as many as there were packets, with other bytes in between. -/
theorem C54_only_frames (env : Env) (cls : Cls) (ops : List DOp) :
    ∃ (segs : List (Bytes × Bytes)) (rest : Bytes),
      received ops = (segs.flatMap fun s => s.1 ++ frame s.2) ++ rest ∧
      (packetsIn (FState.runOps env cls .init ops).1).length = segs.length := by
  have h := Live.ops (env := env) (cls := cls) ops 0 [] .init (fun h => absurd rfl h) ⟨[], rfl, rfl⟩
  obtain ⟨segs, h1, h2⟩ := h
  exact ⟨segs, _, by simpa using h2, by omega⟩

/-- Corollary: no packet comes out of bytes that contain no magic number. -/
theorem C54_no_magic_no_packet (env : Env) (cls : Cls) (ops : List DOp) (h : ∀ i, ((received ops).drop i).take 4 ≠ MAGIC) :
    packetsIn (FState.runOps env cls .init ops).1 = [] := by
  obtain ⟨segs, rest, h1, h2⟩ := C54_only_frames env cls ops
  cases segs with
  | nil => exact List.length_eq_zero_iff.mp h2
  | cons s segs =>
    exfalso
    apply h s.1.length
    rw [h1, List.flatMap_cons, List.append_assoc, List.append_assoc, List.drop_left]
    unfold frame framePrefix
    simp only [List.append_assoc]
    exact List.take_left' rfl

/-- Garbage, then a frame whose last byte is wrong, then an intact frame: one packet, and there is one frame. -/
example : packetsIn (FState.runOps Ex.env 0 .init [.update ([1, 2, 3] ++ (fser Ex.env Ex.p1).dropLast ++ [0] ++ fser Ex.env Ex.p3), .next]).1
    = [Ex.p3] := by decide +kernel

/-! ### Garbage between the frames -/

theorem skipMagic_noMagic : ∀ (g rest : Bytes), NoMagic g → Frm.skipMagic (g ++ (MAGIC ++ rest)) = g.length
  | [], rest, _ => by
    show Frm.skipMagic (0x05 :: (0x08 :: 0x0D :: 0x15 :: rest)) = 0
    rw [Frm.skipMagic, if_neg]
    rintro ⟨_, h⟩
    exact h rfl
  | x :: g, rest, h => by
    rw [List.cons_append, Frm.skipMagic, if_pos, skipMagic_noMagic g rest]
    · rfl
    · intro i hi
      have := h (i + 1) (by simp; omega)
      simpa using this
    · refine ⟨by simp [MAGIC]; omega, ?_⟩
      have := h 0 (by simp)
      rw [List.drop_zero] at this
      intro h2
      apply this
      rw [← List.cons_append, ← List.append_assoc, List.take_append_of_le_length (l₁ := x :: g ++ MAGIC) (by simp [MAGIC])] at h2
      exact h2

/-- A fresh Deserializer in front of a frame. -/
theorem fresh_frame {env : Env} (hr : env.Registered) {cls : Cls} {q : Val} (hok : FOK env cls q) {st : FState} {rest : Bytes}
    (hrun : st.run = none) (hpos : st.frm.s.pos ≤ st.frm.s.buf.length) (h : st.frm.s.buf.drop st.frm.s.pos = frame (ser env q) ++ rest) :
    ∃ st', st.iter env cls = (some (.packet q), st') ∧ st'.run = none ∧ st'.frm.s.pos ≤ st'.frm.s.buf.length ∧
      st'.frm.s.buf.drop st'.frm.s.pos = rest := by
  obtain ⟨k, hk⟩ := fresh_form env 0 cls
  have hk : framedGen env cls = .tell (fun s => .sync s none (k s)) := hk
  obtain ⟨frm, run⟩ := st
  dsimp only at hrun hpos h
  subst hrun
  have hcomp : Compat (ser env q) (frm.s.buf.drop frm.s.pos) := ⟨rest, [], by rw [h]; simp⟩
  have hat0 : At ⟨frm.s, frm.s.pos, false, false, none⟩ (ser env q) (frm.s.buf.drop frm.s.pos) 0 :=
    ⟨rfl, hpos, hcomp, hok.small, Nat.zero_le _, by intro h; omega, .inl ⟨rfl, rfl, rfl, by show frm.s.pos ≤ frm.s.pos + 12; omega⟩⟩
  have h24 : (frame (ser env q)).length = 24 + (ser env q).length := by simp; omega
  have hfull : 24 + (ser env q).length ≤ (frm.s.buf.drop frm.s.pos).length := by
    rw [h, List.length_append, h24]; omega
  obtain ⟨f', c1, c2, c3, _⟩ := hat0.check (by omega)
  obtain ⟨m, hm⟩ := item_parses hr (x := ([], q)) ⟨hok.carried, by intro i hi; simp at hi⟩ 0
  have hp := item_pos (x := ([], q)) ⟨hok.carried, by intro i hi; simp at hi⟩
  have hm : Parses 0 (framedGen env cls) (ser env q) (q, m) := hm
  have hm' : Parses 0 (.sync 0 none (k 0)) (ser env q) (q, m) := by
    rw [hk] at hm
    cases hm with
    | tell hm => exact hm
  have hne : ser env q ≠ [] := by
    intro h0
    replace hp : 0 < (ser env q).length := hp
    rw [h0] at hp
    simp at hp
  rcases closed_run (pre := []) (bs := ser env q) c2 rfl hne (.main hm') (.inr ⟨_, _, _, rfl⟩) with
    ⟨_, f2, g1, g2, g3⟩ | ⟨hx, _⟩
  · have hgen : FState.genNext env cls ⟨frm, none⟩ = FState.closed ((Dec.sync 0 none (k 0)).runF f') := by
      unfold FState.genNext Frm.init
      dsimp only
      rw [c1]; dsimp only
      rw [hk, Dec.runF, c2.tell]
    refine ⟨⟨{ f2 with s := ⟨f2.s.buf.drop f2.s.pos, 0⟩ }, none⟩, ?_, rfl, Nat.zero_le _, ?_⟩
    · unfold FState.iter
      rw [hgen, g1]
    · show (f2.s.buf.drop f2.s.pos).drop 0 = rest
      have hb : f2.s.buf = frm.s.buf := g2.trans c3.1
      have hs : f'.start = frm.s.pos := c3.2
      rw [List.drop_zero, hb, g3, hs, ← List.drop_drop, h, List.drop_left' h24]
  · omega

/-- A fresh Deserializer in front of garbage. -/
theorem fresh_garbage {env : Env} {cls : Cls} {g p rest : Bytes} (hg : NoMagic g) (hne : g ≠ []) {st : FState}
    (hrun : st.run = none) (hpos : st.frm.s.pos ≤ st.frm.s.buf.length) (h : st.frm.s.buf.drop st.frm.s.pos = g ++ (frame p ++ rest)) :
    ∃ e st', st.iter env cls = (some (.error e), st') ∧ st'.run = none ∧ st'.frm.s.pos ≤ st'.frm.s.buf.length ∧
      st'.frm.s.buf.drop st'.frm.s.pos = frame p ++ rest := by
  obtain ⟨frm, run⟩ := st
  dsimp only at hrun hpos h
  subst hrun
  have hfm : ∃ r, frame p ++ rest = MAGIC ++ r := ⟨_, by unfold frame framePrefix; simp only [List.append_assoc]; rfl⟩
  obtain ⟨r, hfm⟩ := hfm
  have h0 : ((g ++ MAGIC).drop 0).take 4 ≠ MAGIC := hg 0 (by
    cases g with
    | nil => exact absurd rfl hne
    | cons x g => simp)
  have htake : ((frm.s.buf.drop frm.s.pos).take 4) ≠ MAGIC := by
    rw [h, hfm, ← List.append_assoc, List.take_append_of_le_length (by simp [MAGIC])]
    simpa using h0
  have hlen : 24 ≤ (frm.s.buf.drop frm.s.pos).length := by rw [h]; simp [frame]; omega
  have hlen' : frm.s.buf.length = frm.s.pos + (frm.s.buf.drop frm.s.pos).length := by simp; omega
  have hcs : Frm.init frm.s = (.error .frame, (Frm.goto ⟨frm.s, frm.s.pos, false, false, none⟩ frm.s.pos).failed) := by
    unfold Frm.init Frm.check
    rcases checkStart_cases ⟨frm.s, frm.s.pos, false, false, none⟩ rfl with ⟨h1, h2⟩ | ⟨n, hn, h1, h2, h3⟩ | ⟨h1, h2⟩
    · dsimp only at h1; omega
    · exfalso
      apply htake
      dsimp only at h2
      have := congrArg (List.take 4) h2
      rw [List.take_take] at this
      rw [show min 4 12 = 4 from rfl] at this
      rw [this]
      unfold framePrefix
      simp only [List.append_assoc]
      exact List.take_left' rfl
    · rw [h2]
  have hf : (Frm.goto ⟨frm.s, frm.s.pos, false, false, none⟩ frm.s.pos).failed =
      Frm.goto ⟨frm.s, frm.s.pos, false, false, none⟩ (frm.s.pos + g.length) := by
    unfold Frm.failed
    show Frm.goto _ (frm.s.pos + Frm.skipMagic (frm.s.buf.drop frm.s.pos)) = _
    rw [h, hfm, skipMagic_noMagic g r hg]
    rfl
  have hgl : frm.s.pos + g.length ≤ frm.s.buf.length := by
    have := congrArg List.length h
    simp at this; omega
  have hd : frm.s.buf.drop (frm.s.pos + g.length) = frame p ++ rest := by
    rw [← List.drop_drop, h, List.drop_left]
  refine ⟨.frame, ⟨Frm.goto ⟨frm.s, frm.s.pos, false, false, none⟩ (frm.s.pos + g.length), none⟩, ?_, rfl, hgl, hd⟩
  unfold FState.iter FState.genNext
  dsimp only
  rw [hcs, hf]
  dsimp only
  rw [if_neg]
  · rfl
  · show window frm.s.buf (frm.s.pos + g.length) 8 ≠ window frm.s.buf frm.s.pos 8
    intro hw
    unfold window at hw
    rw [hd, hfm] at hw
    apply htake
    have := congrArg (List.take 4) hw
    rw [List.take_take, List.take_take, show min 4 8 = 4 from rfl] at this
    rw [← this]
    exact List.take_left' rfl

theorem fresh_items {env : Env} (hr : env.Registered) {cls : Cls} : ∀ (n : Nat) (items : List (Bytes × Val)) (st : FState),
    (∀ x ∈ items, NoMagic x.1 ∧ FOK env cls x.2) → st.run = none → st.frm.s.pos ≤ st.frm.s.buf.length →
    st.frm.s.buf.drop st.frm.s.pos = (items.flatMap fun x => x.1 ++ frame (ser env x.2)) →
    (st.frm.s.buf.drop st.frm.s.pos).length < n →
    packetsIn (FState.nextLoop env cls n st).1 = items.map (·.2) ∧ (FState.nextLoop env cls n st).2.2 = true := by
  intro n
  induction n with
  | zero => intro items st h1 h2 h3 h4 h5; omega
  | succ n ih =>
    intro items st h1 h2 h3 h4 h5
    cases items with
    | nil =>
      have hinv : FInv env cls st [] [] := by
        unfold FInv
        rw [h2]
        exact ⟨h3, by rw [h4]; rfl⟩
      rw [FState.nextLoop]
      rcases hinv.iter hr (by simp) with ⟨st', e1, _⟩ | ⟨st', q, qs', hx, _⟩
      · rw [e1]; exact ⟨rfl, rfl⟩
      · cases hx
    | cons x items =>
      obtain ⟨g, q⟩ := x
      obtain ⟨hg, hok⟩ := h1 (g, q) (by simp)
      dsimp only at hg hok
      rw [List.flatMap_cons, List.append_assoc] at h4
      rw [FState.nextLoop]
      have h24 : (frame (ser env q)).length = 24 + (ser env q).length := by simp; omega
      cases g with
      | nil =>
        obtain ⟨st', e1, e2, e3, e4⟩ := fresh_frame hr hok h2 h3 h4
        rw [e1]
        have := ih items st' (fun y hy => h1 y (by simp [hy])) e2 e3 e4 (by
          rw [h4] at h5; rw [e4]; simp only [List.nil_append, List.length_append] at h5; omega)
        exact ⟨by simp [packetsIn, this.1], this.2⟩
      | cons c g =>
        obtain ⟨e, st', e1, e2, e3, e4⟩ := fresh_garbage (env := env) (cls := cls) hg (by simp) h2 h3 h4
        rw [e1]
        have := ih (([], q) :: items) st' (fun y hy => by
            rcases List.mem_cons.mp hy with hy | hy
            · rw [hy]; exact ⟨by intro i hi; simp at hi, hok⟩
            · exact h1 y (by simp [hy])) e2 e3 (by rw [e4]; simp) (by
          rw [h4] at h5; rw [e4]; simp only [List.length_append, List.length_cons] at h5 ⊢; omega)
        exact ⟨by simp [packetsIn, this.1], this.2⟩

theorem updates_state (env : Env) (cls : Cls) : ∀ (ups : List Bytes) (st : FState),
    FState.runOps env cls st (ups.map .update) = ([], st.update ups.flatten, true)
  | [], st => by simp [FState.runOps, FState.update]
  | b :: ups, st => by
    rw [List.map_cons, FState.runOps, updates_state env cls ups]
    simp [FState.update]

/-- C54, garbage between the frames, when all bytes (in any number of pieces) are there before the first call of `nextPackets`: every
packet comes out, in order, once. That the bytes are there is necessary: `C54_false_resync`. -/
theorem C54_resync_partial {env : Env} (hr : env.Registered) {cls : Cls} (items : List (Bytes × Val))
    (hitems : ∀ x ∈ items, NoMagic x.1 ∧ FramedSendable env cls x.2) (ups : List Bytes)
    (hrec : ups.flatten = items.flatMap fun x => x.1 ++ fser env x.2) :
    packetsIn (FState.runOps env cls .init (ups.map .update ++ [.next])).1 = items.map (·.2) := by
  rw [FState.runOps_append, updates_state]
  dsimp only [FState.runOps, FState.next]
  rw [List.nil_append, List.append_nil]
  have hw : ∀ l : List (Bytes × Val), (∀ x ∈ l, FramedSendable env cls x.2) →
      (l.flatMap fun x => x.1 ++ fser env x.2) = l.flatMap fun x => x.1 ++ frame (ser env x.2) := by
    intro l hl
    induction l with
    | nil => rfl
    | cons x l ih => rw [List.flatMap_cons, List.flatMap_cons, fser_eq (hl x (by simp)), ih fun y hy => hl y (by simp [hy])]
  refine (fresh_items hr _ items (FState.init.update ups.flatten) (fun x hx => ⟨(hitems x hx).1, (hitems x hx).2.ok hr⟩) rfl
    (Nat.zero_le _) ?_ ?_).1
  · show ([] ++ ups.flatten).drop 0 = _
    rw [List.nil_append, List.drop_zero, hrec, hw items fun x hx => (hitems x hx).2]
  · show (([] ++ ups.flatten).drop 0).length < ([] ++ ups.flatten).length + 1
    simp

example : packetsIn (FState.runOps Ex.env 0 .init ([List.replicate 12 1 ++ (fser Ex.env Ex.p1).take 15,
    (fser Ex.env Ex.p1).drop 15 ++ ([5, 8, 13] ++ fser Ex.env Ex.p3)].map .update ++ [.next])).1 = [Ex.p1, Ex.p3] :=
  C54_resync_partial Ex.registered [(List.replicate 12 1, Ex.p1), ([5, 8, 13], Ex.p3)] (by
    intro x hx
    simp only [List.mem_cons, List.not_mem_nil, or_false] at hx
    rcases hx with rfl | rfl
    · exact ⟨by intro i hi; revert i; decide, p1_framed⟩
    · exact ⟨by intro i hi; revert i; decide, p3_framed⟩) _ (by decide +kernel)

end Verif
