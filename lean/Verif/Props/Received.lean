import Verif.Lemmas.Received
import Verif.Props.Float
/-! # C82: packets that arrive are valid, and can be sent on -/
namespace Verif

theorem iter_post {env : Env} {depth : Nat} {base : Cls} {st : DState} (h : st.gen.Post fun r => wireV env depth r.1 (.packet base)) :
    (∀ v, (st.iter env depth base).1 = some (.packet v) → wireV env depth v (.packet base)) ∧
    (st.iter env depth base).2.gen.Post fun r => wireV env depth r.1 (.packet base) := by
  have hr := Dec.Post.run st.buf st.gen h st.pos
  unfold DState.iter
  dsimp only
  split
  next g p e => rw [e] at hr; exact ⟨nofun, hr⟩
  next v m p e => rw [e] at hr; exact ⟨fun w hw => by cases hw; exact hr, post_decPacket env depth base 0⟩
  · exact ⟨nofun, post_decPacket env depth base 0⟩

theorem nextLoop_post {env : Env} {depth : Nat} {base : Cls} : (f : Nat) → ∀ {st : DState}, (st.gen.Post fun r => wireV env depth r.1 (.packet base)) →
    (∀ v, Event.packet v ∈ (nextLoop env depth base f st).1 → wireV env depth v (.packet base)) ∧
    (nextLoop env depth base f st).2.1.gen.Post fun r => wireV env depth r.1 (.packet base)
  | 0, _, h => ⟨fun v hv => (by cases hv), h⟩
  | f + 1, st, h => by
    have hi := iter_post h
    unfold nextLoop
    split
    next st' e => rw [e] at hi; exact ⟨fun v hv => (by cases hv), hi.2⟩
    next ev st' e =>
      rw [e] at hi
      have ih := nextLoop_post f hi.2
      refine ⟨fun v hv => ?_, ih.2⟩
      rcases List.mem_cons.mp hv with hv | hv
      · exact hi.1 v (by rw [hv])
      · exact ih.1 v hv

theorem runOps_post {env : Env} {depth : Nat} {base : Cls} : (ops : List DOp) → ∀ {st : DState}, (st.gen.Post fun r => wireV env depth r.1 (.packet base)) →
    ∀ v, Event.packet v ∈ (runOps env depth base st ops).1 → wireV env depth v (.packet base)
  | [], _, _ => fun v hv => by cases hv
  | .update b :: ops, st, h => fun v hv => runOps_post ops (st := st.update b) h v hv
  | .next :: ops, st, h => fun v hv => by
    have hn := nextLoop_post (st.buf.length + 1) h
    rcases List.mem_append.mp hv with hv | hv
    · exact hn.1 v hv
    · exact runOps_post ops hn.2 v hv

theorem Arrived.wire {env : Env} {depth : Nat} {base : Cls} {v : Val} (h : Arrived env depth base v) : wireV env depth v (.packet base) := by
  rcases h with ⟨b, m, n, h⟩ | ⟨ops, h⟩
  · have := Dec.Post.run b _ (post_decPacket env depth base 0) 0
    unfold deserialize at h
    rw [h] at this
    exact this
  · exact runOps_post ops (post_decPacket env depth base 0) v h

theorem wire_packet {env : Env} {depth : Nat} {base : Cls} {v : Val} (h : wireV env depth v (.packet base)) : ∃ c fs, v = .packet c fs := by
  cases v with
  | packet c fs => exact ⟨c, fs, rfl⟩
  | _ => rw [wireV.eq_def] at h; cases h

/-- C82. Whatever bytes are received, in whatever pieces: a packet that arrives is an instance of the class asked for, and its fields, through all structs,
lists and packets in it, hold only values that their types accept. -/
theorem C82_valid {env : Env} {depth : Nat} {base : Cls} {v : Val} (h : Arrived env depth base v) :
    accepts env v (.packet base) = true ∧ (∃ c fs, v = .packet c fs ∧ env.isSub c base = true) ∧ depthV v ≤ depth := by
  have hw := h.wire
  obtain ⟨c, fs, rfl⟩ := wire_packet hw
  have ha := wire_accV env _ _ _ hw
  exact ⟨ha.1, ⟨c, fs, rfl, by rw [wireV] at hw; exact hw.1⟩, ha.2.1⟩

/-- C82. A packet that arrived can be sent on exactly if no required field is missing. -/
theorem C82_relay {env : Env} (he : env.Encodable) {depth : Nat} {base : Cls} {v : Val} (h : Arrived env depth base v) (hsize : sizeV env v < 2 ^ 64) :
    (∃ b, serialize env 0 v = .ok b) ↔ complete env v (.packet base) := by
  obtain ⟨c, fs, rfl⟩ := wire_packet h.wire
  have e : encV env (.packet c fs) (.packet 0) = encV env (.packet c fs) (.packet base) := by rw [encV, encV]
  unfold serialize
  rw [e]
  constructor
  · rintro ⟨b, hb⟩
    exact complete_V env _ _ b hb
  · intro hc
    obtain ⟨b, hb, -⟩ := wire_encV env he _ _ _ h.wire hc (by rw [encodableT]; trivial; all_goals nofun) hsize
    exact ⟨b, hb⟩

/-- C82. It then arrives unchanged exactly if its strings are ASCII, and no string or buffer is longer than the packet whose header precedes it most closely. -/
theorem C82_relay_same {env : Env} (hr : env.Registered) (he : env.Encodable) {depth : Nat} {base : Cls} {v : Val} (h : Arrived env depth base v)
    (hsize : sizeV env v < 2 ^ 64) (hc : complete env v (.packet base)) :
    Decodes env depth base (ser env v) v ↔ (textV v = true ∧ ∃ m, limV (serLen env) 0 v = some m) := by
  have hv := C82_valid h
  have hs : Sendable env base v := ⟨hv.1, (C82_relay he h hsize).mpr hc⟩
  rw [C01_roundtrip_iff_partial hr hs]
  constructor
  · rintro ⟨h1, -, h3⟩
    exact ⟨text_of_ascii v h1, h3⟩
  · rintro ⟨h1, h3⟩
    exact ⟨(wire_accV env _ _ _ h.wire).2.2 h1, hv.2.2, h3⟩

/-- C82. A packet without packets inside, with all required fields and ASCII strings, is passed on unchanged. -/
theorem C82_relay_flat {env : Env} (hr : env.Registered) (he : env.Encodable) {depth : Nat} {base c : Cls} {fs : FVals} (h : Arrived env (depth + 1) base (.packet c fs))
    (hsize : sizeV env (.packet c fs) < 2 ^ 64) (hc : complete env (.packet c fs) (.packet base)) (hflat : flatF fs = true) (ht : textF fs = true) :
    Decodes env (depth + 1) base (ser env (.packet c fs)) (.packet c fs) := by
  have hv := C82_valid h
  refine C01_roundtrip_flat_partial hr ⟨hv.1, (C82_relay he h hsize).mpr hc⟩ hflat ?_
  have := (wire_accV env _ _ _ h.wire).2.2 (by rw [textV]; exact ht)
  rw [asciiV] at this
  exact this

/-- The classes of the example can be sent. -/
theorem Ex.encodable : Ex.env.Encodable := by
  intro cls d h
  unfold Ex.env at h
  dsimp only at h
  split at h
  · cases h
    exact ⟨⟨[0, 1, 7], by decide +kernel, by decide, by decide⟩, by simp [Ex.t1, encodableD, encodableT], by decide, by decide⟩
  · cases h
    exact ⟨⟨[0, 1], by decide +kernel, by decide, by decide⟩, by simp [Ex.t2, encodableD, encodableT], by decide, by decide⟩
  · cases h
    refine ⟨⟨[0, 1], by decide +kernel, by decide, by decide⟩, ?_, by decide, by decide⟩
    simp only [Ex.t3, encodableD, encodableT, and_true, true_and]
    exact ⟨[0, 1], by decide +kernel, by decide, by decide⟩
  · cases h

/-- The packet p1 of the example arrives and is passed on. -/
example : Arrived Ex.env 1 0 Ex.p1 ∧ Decodes Ex.env 1 0 (ser Ex.env Ex.p1) Ex.p1 := by
  have h : Decodes Ex.env 1 0 (ser Ex.env Ex.p1) Ex.p1 := C01_roundtrip_flat_partial Ex.registered Ex.p1_sendable (by decide) (by decide)
  refine ⟨.inl ⟨_, h⟩, C82_relay_flat Ex.registered Ex.encodable (.inl ⟨_, h⟩) (by decide) ?_ (by decide) (by decide)⟩
  obtain ⟨b, hb⟩ := Ex.p1_sendable.2
  exact (C82_relay Ex.encodable (.inl ⟨_, h⟩) (by decide)).mp ⟨b, hb⟩

/-- C82 is false for required fields: a packet may arrive in which a required field is missing. It cannot be sent on. -/
theorem C82_false_required : ∃ b v, Decodes Ex.env 1 0 b v ∧ ¬ complete Ex.env v (.packet 0) ∧ serialize Ex.env 0 v = .error .encoding := by
  refine ⟨beEnc 8 28 ++ beEnc 8 (compl64 28) ++ (5 :: utf8 "t.one".toList) ++ (3 :: utf8 "1.0".toList) ++ [0, 0], .packet 1 (.unset (.unset (.unset .nil))), ?_, ?_, ?_⟩
  · generalize hb : beEnc 8 28 ++ beEnc 8 (compl64 28) ++ (5 :: utf8 "t.one".toList) ++ (3 :: utf8 "1.0".toList) ++ [0, 0] = b
    have h : Ex.result (deserialize Ex.env 1 0 b) = some (.packet 1 (.unset (.unset (.unset .nil)))) := by subst hb; decide +kernel
    unfold Ex.result at h
    split at h
    · next v m hm => cases h; exact ⟨m, (deserialize Ex.env 1 0 b).2, by rw [← hm]⟩
    · cases h
  · intro h
    rw [complete] at h
    obtain ⟨d, hd, h⟩ := h
    cases hd
    unfold Ex.t1 at h
    dsimp only at h
    rw [completeF] at h
    cases h.1
  · rfl

/-- C81, exactly: a packet is received with its numbers rounded if and only if the types accept the rounded numbers, and the conditions of C01 hold. -/
theorem C81_packet_iff {env : Env} (hr : env.Registered) {depth : Nat} {base : Cls} {p : Val} (hs : Sendable env base p) :
    Decodes env depth base (ser env p) (roundV p) ↔
      (accepts env (roundV p) (.packet base) = true ∧ textV p = true ∧ depthV p ≤ depth ∧ ∃ m, limV (serLen env) 0 p = some m) := by
  constructor
  · intro h
    have ha := (C82_valid (.inl ⟨_, h⟩)).1
    exact ⟨ha, (C81_packet hr hs ha).mp h⟩
  · rintro ⟨ha, h⟩
    exact (C81_packet hr hs ha).mpr h

end Verif
