import Verif.Spec.SpmpFramed
import Verif.Props.Spmp
import Verif.Props.Framed
/-! # C57: management requests on a connection for framed packets -/
namespace Verif.Spmp

/-! ## The adapter -/

theorem dispatch_due {σ : Type} {env : Env} {base wcls : Cls} (h : Handlers σ) (a : Adapter σ) {v : Val} (hv : FramedSendable env base v) :
    (Adapter.dispatch env wcls h a v).1.des = a.des ∧
    (Adapter.dispatch env wcls h a v).1.log = a.log ++ (due env wcls h.alt.isSome v).toList ∧
    (Adapter.dispatch env wcls h a v).1.st = h.replay a.st (due env wcls h.alt.isSome v).toList ∧
    (h.Quiet a.st (due env wcls h.alt.isSome v).toList → (Adapter.dispatch env wcls h a v).2 = false) := by
  unfold Adapter.dispatch due
  cases hw : wrapped wcls v with
  | some o =>
    dsimp only [Option.toList]
    exact ⟨rfl, rfl, rfl, fun q => q.1⟩
  | none =>
    dsimp only
    obtain ⟨b, hb⟩ := hv.serializes
    have hf : fser env v = b := by unfold fser; rw [hb]
    cases ha : h.alt with
    | none => simp [Handlers.replay]
    | some f =>
      simp only [Option.isSome_some, if_true, Option.toList]
      rw [hb, hf]
      refine ⟨rfl, rfl, ?_, ?_⟩
      · simp [Handlers.replay, ha]
      · intro q; rw [Handlers.Quiet, ha] at q; exact q.1

theorem Handlers.replay_append {σ : Type} (h : Handlers σ) : ∀ (l l' : List Delivery) (st : σ), h.replay st (l ++ l') = h.replay (h.replay st l) l'
  | [], l', st => rfl
  | .spmp o :: l, l', st => by rw [List.cons_append, replay, replay, replay_append h l l']
  | .alt b :: l, l', st => by
    rw [List.cons_append, replay, replay]
    cases h.alt with
    | none => exact replay_append h l l' _
    | some f => exact replay_append h l l' _

theorem Handlers.quiet_append {σ : Type} (h : Handlers σ) : ∀ (l l' : List Delivery) (st : σ), h.Quiet st (l ++ l') ↔ h.Quiet st l ∧ h.Quiet (h.replay st l) l'
  | [], l', st => by simp [Quiet, replay]
  | .spmp o :: l, l', st => by rw [List.cons_append, Quiet, Quiet, replay, quiet_append h l l', and_assoc]
  | .alt b :: l, l', st => by
    rw [List.cons_append, Quiet, Quiet, replay]
    cases h.alt with
    | none => exact quiet_append h l l' _
    | some f => dsimp only; rw [quiet_append h l l', and_assoc]

/-- One call of `data_received`. -/
theorem loop_spec {σ : Type} {env : Env} (hr : env.Registered) {base wcls : Cls} (h : Handlers σ) :
    ∀ (n : Nat) (qs : List Val) (a : Adapter σ) (fut : Bytes), (∀ x ∈ qs, FramedSendable env base x) → FInv env base a.des qs fut →
    a.des.frm.s.buf.length < n →
    ∃ done left, qs = done ++ left ∧ FInv env base (Adapter.loop env base wcls h n a).1.des left fut ∧
      (Adapter.loop env base wcls h n a).1.log = a.log ++ done.filterMap (due env wcls h.alt.isSome) ∧
      (Adapter.loop env base wcls h n a).1.st = h.replay a.st (done.filterMap (due env wcls h.alt.isSome)) ∧
      (h.Quiet a.st (qs.filterMap (due env wcls h.alt.isSome)) →
        (Adapter.loop env base wcls h n a).2 = false ∧ FBlocked env base (Adapter.loop env base wcls h n a).1.des left fut)
  | 0, qs, a, fut, _, _, hn => absurd hn (by omega)
  | n + 1, qs, a, fut, hq, hi, hn => by
    unfold Adapter.loop
    rcases hi.iter hr (fun x hx => (hq x hx).ok hr) with ⟨st', h1, h2⟩ | ⟨st', q, qs', rfl, h1, h2, h3⟩
    · rw [h1]
      exact ⟨[], qs, rfl, h2.1, by simp, rfl, fun _ => ⟨rfl, h2⟩⟩
    · rw [h1]
      dsimp only
      obtain ⟨d1, d2, d3, d4⟩ := dispatch_due (wcls := wcls) h { a with des := st' } (hq q (by simp))
      have hfm : (q :: qs').filterMap (due env wcls h.alt.isSome) =
          (due env wcls h.alt.isSome q).toList ++ qs'.filterMap (due env wcls h.alt.isSome) := by
        rw [List.filterMap_cons]; cases due env wcls h.alt.isSome q <;> rfl
      rw [hfm, Handlers.quiet_append]
      cases hd : Adapter.dispatch env wcls h { a with des := st' } q with
      | mk a' raised =>
        rw [hd] at d1 d2 d3 d4
        dsimp only at d1 d2 d3 d4
        cases raised with
        | true =>
          dsimp only
          refine ⟨[q], qs', rfl, by rw [d1]; exact h2, ?_, ?_, ?_⟩
          · rw [d2, List.filterMap_cons]; cases due env wcls h.alt.isSome q <;> rfl
          · rw [d3, List.filterMap_cons]; cases due env wcls h.alt.isSome q <;> rfl
          · intro hquiet
            exact absurd (d4 hquiet.1) (by simp)
        | false =>
          dsimp only
          obtain ⟨done, left, e1, e2, e3, e4, e5⟩ := loop_spec hr (wcls := wcls) h n qs' a' fut (fun x hx => hq x (by simp [hx])) (by rw [d1]; exact h2) (by rw [d1]; omega)
          have hfd : (q :: done).filterMap (due env wcls h.alt.isSome) =
              (due env wcls h.alt.isSome q).toList ++ done.filterMap (due env wcls h.alt.isSome) := by
            rw [List.filterMap_cons]; cases due env wcls h.alt.isSome q <;> rfl
          refine ⟨q :: done, left, by rw [e1]; rfl, e2, ?_, ?_, ?_⟩
          · rw [e3, d2, hfd, List.append_assoc]
          · rw [e4, d3, hfd, Handlers.replay_append]
          · intro hquiet
            exact e5 (by rw [d3]; exact hquiet.2)

theorem recv_spec {σ : Type} {env : Env} (hr : env.Registered) {base wcls : Cls} (h : Handlers σ) :
    ∀ (bs : List Bytes) (qs : List Val) (a : Adapter σ) (fut : Bytes), (∀ x ∈ qs, FramedSendable env base x) →
    FInv env base a.des qs (bs.flatten ++ fut) →
    ∃ done left, qs = done ++ left ∧ FInv env base (Adapter.recv env base wcls h a bs).des left fut ∧
      (Adapter.recv env base wcls h a bs).log = a.log ++ done.filterMap (due env wcls h.alt.isSome) ∧
      (Adapter.recv env base wcls h a bs).st = h.replay a.st (done.filterMap (due env wcls h.alt.isSome)) ∧
      (bs ≠ [] → h.Quiet a.st (qs.filterMap (due env wcls h.alt.isSome)) → FBlocked env base (Adapter.recv env base wcls h a bs).des left fut)
  | [], qs, a, fut, _, hi => ⟨[], qs, rfl, by simpa [Adapter.recv] using hi, by simp [Adapter.recv], rfl, fun h => absurd rfl h⟩
  | b :: bs, qs, a, fut, hq, hi => by
    rw [List.flatten_cons, List.append_assoc] at hi
    rw [Adapter.recv]
    obtain ⟨d1, l1, e1, e2, e3, e4, e5⟩ := loop_spec hr (wcls := wcls) h _ qs { a with des := a.des.update b } (bs.flatten ++ fut) hq hi.update (Nat.lt_succ_self _)
    change FInv env base (a.data env base wcls h b).1.des l1 _ at e2
    change (a.data env base wcls h b).1.log = _ at e3
    change (a.data env base wcls h b).1.st = _ at e4
    change _ → (a.data env base wcls h b).2 = false ∧ FBlocked env base (a.data env base wcls h b).1.des l1 _ at e5
    cases bs with
    | nil =>
      simp only [Adapter.recv, List.flatten_nil, List.nil_append] at e2 e5 ⊢
      exact ⟨d1, l1, e1, e2, e3, e4, fun _ hquiet => (e5 hquiet).2⟩
    | cons b' bs' =>
      obtain ⟨d2, l2, g1, g2, g3, g4, g5⟩ := recv_spec hr (wcls := wcls) h (b' :: bs') l1 (a.data env base wcls h b).1 fut (fun x hx => hq x (by rw [e1]; simp [hx])) e2
      refine ⟨d1 ++ d2, l2, by rw [e1, g1, List.append_assoc], g2, ?_, ?_, ?_⟩
      · rw [g3, e3, List.filterMap_append, List.append_assoc]
      · rw [g4, e4, List.filterMap_append, Handlers.replay_append]
      · intro _ hquiet
        rw [e1, List.filterMap_append, Handlers.quiet_append] at hquiet
        refine g5 (by simp) ?_
        rw [e4]
        exact hquiet.2

theorem fwire_ne {env : Env} {base : Cls} {p : Val} {ps : List Val} (h : FramedSendable env base p) : fser env p ++ ps.flatMap (fser env) ≠ [] := by
  rw [fser_eq h]
  intro he
  have := congrArg List.length he
  simp [frame] at this

/-- C57. For every list of framed packets, every way of cutting their bytes into pieces, and whatever the two protocols do and however often they
raise: the calls that have been made are those that are due for the packets at the beginning of the list, in their order: no packet is skipped,
none is delivered twice, none to the wrong protocol, none changed. -/
theorem C57_prefix {σ : Type} {env : Env} (hr : env.Registered) {base wcls : Cls} (h : Handlers σ) (st : σ) (ps : List Val)
    (hps : ∀ p ∈ ps, FramedSendable env base p) (bs : List Bytes) (fut : Bytes) (hb : bs.flatten ++ fut = ps.flatMap (fser env)) :
    ∃ k ≤ ps.length, (Adapter.recv env base wcls h (.init st) bs).log = (ps.take k).filterMap (due env wcls h.alt.isSome) ∧
      (Adapter.recv env base wcls h (.init st) bs).st = h.replay st ((ps.take k).filterMap (due env wcls h.alt.isSome)) := by
  rw [fwire_eq hps] at hb
  obtain ⟨done, left, e1, _, e3, e4, _⟩ := recv_spec hr (wcls := wcls) h bs ps (.init st) fut hps (FInv.init hb)
  refine ⟨done.length, by rw [e1]; simp, ?_, ?_⟩
  · rw [e3, e1, List.take_left]; rfl
  · rw [e4, e1, List.take_left]; rfl

/-- C57. As long as neither protocol raises, every packet that has arrived has been delivered. -/
theorem C57_complete {σ : Type} {env : Env} (hr : env.Registered) {base wcls : Cls} (h : Handlers σ) (st : σ) (ps : List Val)
    (hps : ∀ p ∈ ps, FramedSendable env base p) (hquiet : h.Quiet st (ps.filterMap (due env wcls h.alt.isSome)))
    (bs : List Bytes) (hb : bs.flatten = ps.flatMap (fser env)) :
    (Adapter.recv env base wcls h (.init st) bs).log = ps.filterMap (due env wcls h.alt.isSome) ∧
    (Adapter.recv env base wcls h (.init st) bs).st = h.replay st (ps.filterMap (due env wcls h.alt.isSome)) := by
  have hb' := hb
  rw [fwire_eq hps] at hb
  obtain ⟨done, left, e1, _, e3, e4, e5⟩ := recv_spec hr (wcls := wcls) h bs ps (.init st) [] hps (by rw [List.append_nil]; exact FInv.init hb)
  have hleft : left = [] := by
    cases bs with
    | nil =>
      cases ps with
      | nil => exact (List.append_eq_nil_iff.mp e1.symm).2
      | cons p ps => exact absurd hb'.symm (fwire_ne (hps p (by simp)))
    | cons b bs =>
      have := e5 (by simp) hquiet
      cases left with
      | nil => rfl
      | cons q l => exact absurd this.2 (by simp)
  rw [hleft, List.append_nil] at e1
  rw [e1]
  exact ⟨e3, e4⟩

/-- Two protocols that do not share a state and do not raise. -/
def separate {α β : Type} (f : α → Option Bytes → α) (g : β → Bytes → β) : Handlers (α × β) :=
  ⟨fun s o => ((f s.1 o, s.2), false), some fun s b => ((s.1, g s.2 b), false)⟩

theorem separate_quiet {α β : Type} (f : α → Option Bytes → α) (g : β → Bytes → β) : ∀ (l : List Delivery) (s : α × β), (separate f g).Quiet s l
  | [], _ => trivial
  | .spmp _ :: l, _ => ⟨rfl, separate_quiet f g l _⟩
  | .alt _ :: l, _ => ⟨rfl, separate_quiet f g l _⟩

theorem separate_replay {α β : Type} (env : Env) (wcls : Cls) (f : α → Option Bytes → α) (g : β → Bytes → β) : ∀ (ps : List Val) (s : α × β),
    (separate f g).replay s (ps.filterMap (due env wcls true)) =
      ((ps.filterMap (wrapped wcls)).foldl f s.1, ((others wcls ps).map (fser env)).foldl g s.2)
  | [], s => rfl
  | p :: ps, s => by
    rw [List.filterMap_cons, List.filterMap_cons, others, List.filter_cons]
    unfold due
    cases hw : wrapped wcls p with
    | some o => exact separate_replay env wcls f g ps _
    | none => exact separate_replay env wcls f g ps _

/-- C57. One connection for two protocols: whatever they do with it, each gets exactly its own data, in the order in which it was sent: the
management protocol the payloads of the wrappers, the other one the bytes of the other packets. -/
theorem C57_demux {α β : Type} {env : Env} (hr : env.Registered) {base wcls : Cls} (f : α → Option Bytes → α) (g : β → Bytes → β) (a : α) (b : β)
    (ps : List Val) (hps : ∀ p ∈ ps, FramedSendable env base p) (bs : List Bytes) (hb : bs.flatten = ps.flatMap (fser env)) :
    (Adapter.recv env base wcls (separate f g) (.init (a, b)) bs).st =
      ((ps.filterMap (wrapped wcls)).foldl f a, ((others wcls ps).map (fser env)).foldl g b) := by
  rw [(C57_complete hr (separate f g) (a, b) ps hps (separate_quiet f g _ _) bs hb).2]
  exact separate_replay env wcls f g ps (a, b)

/-! ## Wrappers -/

theorem wrapped_wrap (wcls : Cls) (b : Bytes) : wrapped wcls (wrap wcls b) = some (some b) := by simp [wrapped, wrap]

theorem wrap_fields : wrapDef.fields = .cons "spmpPacket" none false .buf .nil := rfl

/-- A wrapper that was serialized has a payload. -/
theorem wrapped_filled {env : Env} {base wcls : Cls} (hw : env.classDef wcls = some wrapDef) {p : Val} (h : FramedSendable env base p) :
    wrapped wcls p ≠ some none := by
  obtain ⟨h1, _, _⟩ := h.inv
  obtain ⟨cls, fs, b, rfl, _, _, h4⟩ := sendable_cases h1
  obtain ⟨d, tags, n, _, _, _, hcls, _, hn, _⟩ := encPacket_inv h4
  unfold wrapped
  by_cases hc : cls = wcls
  · subst hc
    rw [hw] at hcls
    cases hcls
    have hacc := h.accepted
    rw [accepts, hw] at hacc
    dsimp only
    rw [if_pos rfl]
    rw [wrap_fields] at hn
    dsimp only at hacc
    rw [wrap_fields] at hacc
    cases fs with
    | nil => simp [countSet] at hn
    | unset r => simp [countSet] at hn
    | set v r =>
      cases v with
      | buf b => simp
      | _ => simp [acceptsF, accepts] at hacc
  · dsimp only; rw [if_neg hc]; simp

/-- C57. Anything up to 2 GiB can be wrapped; the wrapper is then a frame around a packet. -/
theorem C57_wrap {env : Env} {base wcls : Cls} (hw : env.classDef wcls = some wrapDef) (hs : env.isSub wcls base = true) (data : Bytes)
    (hl : data.length < 2 ^ 31) : FramedSendable env base (wrap wcls data) := by
  have henc : encV env (.buf data) .buf = .ok (beEnc 8 data.length ++ data) := by
    rw [encV, if_neg (by omega), packU_nat (by omega)]
    rfl
  have htags : processFields wrapDef.fields = .ok [0] := by decide +kernel
  have hid : (utf8 wrapDef.ident).length = 36 := by decide +kernel
  have hver : (utf8 wrapDef.version).length = 3 := by decide +kernel
  have hn : countSet (.set (.buf data) .nil) wrapDef.fields = .ok 1 := by rw [wrap_fields]; rfl
  have hbody : encF env (.set (.buf data) .nil) wrapDef.fields [0] = .ok (beEnc 2 0 ++ (beEnc 8 data.length ++ data)) := by
    rw [wrap_fields, encF, packU_nat (w := 2) (v := 0) (by omega), henc, encF]
    simp [bind, Except.bind, wrapE]
  have hdr : ∃ hdr, encHeader (16 + (1 + (utf8 wrapDef.ident).length) + (1 + (utf8 wrapDef.version).length) + ((beEnc 2 1).length + (beEnc 2 0 ++ (beEnc 8 data.length ++ data)).length)) (utf8 wrapDef.ident) (utf8 wrapDef.version) = .ok hdr
      ∧ hdr.length = 16 + (1 + 36) + (1 + 3) := by
    unfold encHeader
    simp only [List.length_append, beEnc_length]
    generalize utf8 wrapDef.ident = idb at hid
    generalize utf8 wrapDef.version = verb at hver
    rw [hid, hver]
    generalize ht : 16 + (1 + 36) + (1 + 3) + (2 + (2 + (8 + data.length))) = total
    have htl : total < 2 ^ 64 := by omega
    have hc := compl64_lt htl
    rw [packU_nat (w := 8) (v := total) (by omega), packU_nat (w := 8) (v := compl64 total) (by omega), packU_nat (w := 1) (v := 36) (by omega), packU_nat (w := 1) (v := 3) (by omega)]
    refine ⟨_, rfl, ?_⟩
    simp [hid, hver]
  obtain ⟨hdr, hh, hhl⟩ := hdr
  have hser := ser_packet (cls := wcls) (d := wrapDef) hw htags hn (packU_nat (w := 2) (v := 1) (by omega)) hbody hh
  refine ⟨?_, ⟨wcls, _, rfl, ?_⟩, ?_, ?_⟩
  · rw [wrap, accepts, hs, hw]
    dsimp only
    rw [wrap_fields]
    simp [acceptsF, accepts]
  · simp [flatF, flatV]
  · simp [wrap, asciiV, asciiF]
  · unfold framedSerialize wrap
    rw [hser]
    exact ⟨_, (framedBytes_eq (by simp [hhl]; omega)).1 (by simp [hhl]; omega)⟩

/-- C57. What the server writes goes out as one wrapper with exactly these bytes. -/
theorem C57_written {env : Env} {base wcls : Cls} (hw : env.classDef wcls = some wrapDef) (hs : env.isSub wcls base = true) (b : Bytes) (hl : b.length < 2 ^ 31) :
    frameAct env wcls (.write b) = .write (fser env (wrap wcls b)) ∧ FramedSendable env base (wrap wcls b) ∧ payloads wcls [wrap wcls b] = [b] := by
  have h := C57_wrap hw hs b hl
  obtain ⟨f, hf⟩ := h.serializes
  refine ⟨?_, h, ?_⟩
  · rw [frameAct, hf]
    dsimp only
    unfold fser; rw [hf]
  · simp [payloads, wrapped_wrap]

/-! ## A device -/

theorem serveRaises_eq {σ : Type} (c : Cfg σ) : ∀ (n : Nat) (s : Server σ) (ps : List Packet),
    (nextLoop c.env c.depth c.cls n s.des).1 = ps.map (fun p => .packet (p.val c.cls)) → (processAll c s.up s.w ps).2.2 = false →
    serveRaises c n s = false
  | 0, s, ps, he, _ => rfl
  | n + 1, s, ps, he, hr => by
    unfold serveRaises
    unfold nextLoop at he
    cases hi : s.des.iter c.env c.depth c.cls with
    | mk o d =>
      rw [hi] at he
      cases o with
      | none => rfl
      | some e =>
        dsimp only at he ⊢
        cases ps with
        | nil => simp at he
        | cons p ps =>
          simp only [List.map_cons, List.cons.injEq] at he
          obtain ⟨rfl, he⟩ := he
          dsimp only
          rw [ofVal_val]
          dsimp only
          unfold processAll at hr
          cases hp : process c s.up s.w p with
          | mk w' r =>
            cases r with
            | mk acts raised =>
              rw [hp] at hr
              cases raised with
              | true => simp at hr
              | false =>
                dsimp only at hr ⊢
                exact serveRaises_eq c n { s with des := d, w := w' } ps he hr

theorem device_replay {σ β : Type} (c : Cfg σ) (wcls : Cls) (alt : β → Bytes → β) : ∀ (ps : List Val), (∀ p ∈ ps, wrapped wcls p ≠ some none) →
    ∀ s : Device σ β, (deviceHandlers c wcls alt).replay s (ps.filterMap (due c.env wcls true)) =
      ⟨(s.server.exec c ((payloads wcls ps).map .data)).1,
        s.acts ++ (s.server.exec c ((payloads wcls ps).map .data)).2.map (frameAct c.env wcls),
        ((others wcls ps).map (fser c.env)).foldl alt s.other⟩
  | [], _, s => by simp [Handlers.replay, payloads, others, Server.exec]
  | p :: ps, hf, s => by
    have ih := device_replay c wcls alt ps (fun x hx => hf x (by simp [hx]))
    have hp := hf p (by simp)
    rw [List.filterMap_cons, payloads, List.filterMap_cons, others, List.filter_cons]
    unfold due
    cases hw : wrapped wcls p with
    | some o =>
      cases o with
      | none => exact absurd hw hp
      | some b =>
        dsimp only [Option.bind_some, id, Option.isNone]
        rw [Handlers.replay]
        refine (ih _).trans ?_
        simp only [deviceHandlers, serverData, Server.exec, Server.step, List.map_cons, List.map_append, List.append_assoc]
        rfl
    | none =>
      exact ih _

theorem device_quiet {σ β : Type} (c : Cfg σ) (wcls : Cls) (alt : β → Bytes → β) : ∀ (ps : List Val), (∀ p ∈ ps, wrapped wcls p ≠ some none) →
    ∀ (s : Device σ β) (pk : List Packet),
    (runOps c.env c.depth c.cls s.server.des (opsOf (payloads wcls ps))).1 = pk.map (fun p => .packet (p.val c.cls)) →
    (processAll c s.server.up s.server.w pk).2.2 = false →
    (deviceHandlers c wcls alt).Quiet s (ps.filterMap (due c.env wcls true))
  | [], _, _, _, _, _ => trivial
  | p :: ps, hf, s, pk, he, hr => by
    have ih := device_quiet c wcls alt ps (fun x hx => hf x (by simp [hx]))
    have hp := hf p (by simp)
    rw [List.filterMap_cons]
    rw [payloads, List.filterMap_cons] at he
    unfold due
    cases hw : wrapped wcls p with
    | some o =>
      cases o with
      | none => exact absurd hw hp
      | some b =>
        rw [hw] at he
        dsimp only [Option.bind_some, id] at he ⊢
        simp only [opsOf, List.flatMap_cons, List.cons_append, List.nil_append, runOps] at he
        obtain ⟨ps1, ps2, rfl, e1, e2⟩ := List.append_eq_map_iff.mp he
        obtain ⟨r1, r2⟩ := processAll_append c s.server.up ps1 ps2 s.server.w hr
        have hd : s.server.data c b = (⟨(DState.next c.env c.depth c.cls (s.server.des.update b)).2.1, s.server.up, (processAll c s.server.up s.server.w ps1).1⟩, (processAll c s.server.up s.server.w ps1).2.1) :=
          serveLoop_eq c _ { s.server with des := s.server.des.update b } ps1 e1.symm r1
        rw [Handlers.Quiet]
        refine ⟨?_, ?_⟩
        · exact serveRaises_eq c _ { s.server with des := s.server.des.update b } ps1 e1.symm r1
        · refine ih _ ps2 ?_ ?_
          · simp only [deviceHandlers, serverData]
            rw [hd]
            exact e2.symm
          · simp only [deviceHandlers, serverData]
            rw [hd]
            rw [r2] at hr
            exact hr
    | none =>
      rw [hw] at he
      exact ⟨rfl, ih _ pk he hr⟩

/-- C57. A switch or a WAN device. Management requests travel in wrappers (cut into wrappers in any way) among the packets of the device, on one
connection that cuts the bytes in any way: each request is carried out once, in order; what is written is a wrapper with the response for each;
and the device's own protocol gets exactly the other packets, in order. -/
theorem C57_device_partial {σ β : Type} (c : Cfg σ) (hr : c.env.Registered) {d : Nat} (hd : c.depth = d + 1) {base wcls : Cls}
    (hw : c.env.classDef wcls = some wrapDef) (alt : β → Bytes → β) (w : σ) (o : β)
    (ps : List Val) (hps : ∀ p ∈ ps, FramedSendable c.env base p)
    (qs : List Query) (ha : ∀ q ∈ qs, c.authorized q.packet = true) (hq : ∀ q ∈ qs, Plain c.env c.cls q.packet)
    (hpl : (payloads wcls ps).flatten = qs.flatMap fun q => ser c.env (q.packet.val c.cls))
    {w' : σ} {acts : List Act} {rs} (hs : Served c w qs w' acts rs)
    (bs : List Bytes) (hb : bs.flatten = ps.flatMap (fser c.env)) :
    (Adapter.recv c.env base wcls (deviceHandlers c wcls alt) (.init (.init c w o)) bs).st.server.w = w' ∧
    (Adapter.recv c.env base wcls (deviceHandlers c wcls alt) (.init (.init c w o)) bs).st.acts = acts.map (frameAct c.env wcls) ∧
    (Adapter.recv c.env base wcls (deviceHandlers c wcls alt) (.init (.init c w o)) bs).st.other = ((others wcls ps).map (fser c.env)).foldl alt o := by
  have hfill : ∀ p ∈ ps, wrapped wcls p ≠ some none := fun p hp => wrapped_filled hw (hps p hp)
  have hev := chunks_events hr (depth := d) (qs.map Query.packet) (by
    intro p hp; obtain ⟨q, hqm, rfl⟩ := List.mem_map.mp hp; exact hq q hqm) (payloads wcls ps) (by rw [hpl, List.flatMap_map])
  rw [← hd] at hev
  have hquiet := device_quiet c wcls alt ps hfill (.init c w o) (qs.map Query.packet) hev (by
    rw [show (Device.init c w o).server.up = true from rfl, show (Device.init c w o).server.w = w from rfl, served_processAll hs ha])
  rw [(C57_complete hr (deviceHandlers c wcls alt) (.init c w o) ps hps hquiet bs hb).2]
  rw [show (deviceHandlers c wcls alt).alt.isSome = true from rfl, device_replay c wcls alt ps hfill]
  obtain ⟨h1, h2⟩ := C44_each_once_partial c hr hd w qs ha hq (payloads wcls ps) hpl hs
  refine ⟨h1, ?_, rfl⟩
  show [] ++ List.map _ ((Server.init c w).exec c _).2 = _
  rw [h2, List.nil_append]

theorem client_replay (env : Env) (depth : Nat) (cls wcls : Cls) : ∀ (ps : List Val), (∀ p ∈ ps, wrapped wcls p ≠ some none) → ∀ s : Client,
    (clientHandlers env depth cls).replay s (ps.filterMap (due env wcls false)) = s.recv env depth cls (payloads wcls ps) ∧
    (clientHandlers env depth cls).Quiet s (ps.filterMap (due env wcls false))
  | [], _, s => ⟨rfl, trivial⟩
  | p :: ps, hf, s => by
    have ih := client_replay env depth cls wcls ps (fun x hx => hf x (by simp [hx]))
    have hp := hf p (by simp)
    rw [List.filterMap_cons, payloads, List.filterMap_cons]
    unfold due
    cases hw : wrapped wcls p with
    | some o =>
      cases o with
      | none => exact absurd hw hp
      | some b => exact ⟨(ih _).1, rfl, (ih _).2⟩
    | none => exact ih _

/-- C57, the client: whatever other packets arrive on the connection, in any chunks: every query gets its own result and error. -/
theorem C57_client_partial {env : Env} (hr : env.Registered) {depth : Nat} {base cls wcls : Cls} (hw : env.classDef wcls = some wrapDef)
    (qrs : List (Query × Str × Option Str)) (hid : (qrs.map (·.1.id)).Nodup) (hp : ∀ x ∈ qrs, Plain env cls (x.1.response x.2.1 x.2.2))
    (ps : List Val) (hps : ∀ p ∈ ps, FramedSendable env base p)
    (hpl : (payloads wcls ps).flatten = qrs.flatMap fun x => ser env ((x.1.response x.2.1 x.2.2).val cls))
    (bs : List Bytes) (hb : bs.flatten = ps.flatMap (fser env)) :
    ∀ x ∈ qrs, (Adapter.recv env base wcls (clientHandlers env (depth + 1) cls) (.init (.init env (depth + 1) cls)) bs).st.answer x.1.id =
      some (some x.2.1, x.2.2) := by
  have hfill : ∀ p ∈ ps, wrapped wcls p ≠ some none := fun p hp => wrapped_filled hw (hps p hp)
  obtain ⟨h1, h2⟩ := client_replay env (depth + 1) cls wcls ps hfill (.init env (depth + 1) cls)
  rw [(C57_complete hr (clientHandlers env (depth + 1) cls) (.init env (depth + 1) cls) ps hps h2 bs hb).2]
  rw [show (clientHandlers env (depth + 1) cls).alt.isSome = false from rfl, h1]
  exact C44_client_partial hr qrs hid hp (payloads wcls ps) hpl

/-- Different packets have different bytes. -/
theorem fser_inj {env : Env} (hr : env.Registered) {base : Cls} {p q : Val} (hp : FramedSendable env base p) (hq : FramedSendable env base q)
    (h : fser env p = fser env q) : p = q := by
  obtain ⟨_, e1⟩ := C54_any_chunking hr [p] (by simpa using hp) [.update (fser env p)] (by simp [received])
  obtain ⟨_, e2⟩ := C54_any_chunking hr [q] (by simpa using hq) [.update (fser env p)] (by simp [received, h])
  rw [e1] at e2
  have := (Prod.mk.inj e2).1
  simpa using this

theorem map_fser_inj {env : Env} (hr : env.Registered) {base : Cls} : ∀ (l l' : List Val), (∀ p ∈ l, FramedSendable env base p) →
    (∀ p ∈ l', FramedSendable env base p) → l.map (fser env) = l'.map (fser env) → l = l'
  | [], [], _, _, _ => rfl
  | [], _ :: _, _, _, h => by simp at h
  | _ :: _, [], _, _, h => by simp at h
  | p :: l, q :: l', h1, h2, h => by
    simp only [List.map_cons, List.cons.injEq] at h
    rw [fser_inj hr (h1 p (by simp)) (h2 q (by simp)) h.1, map_fser_inj hr l l' (fun x hx => h1 x (by simp [hx])) (fun x hx => h2 x (by simp [hx])) h.2]

theorem writes_framed {env : Env} {base wcls : Cls} (hw : env.classDef wcls = some wrapDef) (hs : env.isSub wcls base = true) : ∀ (l : List Act),
    (∀ b ∈ writes l, b.length < 2 ^ 31) → writes (l.map (frameAct env wcls)) = ((writes l).map (wrap wcls)).map (fser env)
  | [], _ => rfl
  | .call _ _ :: l, h => writes_framed hw hs l h
  | .close :: l, h => writes_framed hw hs l h
  | .write b :: l, h => by
    rw [List.map_cons, (C57_written (base := base) hw hs b (h b (by simp [writes]))).1, writes, writes, List.map_cons, List.map_cons,
      writes_framed hw hs l (fun x hx => h x (by simp [writes, hx]))]

theorem payloads_filter (wcls : Cls) : ∀ ps : List Val, payloads wcls ps = payloads wcls (ps.filter fun v => (wrapped wcls v).isSome)
  | [] => rfl
  | p :: ps => by
    have ih := payloads_filter wcls ps
    unfold payloads at ih ⊢
    rw [List.filter_cons, List.filterMap_cons]
    cases hw : wrapped wcls p with
    | none => simpa using ih
    | some o =>
      simp only [Option.isSome_some, if_true, List.filterMap_cons, hw]
      cases o with
      | none => exact ih
      | some b => exact congrArg _ ih

/-- C57, from end to end: an access point sends queries with different ids, the device answers on the same connection, on which it also sends packets of
its own; the bytes are cut in any way in both directions. Every query is carried out once and in order, and returns its own result and error. -/
theorem C57_end_to_end_partial {σ β : Type} (c : Cfg σ) (hr : c.env.Registered) {d : Nat} (hd : c.depth = d + 1) {base wcls : Cls}
    (hw : c.env.classDef wcls = some wrapDef) (alt : β → Bytes → β) (w : σ) (o : β)
    (ps : List Val) (hps : ∀ p ∈ ps, FramedSendable c.env base p)
    (qs : List Query) (ha : ∀ q ∈ qs, c.authorized q.packet = true) (hq : ∀ q ∈ qs, Plain c.env c.cls q.packet) (hid : (qs.map (·.id)).Nodup)
    (hpl : (payloads wcls ps).flatten = qs.flatMap fun q => ser c.env (q.packet.val c.cls))
    {w' : σ} {acts : List Act} {rs} (hs : Served c w qs w' acts rs)
    (hrs : ∀ x ∈ qs.zip rs, Plain c.env c.cls (x.1.response x.2.1 x.2.2))
    (bs : List Bytes) (hb : bs.flatten = ps.flatMap (fser c.env))
    (ps' : List Val) (hps' : ∀ p ∈ ps', FramedSendable c.env base p) (hsub : c.env.isSub wcls base = true) (hlen : ∀ b ∈ writes acts, b.length < 2 ^ 31)
    (hpl' : (ps'.filter fun v => (wrapped wcls v).isSome).map (fser c.env) =
      writes (Adapter.recv c.env base wcls (deviceHandlers c wcls alt) (.init (.init c w o)) bs).st.acts)
    (bs' : List Bytes) (hb' : bs'.flatten = ps'.flatMap (fser c.env)) :
    (Adapter.recv c.env base wcls (deviceHandlers c wcls alt) (.init (.init c w o)) bs).st.server.w = w' ∧
    ∀ x ∈ qs.zip rs, (Adapter.recv c.env base wcls (clientHandlers c.env c.depth c.cls) (.init (.init c.env c.depth c.cls)) bs').st.answer x.1.id =
      some (some x.2.1, x.2.2) := by
  obtain ⟨h1, h2, _⟩ := C57_device_partial c hr hd hw alt w o ps hps qs ha hq hpl hs bs hb
  refine ⟨h1, ?_⟩
  rw [h2] at hpl'
  have hpay : payloads wcls ps' = writes acts := by
    rw [writes_framed hw hsub acts hlen] at hpl'
    have hf := map_fser_inj hr _ _ (fun p hp => hps' p (List.mem_filter.mp hp).1) (by
      intro p hp
      obtain ⟨b, hbm, rfl⟩ := List.mem_map.mp hp
      exact C57_wrap hw hsub b (hlen b hbm)) hpl'
    rw [payloads_filter, hf]
    generalize writes acts = l
    induction l with
    | nil => rfl
    | cons b l ih => rw [List.map_cons, payloads, List.filterMap_cons, wrapped_wrap]; exact congrArg _ ih
  rw [hd]
  refine C57_client_partial hr hw (qs.zip rs) ?_ hrs ps' hps' ?_ bs' hb'
  · have : (qs.zip rs).map (·.1.id) = ((qs.zip rs).map Prod.fst).map (·.id) := by rw [List.map_map]; rfl
    rw [this, List.map_fst_zip (by rw [(served_written hs).1]; omega)]
    exact hid
  · rw [hpay, ← (served_written hs).2]
    generalize acts = l
    induction l with
    | nil => rfl
    | cons a l ih => cases a <;> simp [writes, written, ih]

/-! ## Any bytes at all -/

/-- Whatever arrives, what holds of the state before and is kept by both protocols holds afterwards. -/
theorem recv_keeps {σ : Type} (env : Env) (base wcls : Cls) (h : Handlers σ) (I : σ → Prop) (h1 : ∀ s o, I s → I (h.spmp s o).1)
    (h2 : ∀ f, h.alt = some f → ∀ s b, I s → I (f s b).1) : ∀ (bs : List Bytes) (a : Adapter σ), I a.st → I (Adapter.recv env base wcls h a bs).st := by
  have hdisp : ∀ (a : Adapter σ) (v : Val), I a.st → I (Adapter.dispatch env wcls h a v).1.st := by
    intro a v ha
    unfold Adapter.dispatch
    split
    · exact h1 _ _ ha
    · split
      · exact ha
      · next f hf =>
        split
        · exact ha
        · exact h2 f hf _ _ ha
  have hloop : ∀ (n : Nat) (a : Adapter σ), I a.st → I (Adapter.loop env base wcls h n a).1.st := by
    intro n
    induction n with
    | zero => intro a ha; exact ha
    | succ n ih =>
      intro a ha
      unfold Adapter.loop
      split
      · exact ha
      · exact ih _ ha
      · next v d _ =>
        have := hdisp { a with des := d } v ha
        cases hd : Adapter.dispatch env wcls h { a with des := d } v with
        | mk a' r =>
          rw [hd] at this
          cases r with
          | true => exact this
          | false => exact ih _ this
  intro bs
  induction bs with
  | nil => intro a ha; exact ha
  | cons b bs ih => intro a ha; rw [Adapter.recv]; exact ih _ (hloop _ _ ha)

/-- C57. A peer that is not on the local machine, whatever bytes it sends to a WAN device on its framed connection and however they arrive: no function
is called, the managed state stays as it is, no response is written; at most the connection is closed. -/
theorem C57_unauthorized {σ β : Type} (c : Cfg σ) (peer : Option Str) (hp : peer ≠ some "127.0.0.1".toList) (hc : c.authorized = fun _ => localAccess peer)
    (base wcls : Cls) (alt : β → Bytes → β) (w : σ) (o : β) (bs : List Bytes) :
    (Adapter.recv c.env base wcls (deviceHandlers c wcls alt) (.init (.init c w o)) bs).st.server.w = w ∧
    ∀ a ∈ (Adapter.recv c.env base wcls (deviceHandlers c wcls alt) (.init (.init c w o)) bs).st.acts, a = .close := by
  refine recv_keeps c.env base wcls (deviceHandlers c wcls alt) (fun s => s.server.w = w ∧ ∀ a ∈ s.acts, a = .close) ?_ ?_ bs _ ⟨rfl, by simp [Device.init, Adapter.init]⟩
  · rintro s o ⟨i1, i2⟩
    cases o with
    | none => exact ⟨i1, i2⟩
    | some b =>
      have hauth : ∀ p, c.authorized p = false := fun p => by rw [hc]; exact decide_eq_false hp
      obtain ⟨g1, g2⟩ := serveLoop_refused hauth ((s.server.des.buf ++ b).length + 1) { s.server with des := s.server.des.update b }
      refine ⟨g1.trans i1, fun a ha => ?_⟩
      rcases List.mem_append.mp ha with ha | ha
      · exact i2 a ha
      · obtain ⟨x, hx, rfl⟩ := List.mem_map.mp ha
        rw [g2 x hx]; rfl
  · rintro f hf s b ⟨i1, i2⟩
    cases hf
    exact ⟨i1, i2⟩

/-- C57. Whatever bytes arrive: nothing but an authorized request makes the device call one of its functions. -/
theorem C57_only_authorized {σ β : Type} (c : Cfg σ) (base wcls : Cls) (alt : β → Bytes → β) (w : σ) (o : β) (bs : List Bytes) (cmd : Str) (args : List Str)
    (h : Act.call cmd args ∈ (Adapter.recv c.env base wcls (deviceHandlers c wcls alt) (.init (.init c w o)) bs).st.acts) :
    ∃ p : Packet, c.authorized p = true ∧ p.request = some cmd ∧ p.args = some args := by
  have := recv_keeps c.env base wcls (deviceHandlers c wcls alt)
    (fun s => ∀ cmd args, Act.call cmd args ∈ s.acts → ∃ p : Packet, c.authorized p = true ∧ p.request = some cmd ∧ p.args = some args) ?_ ?_ bs
    (.init (.init c w o)) (by simp [Device.init, Adapter.init])
  · exact this cmd args h
  · intro s o i cmd args hm
    cases o with
    | none => exact i cmd args hm
    | some b =>
      rcases List.mem_append.mp hm with hm | hm
      · exact i cmd args hm
      · obtain ⟨x, hx, he⟩ := List.mem_map.mp hm
        have hl := serveLoop_legit c ((s.server.des.buf ++ b).length + 1) { s.server with des := s.server.des.update b } x hx
        cases x with
        | call cmd' args' => cases he; exact hl
        | write b =>
          rw [frameAct] at he
          cases hf : framedSerialize c.env 0 (wrap wcls b) with
          | ok f => rw [hf] at he; cases he
          | error e => rw [hf] at he; cases he
        | close => cases he
  · intro f hf s b i
    cases hf
    exact i

/-! ## Examples, and what does not hold -/

/-- A packet of the device: one number. -/
def plainDef : PDef := ⟨"t.plain".toList, "1.0".toList, .cons "n" none false (.num false { bits := some 8 }) .nil⟩

/-- Class 1 is `SPMPPacket`, class 2 `FramedSPMPWrapper`, class 3 a packet of the device; class 4 is `FramedPacketType`. -/
def fEnv : Env where
  classDef := fun c => if c = 1 then some packetDef else if c = 2 then some wrapDef else if c = 3 then some plainDef else none
  isSub := fun c b => b == 0 || b == c || (b == 4 && (c == 2 || c == 3))
  lookup := fun _ name v => if v ≠ ⟨1, 0⟩ then .ok none else if name = packetDef.ident then .ok (some 1) else if name = wrapDef.ident then .ok (some 2)
    else if name = plainDef.ident then .ok (some 3) else .ok none

theorem fRegistered : fEnv.Registered := by
  intro cls d base h _
  unfold fEnv at h ⊢
  dsimp only at h ⊢
  split at h
  · next hc => cases h; exact ⟨⟨1, 0⟩, by decide +kernel, by rw [hc]; decide +kernel⟩
  · split at h
    · next hc => cases h; exact ⟨⟨1, 0⟩, by decide +kernel, by rw [hc]; decide +kernel⟩
    · split at h
      · next hc => cases h; exact ⟨⟨1, 0⟩, by decide +kernel, by rw [hc]; decide +kernel⟩
      · cases h

def plain (n : Int) : Val := .packet 3 (.set (.num n) .nil)

theorem plain_framed (n : Int) (h : (match framedSerialize fEnv 0 (plain n) with | .ok _ => true | .error _ => false) = true)
    (ha : accepts fEnv (plain n) (.packet 4) = true) : FramedSendable fEnv 4 (plain n) := by
  refine ⟨ha, ⟨3, _, rfl, by simp [flatF, flatV]⟩, by simp [plain, asciiV, asciiF], ?_⟩
  cases hf : framedSerialize fEnv 0 (plain n) with
  | ok b => exact ⟨b, rfl⟩
  | error e => rw [hf] at h; cases h

theorem plain7 : FramedSendable fEnv 4 (plain 7) := plain_framed 7 (by decide +kernel) (by decide +kernel)
theorem plain8 : FramedSendable fEnv 4 (plain 8) := plain_framed 8 (by decide +kernel) (by decide +kernel)

/-- Two protocols that keep what they get: three chunks, cut inside the frames. -/
example (bs : List Bytes) (hb : bs.flatten = [plain 7, wrap 2 [1, 2], plain 8, wrap 2 [3]].flatMap (fser fEnv)) :
    (Adapter.recv fEnv 4 2 (separate (fun l o => l ++ [o]) (fun l b => l ++ [b])) (.init ([], [])) bs).st =
      ([some [1, 2], some [3]], [fser fEnv (plain 7), fser fEnv (plain 8)]) :=
  C57_demux fRegistered _ _ [] [] [plain 7, wrap 2 [1, 2], plain 8, wrap 2 [3]] (by
    intro p hp
    simp only [List.mem_cons, List.not_mem_nil, or_false] at hp
    rcases hp with rfl | rfl | rfl | rfl
    · exact plain7
    · exact C57_wrap rfl rfl _ (by decide)
    · exact plain8
    · exact C57_wrap rfl rfl _ (by decide)) bs hb

example : fser fEnv (plain 7) ≠ fser fEnv (plain 8) := by decide +kernel

def fCfg (auth : Packet → Bool) : Cfg Str := ⟨fEnv, 2, 1, ['d'], exApi, auth⟩

theorem fPlain {p : Packet} (h : Fits p) : Plain fEnv 1 p := h.plain rfl rfl

theorem fServed (auth : Packet → Bool) : ∃ acts, Served (fCfg auth) ['w'] [q1, q2] ['w', 'x', 'y'] acts [(['w', 'x', 'y'], none), ([], some ['n', 'o'])] := by
  have f1 := fPlain (fits_response q1 (exFits q1 (by simp)) (result := ['w', 'x', 'y']) (error := none) (by unfold OkStr; decide) (by simp))
  have f2 := fPlain (fits_response q2 (exFits q2 (by simp)) (result := []) (error := some ['n', 'o']) (by unfold OkStr; decide) (by unfold OkStr; decide))
  obtain ⟨b1, h1⟩ := f1.1.2
  obtain ⟨b2, h2⟩ := f2.1.2
  exact ⟨_, .cons (.value _ _ _ rfl rfl) h1 (.cons (.failed _ _ _ rfl rfl (by decide)) h2 (.nil _))⟩

/-- Two queries and a packet for the device; the first query is cut into two wrappers. -/
def sent : List Val := [wrap 2 ((ser fEnv (q1.packet.val 1)).take 20), plain 7, wrap 2 ((ser fEnv (q1.packet.val 1)).drop 20), wrap 2 (ser fEnv (q2.packet.val 1))]

theorem sent_framed : ∀ p ∈ sent, FramedSendable fEnv 4 p := by
  intro p hp
  simp only [sent, List.mem_cons, List.not_mem_nil, or_false] at hp
  rcases hp with rfl | rfl | rfl | rfl
  · exact C57_wrap rfl rfl _ (by decide +kernel)
  · exact plain7
  · exact C57_wrap rfl rfl _ (by decide +kernel)
  · exact C57_wrap rfl rfl _ (by decide +kernel)

example (bs : List Bytes) (hb : bs.flatten = sent.flatMap (fser fEnv)) :
    (Adapter.recv fEnv 4 2 (deviceHandlers (fCfg fun _ => true) 2 (fun l b => l ++ [b])) (.init (.init (fCfg fun _ => true) ['w'] [])) bs).st.server.w = ['w', 'x', 'y'] ∧
    (Adapter.recv fEnv 4 2 (deviceHandlers (fCfg fun _ => true) 2 (fun l b => l ++ [b])) (.init (.init (fCfg fun _ => true) ['w'] [])) bs).st.other = [fser fEnv (plain 7)] := by
  obtain ⟨acts, hs⟩ := fServed fun _ => true
  obtain ⟨h1, _, h3⟩ := C57_device_partial (fCfg fun _ => true) fRegistered (d := 1) rfl (base := 4) (wcls := 2) rfl (fun l b => l ++ [b]) ['w'] [] sent sent_framed
    [q1, q2] (fun _ _ => rfl) (fun q hq => fPlain (exFits q (by
      simp only [List.mem_cons, List.not_mem_nil, or_false] at hq ⊢
      rcases hq with rfl | rfl <;> simp))) (by decide +kernel) hs bs hb
  exact ⟨h1, h3⟩

theorem serveRaises_iff {σ : Type} (c : Cfg σ) : ∀ (n : Nat) (s : Server σ) (ps : List Packet),
    (nextLoop c.env c.depth c.cls n s.des).1 = ps.map (fun p => .packet (p.val c.cls)) → serveRaises c n s = (processAll c s.up s.w ps).2.2
  | 0, s, ps, he => by
    cases ps with
    | nil => rfl
    | cons p ps => simp [nextLoop] at he
  | n + 1, s, ps, he => by
    unfold serveRaises
    unfold nextLoop at he
    cases hi : s.des.iter c.env c.depth c.cls with
    | mk o d =>
      rw [hi] at he
      cases o with
      | none =>
        cases ps with
        | nil => rfl
        | cons p ps => simp at he
      | some e =>
        dsimp only at he ⊢
        cases ps with
        | nil => simp at he
        | cons p ps =>
          simp only [List.map_cons, List.cons.injEq] at he
          obtain ⟨rfl, he⟩ := he
          dsimp only
          rw [ofVal_val]
          dsimp only
          unfold processAll
          cases hp : process c s.up s.w p with
          | mk w' r =>
            cases r with
            | mk acts raised =>
              cases raised with
              | true => rfl
              | false => exact serveRaises_iff c n { s with des := d, w := w' } ps he

/-- C57. When it is that the management protocol raises: exactly when handling one of the requests that have arrived does (the requests behind
that one are not looked at). -/
theorem C57_raises {σ β : Type} (c : Cfg σ) (hr : c.env.Registered) {d : Nat} (hd : c.depth = d + 1) (wcls : Cls) (w : σ) (o : β)
    (ps : List Packet) (hp : ∀ p ∈ ps, Plain c.env c.cls p) :
    (serverData c wcls (Device.init c w o) (some (ps.flatMap fun p => ser c.env (p.val c.cls)))).2 = true ↔
      ∃ l p r, ps = l ++ p :: r ∧ (processAll c true w l).2.2 = false ∧ (process c true (processAll c true w l).1 p).2.2 = true := by
  have hev := chunks_events hr (depth := d) ps hp [ps.flatMap fun p => ser c.env (p.val c.cls)] (by simp)
  rw [← hd] at hev
  simp only [opsOf, List.flatMap_cons, List.flatMap_nil, List.append_nil, runOps] at hev
  have h := serveRaises_iff c _ { Server.init c w with des := (Server.init c w).des.update (ps.flatMap fun p => ser c.env (p.val c.cls)) } ps hev
  show serveRaises c _ _ = true ↔ _
  refine Iff.trans (Iff.of_eq (congrArg (· = true) h)) ?_
  show (processAll c true w ps).2.2 = true ↔ _
  clear h hev hp
  induction ps generalizing w with
  | nil =>
    refine ⟨(fun h => nomatch h), ?_⟩
    rintro ⟨l, p, r, e, _⟩
    simp at e
  | cons p ps ih =>
    unfold processAll
    cases hp : process c true w p with
    | mk w' r =>
      cases r with
      | mk acts raised =>
        cases raised with
        | true =>
          refine ⟨fun _ => ⟨[], p, ps, rfl, rfl, ?_⟩, fun _ => rfl⟩
          show (process c true w p).2.2 = true
          rw [hp]
        | false =>
          refine (ih w').trans ⟨?_, ?_⟩
          · rintro ⟨l, q, r, rfl, h1, h2⟩
            exact ⟨p :: l, q, r, rfl, by simp only [processAll, hp]; exact h1, by simp only [processAll, hp]; exact h2⟩
          · rintro ⟨l, q, r, e, h1, h2⟩
            cases l with
            | nil =>
              rw [List.nil_append, List.cons.injEq] at e
              obtain ⟨rfl, rfl⟩ := e
              replace h2 : (process c true w p).2.2 = true := h2
              rw [hp] at h2
              cases h2
            | cons x l =>
              rw [List.cons_append, List.cons.injEq] at e
              obtain ⟨rfl, rfl⟩ := e
              simp only [processAll, hp] at h1 h2
              exact ⟨l, q, r, rfl, h1, h2⟩

/-- A request without fields, as a peer may send it, makes it raise; a complete one does not. -/
example : (serverData (fCfg fun _ => true) 2 (Device.init (fCfg fun _ => true) ['w'] ())
      (some ([0, 0, 0, 0, 0, 0, 0, 52] ++ [255, 255, 255, 255, 255, 255, 255, 203] ++ [29] ++ utf8 packetDef.ident ++ [3] ++ utf8 packetDef.version ++ [0, 0]))).2 = true ∧
    (serverData (fCfg fun _ => true) 2 (Device.init (fCfg fun _ => true) ['w'] ()) (some (ser fEnv (q1.packet.val 1)))).2 = false :=
  ⟨by decide +kernel, by decide +kernel⟩

/-- The wrapper without a payload, as a peer may send it; `__serialize__` of this repository refuses to. -/
def emptyWrapper : Bytes := frame ([0, 0, 0, 0, 0, 0, 0, 59] ++ [255, 255, 255, 255, 255, 255, 255, 196] ++ [36] ++ utf8 wrapDef.ident ++ [3] ++ utf8 wrapDef.version ++ [0, 0])

/-- What both protocols got. -/
def delivered (bs : List Bytes) : List Delivery :=
  (Adapter.recv fEnv 4 2 (deviceHandlers (fCfg fun _ => true) 2 (fun (l : List Bytes) b => l ++ [b])) (.init (.init (fCfg fun _ => true) ['w'] [])) bs).log

/-- What the device was asked to do. -/
def called (bs : List Bytes) : List Act :=
  (Adapter.recv fEnv 4 2 (deviceHandlers (fCfg fun _ => true) 2 (fun (l : List Bytes) b => l ++ [b])) (.init (.init (fCfg fun _ => true) ['w'] [])) bs).st.acts.filter
    fun a => decide (a = .call ['a', 'd', 'd'] [['x'], ['y']])

/-- C57 is false as soon as a protocol raises: the packets that arrived together with the one it raised on are not delivered until more bytes arrive. -/
theorem C57_false_stuck : ∃ b, b = emptyWrapper ++ fser fEnv (plain 7) ∧ delivered [b] = [.spmp none] ∧
    delivered [b, []] = [.spmp none, .alt (fser fEnv (plain 7))] :=
  ⟨_, rfl, by decide +kernel, by decide +kernel⟩

/-- C57 is false after a wrapper without a payload: a request of which a part has arrived before is lost, although both parts of it are delivered. -/
theorem C57_false_unset : called [fser fEnv (wrap 2 ((ser fEnv (q1.packet.val 1)).take 20)), fser fEnv (wrap 2 ((ser fEnv (q1.packet.val 1)).drop 20))] =
      [.call ['a', 'd', 'd'] [['x'], ['y']]] ∧
    called [fser fEnv (wrap 2 ((ser fEnv (q1.packet.val 1)).take 20)), emptyWrapper, fser fEnv (wrap 2 ((ser fEnv (q1.packet.val 1)).drop 20))] = [] ∧
    delivered [fser fEnv (wrap 2 ((ser fEnv (q1.packet.val 1)).take 20)), emptyWrapper, fser fEnv (wrap 2 ((ser fEnv (q1.packet.val 1)).drop 20))] =
      [.spmp (some ((ser fEnv (q1.packet.val 1)).take 20)), .spmp none, .spmp (some ((ser fEnv (q1.packet.val 1)).drop 20))] :=
  ⟨by decide +kernel, by decide +kernel, by decide +kernel⟩

end Verif.Spmp
