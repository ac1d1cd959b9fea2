import Verif.Lemmas.Control
import Verif.Lemmas.LinkNet
/-! Lemmas: the packets of a control connection and the codec. -/
namespace Verif.Control
open Verif.Vnic

theorem Classes.Ok.ne {c : Classes} (h : c.Ok) : c.closeC ≠ c.openC ∧ c.startC ≠ c.openC ∧ c.startC ≠ c.closeC ∧ c.stopC ≠ c.openC ∧ c.stopC ≠ c.closeC ∧ c.stopC ≠ c.startC ∧
    c.wireC ≠ c.openC ∧ c.wireC ≠ c.closeC ∧ c.wireC ≠ c.startC ∧ c.wireC ≠ c.stopC := by
  have := h.differ
  simp only [List.nodup_cons, List.mem_cons, List.not_mem_nil, or_false, not_or] at this
  obtain ⟨⟨a1, a2, a3, a4⟩, ⟨b1, b2, b3⟩, ⟨c1, c2⟩, d1, _⟩ := this
  exact ⟨Ne.symm a1, Ne.symm a2, Ne.symm b1, Ne.symm a3, Ne.symm b2, Ne.symm c1, Ne.symm a4, Ne.symm b3, Ne.symm c2, Ne.symm d1⟩

/-- The receiver sees what was sent. -/
theorem ofVal_val {c : Classes} (h : c.Ok) (m : Cmd) : ofVal c (m.val c) = some m := by
  obtain ⟨e1, e2, e3, e4, e5, e6, e7, e8, e9, e10⟩ := h.ne
  cases m with
  | openSocket i a p r =>
    cases r <;> simp [Cmd.val, ofVal, reqVals, readReq]
  | closeSocket i => simp [Cmd.val, ofVal, e1]
  | startDump => simp [Cmd.val, ofVal, e2, e3]
  | stopDump => simp [Cmd.val, ofVal, e4, e5, e6]
  | raw k d => simp [Cmd.val, ofVal, e7, e8, e9, e10]

theorem ok_of_body {env : Env} {base cls : Cls} {fs : FVals} {d : PDef} {tags : List Nat} {n : Nat} {body : Bytes}
    (hc : env.classDef cls = some d) (hs : env.isSub cls base = true) (ht : processFields d.fields = .ok tags)
    (hn : countSet fs d.fields = .ok n) (hn' : n < 2 ^ 16) (hb : encF env fs d.fields tags = .ok body) (hl : body.length < 2 ^ 31 - 2 ^ 10)
    (hi : (utf8 d.ident).length < 2 ^ 8) (hv : (utf8 d.version).length < 2 ^ 8)
    (ha : acceptsF env fs d.fields = true) (hf : flatF fs = true) (has : asciiF fs = true) :
    FramedSendable env base (.packet cls fs) ∧ (ser env (.packet cls fs)).length < 2 ^ 31 := by
  refine ⟨Link.framed_of_body hc hs ht hn hn' hb (by omega) hi hv ha hf has, ?_⟩
  obtain ⟨hdr, hh, hhl⟩ := Link.header_ok (16 + (1 + (utf8 d.ident).length) + (1 + (utf8 d.version).length) + ((beEnc 2 n).length + body.length))
    (utf8 d.ident) (utf8 d.version) (by simp; omega) hi hv
  have hser := Spmp.ser_packet (cls := cls) hc ht hn (packU_nat (w := 2) (v := n) (by omega)) hb hh
  rw [ser_eq hser]
  simp [hhl]; omega

/-- `SocketConnectData` (vsocket_packets.py:19-23). -/
def connDecls : FDecls := .cons "destination" none false .str (.cons "destinationPort" none false (Link.uint 16) .nil)
/-- `SocketListenData` (vsocket_packets.py:25-28). -/
def listenDecls : FDecls := .cons "sourcePort" none false (Link.uint 16) .nil

theorem open_fields : openDef.fields = .cons "ConnectionId" none false (Link.uint 32) (.cons "callbackAddress" none false .str (.cons "callbackPort" none false (Link.uint 16)
    (.cons "connectData" none true (.struct connDecls) (.cons "listenData" none true (.struct listenDecls) .nil)))) := rfl

theorem enc_conn {env : Env} {s : Str} {p : Nat} (hs : Link.Text s) (hp : p < 2 ^ 16) :
    ∃ b, encV env (.struct (.set (.str s) (.set (.num p) .nil))) (.struct connDecls) = .ok b ∧ b.length < 2 ^ 17 := by
  have htags : processFields connDecls = .ok [0, 1] := by decide +kernel
  have hn : countSet (.set (.str s) (.set (.num p) .nil)) connDecls = .ok 2 := rfl
  have hl := Link.text_len hs
  have hb : encF env (.set (.str s) (.set (.num p) .nil)) connDecls [0, 1] = .ok _ :=
    Link.encF_set (tag := 0) (by omega) (Link.encStr hs) (Link.encF_set (tag := 1) (by omega) (Link.enc16 hp) (by rw [encF]))
  rw [encV, htags]
  rw [Spmp.bindOk rfl, Spmp.bindOk hn, Spmp.bindOk (packU_nat (w := 2) (v := 2) (by omega)), Spmp.bindOk hb]
  refine ⟨_, rfl, ?_⟩
  simp only [List.length_append, beEnc_length, List.length_nil] at hl ⊢
  omega

theorem enc_listen {env : Env} {p : Nat} (hp : p < 2 ^ 16) :
    ∃ b, encV env (.struct (.set (.num p) .nil)) (.struct listenDecls) = .ok b ∧ b.length < 2 ^ 17 := by
  have htags : processFields listenDecls = .ok [0] := by decide +kernel
  have hn : countSet (.set (.num p) .nil) listenDecls = .ok 1 := rfl
  have hb : encF env (.set (.num p) .nil) listenDecls [0] = .ok _ := Link.encF_set (tag := 0) (by omega) (Link.enc16 hp) (by rw [encF])
  rw [encV, htags]
  rw [Spmp.bindOk rfl, Spmp.bindOk hn, Spmp.bindOk (packU_nat (w := 2) (v := 1) (by omega)), Spmp.bindOk hb]
  exact ⟨_, rfl, by simp⟩

/-- Whatever fits can be sent. -/
theorem Cmd.Fits.ok {c : Classes} (hc : c.Ok) {m : Cmd} (h : m.Fits) : FramedSendable c.env c.packetType (m.val c) ∧ (ser c.env (m.val c)).length < 2 ^ 31 := by
  cases m with
  | openSocket i a p r =>
    obtain ⟨h1, h2, h3, h4⟩ := h
    have htags : processFields openDef.fields = .ok [0, 1, 2, 3, 4] := by decide +kernel
    have l2 := Link.text_len h2
    cases r with
    | other => exact h4.elim
    | connect dst dport =>
      obtain ⟨b, hb, hbl⟩ := enc_conn (env := c.env) h4.1 h4.2
      refine ok_of_body (n := 4) hc.openIs (hc.subs _ (by simp)) htags (by rw [open_fields]; rfl) (by omega)
        (by rw [open_fields]; exact Link.encF_set (by omega) (Link.enc32 h1) (Link.encF_set (by omega) (Link.encStr h2) (Link.encF_set (by omega) (Link.enc16 h3)
          (by rw [reqVals]; exact Link.encF_set (by omega) hb (by rw [Link.encF_unset, encF]))))) ?_ (by decide +kernel) (by decide +kernel) ?_ ?_ ?_
      · simp only [List.length_append, beEnc_length, List.length_nil] at l2 ⊢
        omega
      · have hfr : accepts c.env (.struct (.set (.str dst) (.set (.num dport) .nil))) (.struct connDecls) = true := by
          rw [accepts, connDecls]; simp [acceptsF, Link.validates_nat, h4.2, Link.acc_str]
        rw [open_fields]; simp [reqVals, acceptsF, Link.validates_nat, h1, h3, hfr, Link.acc_str]
      · simp [reqVals, flatF, flatV]
      · simp [reqVals, asciiF, asciiV, h2.1, h4.1.1]
    | listen q =>
      obtain ⟨b, hb, hbl⟩ := enc_listen (env := c.env) h4
      refine ok_of_body (n := 4) hc.openIs (hc.subs _ (by simp)) htags (by rw [open_fields]; rfl) (by omega)
        (by rw [open_fields]; exact Link.encF_set (by omega) (Link.enc32 h1) (Link.encF_set (by omega) (Link.encStr h2) (Link.encF_set (by omega) (Link.enc16 h3)
          (by rw [reqVals, Link.encF_unset]; exact Link.encF_set (by omega) hb (by rw [encF]))))) ?_ (by decide +kernel) (by decide +kernel) ?_ ?_ ?_
      · simp only [List.length_append, beEnc_length, List.length_nil] at l2 ⊢
        omega
      · have hfr : accepts c.env (.struct (.set (.num q) .nil)) (.struct listenDecls) = true := by
          rw [accepts, listenDecls]; simp [acceptsF, Link.validates_nat, h4]
        rw [open_fields]; simp [reqVals, acceptsF, Link.validates_nat, h1, h3, hfr, Link.acc_str]
      · simp [reqVals, flatF, flatV]
      · simp [reqVals, asciiF, asciiV, h2.1]
  | closeSocket i =>
    have htags : processFields closeDef.fields = .ok [0] := by decide +kernel
    have hf : closeDef.fields = .cons "ConnectionId" none false (Link.uint 32) .nil := rfl
    refine ok_of_body (n := 1) hc.closeIs (hc.subs _ (by simp)) htags (by rw [hf]; rfl) (by omega)
      (by rw [hf]; exact Link.encF_set (by omega) (Link.enc32 h) (by rw [encF])) (by simp) (by decide +kernel) (by decide +kernel) ?_ ?_ ?_
    · rw [hf]; simp [acceptsF, Link.validates_nat, show i < 2 ^ 32 from h]
    · simp [flatF, flatV]
    · simp [asciiF, asciiV]
  | startDump =>
    exact ok_of_body (n := 0) (tags := []) (body := []) hc.startIs (hc.subs _ (by simp)) rfl rfl (by omega) (by rw [show startDef.fields = .nil from rfl, encF]) (by simp) (by decide +kernel) (by decide +kernel) rfl rfl rfl
  | stopDump =>
    exact ok_of_body (n := 0) (tags := []) (body := []) hc.stopIs (hc.subs _ (by simp)) rfl rfl (by omega) (by rw [show stopDef.fields = .nil from rfl, encF]) (by simp) (by decide +kernel) (by decide +kernel) rfl rfl rfl
  | raw k d =>
    obtain ⟨h1, h3, h2, h4, h6⟩ := h
    have htags : processFields Link.wireDef.fields = .ok [0, 1, 2, 3, 4, 5] := by decide +kernel
    have l1 := Link.text_len h1
    have l2 := Link.text_len h2
    refine ok_of_body (n := 5) hc.wireIs (hc.subs _ (by simp)) htags (by rw [Link.wire_fields]; rfl) (by omega)
      (by rw [Link.wire_fields]; exact Link.encF_set (by omega) (Link.encStr h1) (Link.encF_set (by omega) (Link.enc16 h3) (Link.encF_set (by omega) (Link.encStr h2)
        (Link.encF_set (by omega) (Link.enc16 h4) (by
          rw [Link.encF_unset]; exact Link.encF_set (by omega) (Link.encBuf (by omega)) (by rw [encF])))))) ?_ (by decide +kernel) (by decide +kernel) ?_ ?_ ?_
    · simp only [List.length_append, beEnc_length, List.length_nil] at l1 l2 ⊢
      omega
    · rw [Link.wire_fields]; simp [acceptsF, Link.validates_nat, h3, h4, Link.acc_str, Link.acc_buf]
    · simp [flatF, flatV]
    · simp [asciiF, asciiV, h1.1, h2.1]

/-- The receiver can decode it. -/
theorem Cmd.Fits.decodes {c : Classes} (hc : c.Ok) {m : Cmd} (h : m.Fits) (depth : Nat) :
    Sendable c.env c.packetType (m.val c) ∧ Decodes c.env (depth + 1) c.packetType (ser c.env (m.val c)) (m.val c) := by
  obtain ⟨hf, hl⟩ := h.ok hc
  obtain ⟨cls, fs, e, hfl⟩ := hf.flat
  have ha := hf.ascii
  have hs := hf.inv.1
  rw [e] at ha hs ⊢
  exact ⟨hs, C01_roundtrip_flat_partial hc.registered hs hfl (by simpa [asciiV] using ha)⟩

theorem Cmd.Fits.header {c : Classes} (hc : c.Ok) {m : Cmd} (h : m.Fits) : ∃ r, ser c.env (m.val c) = hdr16 (ser c.env (m.val c)).length ++ r := by
  obtain ⟨cls, fs, b, e, _, e2, e3⟩ := sendable_cases (h.decodes hc 0).1
  obtain ⟨_, r, hr, _⟩ := encPacket_len e3
  rw [e2]
  exact ⟨r, hr⟩

end Verif.Control
