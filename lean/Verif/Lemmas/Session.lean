import Verif.Lemmas.SessionVnic
import Verif.Props.Control
import Verif.Props.VnicClient
/-! Lemmas: a client library and a VNIC on byte streams. -/
namespace Verif

/-- More is sent while a Deserializer waits. -/
theorem Blocked.extend {env : Env} (hr : env.Registered) {depth : Nat} {cls : Cls} {qs : List (Bytes × Val)} {st : DState} {fut : Bytes} {p : Val}
    (hp : ItemOK env depth cls ([], p)) (h : Blocked env depth cls st qs fut) : Blocked env depth cls st (qs ++ [([], p)]) (fut ++ ser env p) := by
  have hw : ∀ l, wire env (l ++ [([], p)]) = wire env l ++ ser env p := by intro l; simp [wire]
  obtain ⟨h1, h2⟩ := h
  cases qs with
  | nil =>
    obtain ⟨rfl, e1, e2⟩ := h1
    have hpos := item_pos hp
    refine ⟨?_, by simpa [wire] using hpos⟩
    obtain ⟨m, hm⟩ := item_parses hr hp st.pos
    refine ⟨st.buf, [], ser env p, m, by simp, e1, .main ?_, by simp [wire], by simp at hpos ⊢; omega⟩
    rw [← e1]
    rcases e2 with e2 | ⟨k, e2, e3⟩
    · rw [e2]; exact hm
    · rw [e3]
      rw [e2] at hm
      cases hm with
      | tell hm => exact hm
  | cons q qs =>
    obtain ⟨pre, rest, bs, m, g1, g2, g3, g4, g5⟩ := h1
    refine ⟨⟨pre, rest, bs, m, g1, g2, g3, ?_, g5⟩, ?_⟩
    · show bs ++ wire env (qs ++ [([], p)]) = _
      rw [hw, ← List.append_assoc, g4, List.append_assoc]
    · show (wire env (qs ++ [([], p)])).length < _
      rw [hw, List.length_append, List.length_append]
      exact Nat.add_lt_add_right h2 _

theorem Blocked.extends {env : Env} (hr : env.Registered) {depth : Nat} {cls : Cls} {st : DState} : ∀ (ps : List Val) {qs : List (Bytes × Val)} {fut : Bytes},
    (∀ p ∈ ps, ItemOK env depth cls ([], p)) → Blocked env depth cls st qs fut →
    Blocked env depth cls st (qs ++ ps.map fun v => ([], v)) (fut ++ ps.flatMap (ser env))
  | [], qs, fut, _, h => by simpa using h
  | p :: ps, qs, fut, hp, h => by
    have := Blocked.extends hr ps (fun x hx => hp x (by simp [hx])) (h.extend hr (hp p (by simp)))
    simpa using this

theorem Blocked.empty {env : Env} {depth : Nat} {cls : Cls} {st : DState} {qs : List (Bytes × Val)} (h : Blocked env depth cls st qs []) : qs = [] := by
  cases qs with
  | nil => rfl
  | cons q qs => exact absurd h.2 (by simp)

namespace Session
open Verif.Vnic (Key)
open Verif.Control (Cmd)

theorem bytes_eq (c : Cfg) : bytes c = ser c.c.env := rfl

theorem ofVal_val {c : Cfg} (hc : c.Ok) (m : Msg) : ofVal c (m.val c) = some (heard m) := by
  cases m with
  | response i r => cases r <;> simp [Msg.val, ofVal, heard]
  | spawned i t k => simp [Msg.val, ofVal, heard, Ne.symm hc.differ]

theorem width8 : numWidth { bits := some 8 } = .ok 1 := by decide

theorem enc8 {env : Env} {n : Nat} (h : n < 2 ^ 8) : encV env (.num n) (Link.uint 8) = .ok (beEnc 1 n) := by
  rw [Link.uint, encV, width8, Spmp.bindOk rfl, if_neg Bool.false_ne_true, packU_nat (w := 1) (v := n) (by omega)]

theorem resp_fields : respDef.fields = .cons "ConnectionId" none false (Link.uint 32) (.cons "port" none false (Link.uint 16) (.cons "errorCode" none true (Link.uint 8)
    (.cons "errorMessage" none true .str .nil))) := rfl

theorem spawn_fields : spawnDef.fields = .cons "ConnectionId" none false (Link.uint 32) (.cons "spawnTcpPort" none false (Link.uint 16) (.cons "source" none false .str
    (.cons "sourcePort" none false (Link.uint 16) (.cons "destination" none false .str (.cons "destinationPort" none false (Link.uint 16) .nil))))) := rfl

theorem busy_text : Link.Text "Port is not available".toList := ⟨by decide, by decide⟩

/-- Whatever the VNIC says can be sent. -/
theorem Msg.Ok.sendable {c : Cfg} (hc : c.Ok) {n : Nat} (hn : n < 2 ^ 32) {m : Msg} (h : m.Ok n) : FramedSendable c.c.env c.base (m.val c) := by
  cases m with
  | response i r =>
    obtain ⟨⟨_, h1⟩, h2⟩ := h
    have hi : i < 2 ^ 32 := by omega
    have htags : processFields respDef.fields = .ok [0, 1, 2, 3] := by decide +kernel
    cases r with
    | port q =>
      have hq := h2 q rfl
      refine (Control.ok_of_body (n := 2) hc.respIs hc.subs.1 htags (by rw [resp_fields]; rfl) (by omega)
        (by rw [resp_fields]; exact Link.encF_set (by omega) (Link.enc32 hi) (Link.encF_set (by omega) (Link.enc16 hq) (by rw [Link.encF_unset, Link.encF_unset, encF])))
        (by simp) (by decide +kernel) (by decide +kernel) ?_ ?_ ?_).1
      · rw [resp_fields]; simp [acceptsF, Link.validates_nat, hi, hq]
      · simp [flatF, flatV]
      · simp [asciiF, asciiV]
    | busy =>
      have l := Link.text_len busy_text
      refine (Control.ok_of_body (n := 4) hc.respIs hc.subs.1 htags (by rw [resp_fields]; rfl) (by omega)
        (by rw [resp_fields]; exact Link.encF_set (by omega) (Link.enc32 hi) (Link.encF_set (by omega) (Link.enc16 (n := 0) (by omega)) (Link.encF_set (by omega) (enc8 (n := 1) (by omega))
          (Link.encF_set (by omega) (Link.encStr busy_text) (by rw [encF])))))
        ?_ (by decide +kernel) (by decide +kernel) ?_ ?_ ?_).1
      · simp only [List.length_append, beEnc_length, List.length_nil] at l ⊢
        omega
      · rw [resp_fields]
        have v0 := Link.validates_nat (env := c.c.env) 0 16 (by omega)
        have v1 := Link.validates_nat (env := c.c.env) 1 8 (by omega)
        simp only [Int.natCast_zero, Int.natCast_one] at v0 v1
        simp [acceptsF, Link.validates_nat, hi, Link.acc_str, v0, v1]
      · simp [flatF, flatV]
      · simp only [asciiF, asciiV, busy_text.1, Bool.and_self]
  | spawned i t k =>
    obtain ⟨⟨_, h1⟩, h2, h3, h4, h5, h6⟩ := h
    have hi : i < 2 ^ 32 := by omega
    have htags : processFields spawnDef.fields = .ok [0, 1, 2, 3, 4, 5] := by decide +kernel
    have l1 := Link.text_len h3
    have l2 := Link.text_len h5
    refine (Control.ok_of_body (n := 6) hc.spawnIs hc.subs.2 htags (by rw [spawn_fields]; rfl) (by omega)
      (by rw [spawn_fields]; exact Link.encF_set (by omega) (Link.enc32 hi) (Link.encF_set (by omega) (Link.enc16 h2) (Link.encF_set (by omega) (Link.encStr h3)
        (Link.encF_set (by omega) (Link.enc16 h4) (Link.encF_set (by omega) (Link.encStr h5) (Link.encF_set (by omega) (Link.enc16 h6) (by rw [encF])))))))
      ?_ (by decide +kernel) (by decide +kernel) ?_ ?_ ?_).1
    · simp only [List.length_append, beEnc_length, List.length_nil] at l1 l2 ⊢
      omega
    · rw [spawn_fields]; simp [acceptsF, Link.validates_nat, hi, h2, h4, h6, Link.acc_str]
    · simp [flatF, flatV]
    · simp [asciiF, asciiV, h3.1, h5.1]

theorem Msg.Ok.item {c : Cfg} (hc : c.Ok) {n : Nat} (hn : n < 2 ^ 32) {m : Msg} (h : m.Ok n) : ItemOK c.c.env c.depth c.base ([], m.val c) := by
  obtain ⟨d, hd⟩ : ∃ d, c.depth = d + 1 := ⟨c.depth - 1, by have := hc.depth; omega⟩
  have hs := h.sendable hc hn
  refine ⟨?_, cleanGarbage_nil _⟩
  rw [hd]
  obtain ⟨cls, fs, e, hfl⟩ := hs.flat
  have ha := hs.ascii
  have hs := hs.inv.1
  rw [e] at ha hs
  show Carried _ _ _ (m.val c)
  rw [e]
  exact carried_of_decodes hc.classes.registered hs (C01_roundtrip_flat_partial hc.classes.registered hs hfl (by simpa [asciiV] using ha))

theorem cmd_item {c : Cfg} (hc : c.Ok) {m : Cmd} (h : m.Fits) : ItemOK c.c.env c.depth c.c.packetType ([], m.val c.c) := by
  obtain ⟨d, hd⟩ : ∃ d, c.depth = d + 1 := ⟨c.depth - 1, by have := hc.depth; omega⟩
  rw [hd]
  obtain ⟨h1, h2⟩ := h.decodes hc.classes d
  exact ⟨carried_of_decodes hc.classes.registered h1 h2, cleanGarbage_nil _⟩

/-- A chunk at the VNIC. -/
theorem vnic_chunk {c : Cfg} (hc : c.Ok) {vd : DState} {cl : List Cmd} {b fut : Bytes} (s : Vnic.St) (hf : ∀ m ∈ cl, m.Fits)
    (h : Blocked c.c.env c.depth c.c.packetType vd (cl.map fun m => ([], m.val c.c)) (b ++ fut)) :
    ∃ done left d', cl = done ++ left ∧ Control.data c.c c.depth c.p vd s b = (d', Vnic.exec s (done.map (Cmd.ev c.p))) ∧
      Blocked c.c.env c.depth c.c.packetType d' (left.map fun m => ([], m.val c.c)) fut := by
  obtain ⟨d, hd⟩ : ∃ d, c.depth = d + 1 := ⟨c.depth - 1, by have := hc.depth; omega⟩
  have hq : ∀ x ∈ cl.map fun m => (([] : Bytes), m.val c.c), ItemOK c.c.env c.depth c.c.packetType x := by
    intro x hx
    obtain ⟨m, hm, rfl⟩ := List.mem_map.mp hx
    exact cmd_item hc (hf m hm)
  rw [hd] at h hq ⊢
  obtain ⟨done, left, st', e1, e2, e3⟩ := Inv.next hc.classes.registered ((vd.buf ++ b).length + 1) _ (vd.update b) fut hq h.1.update (by simp [DState.update])
  obtain ⟨d1, l1, rfl, rfl, rfl⟩ := List.map_eq_append_iff.mp e1
  refine ⟨d1, l1, st', rfl, ?_, e3⟩
  unfold Control.data
  rw [Control.loop_eq hc.classes (d + 1) c.p _ _ s d1 (fun m hm => hf m (by simp [hm])) (by rw [e2]; simp), e2]

/-- The client library will not raise. -/
structure Safe (s : Cli.St) : Prop where
  inv : Cli.Inv s
  pend : ∀ id k n, s.futures.get id = some (k, n) → s.fut n = .pending
  out : Cli.Eff.invalidState ∉ s.out

theorem Safe.step {s : Cli.St} (h : Safe s) (e : Cli.Ev) (he : ∀ n, e ≠ .cancel n) : Safe (Cli.step s e) := by
  obtain ⟨h1, h2⟩ := Cli.step_valid h.inv h.pend e he h.out
  exact ⟨h.inv.step e, h2, h1⟩

theorem heard_ne (m : Msg) : (∀ n, heard m ≠ .cancel n) ∧ isRequest (heard m) = false ∧ ∀ x, Cli.requests (heard m :: x) = Cli.requests x := by
  cases m with
  | response i r => cases r <;> exact ⟨(fun _ h => nomatch h), rfl, fun _ => rfl⟩
  | spawned i t k => exact ⟨(fun _ h => nomatch h), rfl, fun _ => rfl⟩

theorem Safe.calm {s : Cli.St} (h : Safe s) {n : Nat} (hn : n ≤ s.count) {m : Msg} (hm : m.Ok n) : raises s (heard m) = false := by
  cases m with
  | response i r =>
    cases r with
    | port q =>
      simp only [heard, raises]
      split
      · rfl
      · next k x hx =>
        cases k with
        | connect => rfl
        | listen => simp [h.pend _ _ _ hx]
    | busy =>
      simp only [heard, raises]
      split
      · rfl
      · next k x hx => simp [h.pend _ _ _ hx]
  | spawned i t k =>
    simp only [heard, raises]
    obtain ⟨f, hf⟩ := (h.inv.apps i).mpr ⟨hm.1.1, Nat.le_trans hm.1.2 hn⟩
    rw [hf]
    dsimp only
    split
    · next x hx => simp [h.pend _ _ _ hx]
    · rfl

theorem loop_eq {c : Cfg} (hc : c.Ok) {k : Nat} : ∀ (n : Nat) (d : DState) (s : Cli.St) (ms : List Msg), (∀ m ∈ ms, m.Ok k) → k ≤ s.count → Safe s →
    (nextLoop c.c.env c.depth c.base n d).1 = ms.map (fun m => .packet (m.val c)) →
    loop c n d s = ((nextLoop c.c.env c.depth c.base n d).2.1, Cli.exec s (ms.map heard)) ∧ Safe (Cli.exec s (ms.map heard))
  | 0, d, s, ms, _, _, hsafe, he => by
    cases ms with
    | nil => exact ⟨rfl, hsafe⟩
    | cons m ms => simp [nextLoop] at he
  | n + 1, d, s, ms, hf, hk, hsafe, he => by
    unfold loop
    unfold nextLoop at he ⊢
    cases hi : d.iter c.c.env c.depth c.base with
    | mk o d' =>
      rw [hi] at he
      cases o with
      | none =>
        cases ms with
        | nil => exact ⟨rfl, hsafe⟩
        | cons m ms => simp at he
      | some e =>
        dsimp only at he ⊢
        cases ms with
        | nil => simp at he
        | cons m ms =>
          simp only [List.map_cons, List.cons.injEq] at he
          obtain ⟨rfl, he⟩ := he
          dsimp only
          rw [ofVal_val hc]
          dsimp only
          rw [hsafe.calm hk (hf m (by simp)), if_neg Bool.false_ne_true, List.map_cons, Cli.exec]
          refine loop_eq hc n d' _ ms (fun x hx => hf x (by simp [hx])) ?_ (hsafe.step _ (heard_ne m).1) he
          rw [Cli.step_count, (heard_ne m).2.2]
          exact hk

/-- A chunk at the client. -/
theorem cli_chunk {c : Cfg} (hc : c.Ok) {cd : DState} {ml : List Msg} {b fut : Bytes} (s : Cli.St) (hsafe : Safe s) (hcount : s.count < 2 ^ 32) (hf : ∀ m ∈ ml, m.Ok s.count)
    (h : Blocked c.c.env c.depth c.base cd (ml.map fun m => ([], m.val c)) (b ++ fut)) :
    ∃ done left d', ml = done ++ left ∧ loop c ((cd.buf ++ b).length + 1) (cd.update b) s = (d', Cli.exec s (done.map heard)) ∧ Safe (Cli.exec s (done.map heard)) ∧
      Blocked c.c.env c.depth c.base d' (left.map fun m => ([], m.val c)) fut := by
  obtain ⟨d, hd⟩ : ∃ d, c.depth = d + 1 := ⟨c.depth - 1, by have := hc.depth; omega⟩
  have hq : ∀ x ∈ ml.map fun m => (([] : Bytes), m.val c), ItemOK c.c.env c.depth c.base x := by
    intro x hx
    obtain ⟨m, hm, rfl⟩ := List.mem_map.mp hx
    exact (hf m hm).item hc hcount
  rw [hd] at h hq
  obtain ⟨done, left, st', e1, e2, e3⟩ := Inv.next hc.classes.registered ((cd.buf ++ b).length + 1) _ (cd.update b) fut hq h.1.update (by simp [DState.update])
  obtain ⟨d1, l1, rfl, rfl, rfl⟩ := List.map_eq_append_iff.mp e1
  obtain ⟨g1, g2⟩ := loop_eq hc ((cd.buf ++ b).length + 1) (cd.update b) s d1 (fun m hm => hf m (by simp [hm])) (Nat.le_refl _) hsafe (by rw [hd, e2]; simp)
  refine ⟨d1, l1, st', rfl, ?_, g2, by rw [hd]; exact e3⟩
  rw [g1, hd, e2]

theorem commands_append (p : Nat) : ∀ (h t : List Ev) (n : Nat), commands p n (h ++ t) = commands p n h ++ commands p (n + (calls h).length) t
  | [], t, n => by simp [commands, calls]
  | e :: h, t, n => by
    have e1 : ∀ l, n + 1 + l = n + (l + 1) := fun l => by omega
    cases e <;> simp only [List.cons_append, commands, calls, commands_append p h t, List.length_cons, e1]

theorem calls_append : ∀ h t : List Ev, calls (h ++ t) = calls h ++ calls t
  | [], _ => rfl
  | e :: h, t => by cases e <;> simp [calls, calls_append h t]

theorem foreigns_append : ∀ h t : List Ev, foreigns (h ++ t) = foreigns h ++ foreigns t
  | [], _ => rfl
  | e :: h, t => by cases e <;> simp [foreigns, foreigns_append h t]

theorem commands_ids {p i : Nat} {r : Vnic.Req} : ∀ (h : List Ev) (n : Nat), .openSocket p i r ∈ commands p n h → n + 1 ≤ i ∧ i ≤ n + (calls h).length
  | [], n, hm => nomatch hm
  | e :: h, n, hm => by
    have ih := fun n => @commands_ids p i r h n
    cases e with
    | connect dst dport f =>
      simp only [commands, calls, List.length_cons, List.mem_cons, Vnic.Ev.openSocket.injEq] at hm ⊢
      rcases hm with hm | hm
      · omega
      · have := ih _ hm; omega
    | listen port f =>
      simp only [commands, calls, List.length_cons, List.mem_cons, Vnic.Ev.openSocket.injEq] at hm ⊢
      rcases hm with hm | hm
      · omega
      · have := ih _ hm; omega
    | close j =>
      simp only [commands, calls, List.mem_cons, reduceCtorEq, false_or] at hm ⊢
      exact ih _ hm
    | _ => exact ih n hm

theorem commands_own {p : Nat} : ∀ (h : List Ev) (n : Nat), ∀ e ∈ commands p n h, foreign p e = false
  | [], n, e, hm => nomatch hm
  | x :: h, n, e, hm => by
    have ih := fun n => commands_own (p := p) h n e
    cases x with
    | connect dst dport f =>
      rcases List.mem_cons.mp hm with rfl | hm
      · simp [foreign]
      · exact ih _ hm
    | listen port f =>
      rcases List.mem_cons.mp hm with rfl | hm
      · simp [foreign]
      · exact ih _ hm
    | close j =>
      rcases List.mem_cons.mp hm with rfl | hm
      · simp [foreign]
      · exact ih _ hm
    | _ => exact ih _ hm

theorem requests_len : ∀ hc : List Cli.Ev, Cli.requests hc = (hc.filter isRequest).length
  | [] => rfl
  | e :: hc => by
    have := requests_len hc
    cases e <;> simp [Cli.requests, List.filter_cons, isRequest, this]

/-- The id that a message names. -/
def idOf : Cli.Ev → Nat
  | .response i _ => i
  | .spawned i _ _ => i
  | _ => 0

/-- How the net stands after the history `h`: `hv` and `hc` are the histories of the two ends, `cl` and `ml` what is still on the way. -/
structure NInv (c : Cfg) (a : Str) (h : List Ev) (s : Net) (hv : List Vnic.Ev) (hc : List Cli.Ev) (cl : List Cmd) (done ml : List Msg) : Prop where
  vnic : s.vnic = Vnic.exec (.init a) (.ctlMade c.p :: hv)
  cli : s.cli = Cli.exec .init hc
  cmds : commands c.p 0 h = (hv.filter fun e => !foreign c.p e) ++ cl.map (Cmd.ev c.p)
  others : hv.filter (foreign c.p) = foreigns h
  reqs : hc.filter isRequest = requestsOf (calls h)
  msgs : msgsOf c.p c.tcp s.vnic.out = done ++ ml
  got : (hc.filter fun e => !isRequest e) = done.map heard
  vd : Blocked c.c.env c.depth c.c.packetType s.vd (cl.map fun m => ([], m.val c.c)) s.toVnic
  cd : Blocked c.c.env c.depth c.base s.cd (ml.map fun m => ([], m.val c)) s.toCli
  vfit : ∀ e ∈ hv, vfits e
  cfit : ∀ m ∈ cl, m.Fits
  safe : Safe s.cli
  early : ∀ t e u, hc = t ++ e :: u → idOf e ≤ Cli.requests t

theorem NInv.count {c : Cfg} {a : Str} {h : List Ev} {s : Net} {hv hc cl done ml} (hi : NInv c a h s hv hc cl done ml) : s.cli.count = (calls h).length := by
  rw [hi.cli, Cli.exec_count, requests_len, hi.reqs]
  simp [requestsOf, Cli.St.init]

theorem NInv.opens {c : Cfg} {a : Str} {h : List Ev} {s : Net} {hv hc cl done ml} (hi : NInv c a h s hv hc cl done ml) {i : Nat} {r : Vnic.Req}
    (hm : .openSocket c.p i r ∈ hv) : 1 ≤ i ∧ i ≤ (calls h).length := by
  have : Vnic.Ev.openSocket c.p i r ∈ commands c.p 0 h := by
    rw [hi.cmds]
    exact List.mem_append_left _ (List.mem_filter.mpr ⟨hm, by simp [foreign]⟩)
  have := commands_ids h 0 this
  omega

/-- The VNIC has moved. -/
theorem NInv.moved {c : Cfg} (hc' : c.Ok) {a : Str} (ha : Link.Text a) {h : List Ev} {s : Net} {hv hc cl done ml} (hi : NInv c a h s hv hc cl done ml) (es : List Vnic.Ev) (hes : ∀ e ∈ es, vfits e)
    (hn : (calls h).length < 2 ^ 32) (ho : ∀ i r, .openSocket c.p i r ∈ es → 1 ≤ i ∧ i ≤ (calls h).length) :
    ∃ new, msgsOf c.p c.tcp (Vnic.exec s.vnic es).out = done ++ (ml ++ new) ∧
      Blocked c.c.env c.depth c.base s.cd ((ml ++ new).map fun m => ([], m.val c))
        (s.toCli ++ (msgsOf c.p c.tcp ((Vnic.exec s.vnic es).out.drop s.vnic.out.length)).flatMap fun m => bytes c (m.val c)) := by
  have hl := (Vnic.Lasts.exec es s.vnic).out
  obtain ⟨l, hl⟩ := hl
  have hall := all_msgs ha (.ctlMade c.p :: (hv ++ es)) (by
    intro e he
    rcases List.mem_cons.mp he with rfl | he
    · trivial
    · rcases List.mem_append.mp he with he | he
      · exact hi.vfit e he
      · exact hes e he) (p := c.p) (n := (calls h).length) hc'.tcp (by
    intro i r he
    rcases List.mem_cons.mp he with he | he
    · cases he
    · rcases List.mem_append.mp he with he | he
      · exact hi.opens he
      · exact ho i r he)
  rw [← List.cons_append, Vnic.exec_append, ← hi.vnic, ← hl, msgsOf_append] at hall
  rw [← hl, List.drop_left]
  refine ⟨msgsOf c.p c.tcp l, by rw [msgsOf_append, hi.msgs, List.append_assoc], ?_⟩
  have := Blocked.extends hc'.classes.registered ((msgsOf c.p c.tcp l).map (Msg.val c)) (by
    intro v hv
    obtain ⟨m, hm, rfl⟩ := List.mem_map.mp hv
    exact (hall m (List.mem_append_right _ hm)).item hc' hn) hi.cd
  rw [List.map_map, List.flatMap_map] at this
  rw [List.map_append]
  exact this

theorem filter_none {α : Type} {q : α → Bool} {l : List α} (h : ∀ x ∈ l, q x = false) : l.filter q = [] := by
  rw [List.filter_eq_nil_iff]
  intro x hx
  rw [h x hx]
  simp

theorem filter_all {α : Type} {q : α → Bool} {l : List α} (h : ∀ x ∈ l, q x = true) : l.filter q = l := List.filter_eq_self.mpr h

theorem snoc_split {α : Type} {l t u : List α} {e x : α} (h : l ++ [x] = t ++ e :: u) : (t = l ∧ e = x) ∨ ∃ u', l = t ++ e :: u' := by
  rcases List.eq_nil_or_concat u with rfl | ⟨u', y, rfl⟩
  · have := List.append_inj' h rfl
    exact .inl ⟨this.1.symm, by simpa using this.2.symm⟩
  · rw [List.concat_eq_append] at h
    have h' : l ++ [x] = (t ++ e :: u') ++ [y] := by simpa using h
    exact .inr ⟨u', (List.append_inj' h' rfl).1⟩

/-- The client writes a command, and perhaps makes a request. -/
theorem NInv.write {c : Cfg} (hc' : c.Ok) {a : Str} {h : List Ev} {s : Net} {hv hc cl done ml} (hi : NInv c a h s hv hc cl done ml) (e : Ev) (m : Cmd) (hm : m.Fits)
    (rq : List Cli.Ev) (hrq : rq = [] ∨ ∃ k f, rq = [.request k f]) (e1 : commands c.p (calls h).length [e] = [Cmd.ev c.p m]) (e2 : foreigns [e] = [])
    (e3 : requestsOf (calls [e]) = rq) :
    NInv c a (h ++ [e]) { s with cli := Cli.exec s.cli rq, toVnic := s.toVnic ++ ser c.c.env (m.val c.c) } hv (hc ++ rq) (cl ++ [m]) done ml := by
  have hr1 : rq.filter isRequest = rq := by rcases hrq with rfl | ⟨k, f, rfl⟩ <;> rfl
  have hr2 : (rq.filter fun e => !isRequest e) = [] := by rcases hrq with rfl | ⟨k, f, rfl⟩ <;> rfl
  refine { vnic := hi.vnic, cli := ?_, cmds := ?_, others := ?_, reqs := ?_, msgs := hi.msgs, got := ?_, vd := ?_, cd := hi.cd, vfit := hi.vfit, cfit := ?_, safe := ?_, early := ?_ }
  · rw [Cli.exec_append, ← hi.cli]
  · rw [commands_append, Nat.zero_add, e1, hi.cmds, List.map_append, List.append_assoc]; rfl
  · rw [foreigns_append, e2, List.append_nil, hi.others]
  · rw [List.filter_append, hr1, hi.reqs, calls_append, ← e3]; simp [requestsOf]
  · rw [List.filter_append, hr2, List.append_nil, hi.got]
  · rw [List.map_append]; exact hi.vd.extend hc'.classes.registered (cmd_item hc' hm)
  · intro x hx
    rcases List.mem_append.mp hx with hx | hx
    · exact hi.cfit x hx
    · rw [List.mem_singleton.mp hx]; exact hm
  · rcases hrq with rfl | ⟨k, f, rfl⟩
    · exact hi.safe
    · exact hi.safe.step (.request k f) (fun _ h => nomatch h)
  · rcases hrq with rfl | ⟨k, f, rfl⟩
    · rw [List.append_nil]; exact hi.early
    · intro t x u hh
      rcases snoc_split hh with ⟨rfl, rfl⟩ | ⟨u', hu⟩
      · exact Nat.zero_le _
      · exact hi.early t x u' hu

theorem idOf_heard {n : Nat} {m : Msg} (h : m.Ok n) : idOf (heard m) ≤ n := by
  cases m with
  | response i r => cases r <;> exact h.1.2
  | spawned i t k => exact h.1.2

theorem early_append {hc : List Cli.Ev} (h : ∀ t e u, hc = t ++ e :: u → idOf e ≤ Cli.requests t) : ∀ (l : List Cli.Ev), (∀ e ∈ l, idOf e ≤ Cli.requests hc) →
    ∀ t e u, hc ++ l = t ++ e :: u → idOf e ≤ Cli.requests t := by
  intro l hl t e u hh
  rcases List.append_eq_append_iff.mp hh with ⟨x, h1, h2⟩ | ⟨x, h1, h2⟩
  · rw [h1, Cli.requests_append]
    have := hl e (by rw [h2]; simp)
    omega
  · cases x with
    | nil =>
      rw [List.append_nil] at h1
      subst h1
      exact hl e (by simpa using (by rw [show l = e :: u by simpa using h2.symm]; simp : e ∈ l))
    | cons y x =>
      simp only [List.cons_append, List.cons.injEq] at h2
      obtain ⟨rfl, rfl⟩ := h2
      exact h t e x h1

theorem NInv.step {c : Cfg} (hc' : c.Ok) {a : Str} (ha : Link.Text a) {h : List Ev} {s : Net} {hv hc cl done ml} (hi : NInv c a h s hv hc cl done ml) (e : Ev) (he : e.Fits c.p)
    (hn : (calls (h ++ [e])).length < 2 ^ 32) : ∃ hv' hc' cl' done' ml', NInv c a (h ++ [e]) (step c s e) (hv ++ hv') (hc ++ hc') cl' done' ml' := by
  have hn0 : (calls h).length < 2 ^ 32 := by rw [calls_append, List.length_append] at hn; omega
  cases e with
  | connect dst dport f =>
    refine ⟨[], [.request .connect f], cl ++ [openCmd c s.cli.count (.connect dst dport)], done, ml, ?_⟩
    rw [List.append_nil]
    rw [calls_append] at hn
    simp only [calls, List.length_append, List.length_cons, List.length_nil] at hn
    have := hi.write hc' (.connect dst dport f) (openCmd c s.cli.count (.connect dst dport)) ⟨by rw [hi.count]; omega, hc'.callback.1, hc'.callback.2, he⟩ [.request .connect f]
      (.inr ⟨_, _, rfl⟩) (by rw [hi.count]; rfl) rfl rfl
    exact this
  | listen port f =>
    refine ⟨[], [.request .listen f], cl ++ [openCmd c s.cli.count (.listen port)], done, ml, ?_⟩
    rw [List.append_nil]
    rw [calls_append] at hn
    simp only [calls, List.length_append, List.length_cons, List.length_nil] at hn
    exact hi.write hc' (.listen port f) (openCmd c s.cli.count (.listen port)) ⟨by rw [hi.count]; omega, hc'.callback.1, hc'.callback.2, he⟩ [.request .listen f]
      (.inr ⟨_, _, rfl⟩) (by rw [hi.count]; rfl) rfl rfl
  | close i =>
    refine ⟨[], [], cl ++ [.closeSocket i], done, ml, ?_⟩
    rw [List.append_nil]
    exact hi.write hc' (.close i) (.closeSocket i) he [] (.inl rfl) rfl rfl rfl
  | cancel n => exact he.elim
  | vnic e =>
    obtain ⟨h1, h2⟩ := he
    have hf : vfits e := by cases e <;> exact h2
    obtain ⟨new, g1, g2⟩ := hi.moved hc' ha [e] (by intro x hx; rw [List.mem_singleton.mp hx]; exact hf) hn0 (by
      intro i r hm
      rw [List.mem_singleton] at hm
      rw [← hm] at h1
      simp [foreign] at h1)
    refine ⟨[e], [], cl, done, ml ++ new, ?_⟩
    refine { vnic := ?_, cli := (by rw [List.append_nil]; exact hi.cli), cmds := ?_, others := ?_, reqs := ?_, msgs := g1, got := (by rw [List.append_nil]; exact hi.got), vd := hi.vd, cd := g2,
             vfit := ?_, cfit := hi.cfit, safe := hi.safe, early := (by rw [List.append_nil]; exact hi.early) }
    · rw [← List.cons_append, Vnic.exec_append, ← hi.vnic]; rfl
    · rw [commands_append, List.filter_append, filter_none (l := [e]) (by intro x hx; rw [List.mem_singleton.mp hx, h1]; rfl), List.append_nil, hi.cmds]
      simp [commands]
    · rw [foreigns_append, List.filter_append, hi.others, filter_all (l := [e]) (by intro x hx; rw [List.mem_singleton.mp hx, h1])]; rfl
    · rw [calls_append, List.append_nil, hi.reqs]; simp [calls]
    · intro x hx
      rcases List.mem_append.mp hx with hx | hx
      · exact hi.vfit x hx
      · rw [List.mem_singleton.mp hx]; exact hf
  | toVnic n =>
    have hb := hi.vd
    rw [← List.take_append_drop n s.toVnic] at hb
    obtain ⟨cd1, left, d', rfl, f1, f2⟩ := vnic_chunk hc' s.vnic hi.cfit hb
    have hown : ∀ x ∈ cd1.map (Cmd.ev c.p), foreign c.p x = false := by
      intro x hx
      apply commands_own h 0
      rw [hi.cmds, List.map_append]
      simp [hx]
    have hcf : ∀ x ∈ cd1.map (Cmd.ev c.p), vfits x := by
      intro x hx
      obtain ⟨m, hm, rfl⟩ := List.mem_map.mp hx
      have := hi.cfit m (by simp [hm])
      cases m with
      | openSocket i a q r =>
        cases r with
        | connect dst dport => exact this.2.2.2
        | listen q => exact this.2.2.2
        | other => exact trivial
      | _ => trivial
    obtain ⟨new, g1, g2⟩ := hi.moved hc' ha (cd1.map (Cmd.ev c.p)) hcf hn0 (by
      intro i r hm
      have : Vnic.Ev.openSocket c.p i r ∈ commands c.p 0 h := by rw [hi.cmds, List.map_append]; simp [hm]
      have := commands_ids h 0 this
      omega)
    refine ⟨cd1.map (Cmd.ev c.p), [], left, done, ml ++ new, ?_⟩
    have hs : Session.step c s (.toVnic n) = Net.moved c { s with vd := d', toVnic := s.toVnic.drop n } (Vnic.exec s.vnic (cd1.map (Cmd.ev c.p))) := by
      simp only [Session.step, f1]
    rw [hs]
    refine { vnic := ?_, cli := (by rw [List.append_nil]; exact hi.cli), cmds := ?_, others := ?_, reqs := ?_, msgs := g1, got := (by rw [List.append_nil]; exact hi.got), vd := f2, cd := g2,
             vfit := ?_, cfit := fun m hm => hi.cfit m (by simp [hm]), safe := hi.safe, early := (by rw [List.append_nil]; exact hi.early) }
    · rw [← List.cons_append, Vnic.exec_append, ← hi.vnic]; rfl
    · rw [commands_append, hi.cmds, List.filter_append, filter_all (l := cd1.map (Cmd.ev c.p)) (by intro x hx; rw [hown x hx]; rfl)]
      simp [commands]
    · rw [foreigns_append, List.filter_append, filter_none hown, hi.others]; rfl
    · rw [calls_append, List.append_nil, hi.reqs]; simp [calls]
    · intro x hx
      rcases List.mem_append.mp hx with hx | hx
      · exact hi.vfit x hx
      · exact hcf x hx
  | toCli n =>
    have hb := hi.cd
    rw [← List.take_append_drop n s.toCli] at hb
    have hok : ∀ m ∈ ml, m.Ok s.cli.count := by
      intro m hm
      rw [hi.count]
      refine all_msgs ha (.ctlMade c.p :: hv) ?_ (p := c.p) hc'.tcp ?_ m ?_
      · intro x hx
        rcases List.mem_cons.mp hx with rfl | hx
        · trivial
        · exact hi.vfit x hx
      · intro i r hx
        rcases List.mem_cons.mp hx with hx | hx
        · cases hx
        · exact hi.opens hx
      · rw [← hi.vnic, hi.msgs]; simp [hm]
    obtain ⟨d1, left, d', rfl, f1, f2, f3⟩ := cli_chunk hc' s.cli hi.safe (by rw [hi.count]; exact hn0) hok hb
    refine ⟨[], d1.map heard, cl, done ++ d1, left, ?_⟩
    have hs : Session.step c s (.toCli n) = { s with cd := d', cli := Cli.exec s.cli (d1.map heard), toCli := s.toCli.drop n } := by
      simp only [Session.step, f1]
    rw [hs]
    have hnr : ∀ x ∈ d1.map heard, isRequest x = false := by
      intro x hx
      obtain ⟨m, _, rfl⟩ := List.mem_map.mp hx
      exact (heard_ne m).2.1
    refine { vnic := (by rw [List.append_nil]; exact hi.vnic), cli := ?_, cmds := ?_, others := ?_, reqs := ?_, msgs := (by rw [List.append_assoc]; exact hi.msgs), got := ?_, vd := hi.vd, cd := f3,
             vfit := (by rw [List.append_nil]; exact hi.vfit), cfit := hi.cfit, safe := f2, early := ?_ }
    · rw [Cli.exec_append, ← hi.cli]
    · rw [List.append_nil, commands_append, hi.cmds]; simp [commands]
    · rw [List.append_nil, foreigns_append, hi.others]; simp [foreigns]
    · rw [calls_append, List.filter_append, filter_none hnr, List.append_nil, hi.reqs]; simp [calls]
    · rw [List.filter_append, hi.got, filter_all (by intro x hx; rw [hnr x hx]; rfl), List.map_append]
    · refine early_append hi.early _ ?_
      intro x hx
      obtain ⟨m, hm, rfl⟩ := List.mem_map.mp hx
      have h1 := idOf_heard (hok m (by simp [hm]))
      have h2 : s.cli.count = Cli.requests hc := by rw [hi.cli, Cli.exec_count]; simp [Cli.St.init]
      omega

theorem NInv.init (c : Cfg) (a : Str) : NInv c a [] (Net.init c a) [] [] [] [] [] where
  vnic := rfl
  cli := rfl
  cmds := rfl
  others := rfl
  reqs := rfl
  msgs := by
    show msgsOf c.p c.tcp (Vnic.step (.init a) (.ctlMade c.p)).out = []
    simp [Vnic.step, Vnic.St.init, msgsOf]
  got := rfl
  vd := ⟨⟨rfl, rfl, .inl rfl⟩, trivial⟩
  cd := ⟨⟨rfl, rfl, .inl rfl⟩, trivial⟩
  vfit := nofun
  cfit := nofun
  safe := ⟨Cli.Inv.init, by intro id k n h; simp [Net.init, Cli.St.init] at h, by simp [Net.init, Cli.St.init]⟩
  early := by intro t e u h; simp at h

theorem NInv.reachable {c : Cfg} (hc' : c.Ok) {a : Str} (ha : Link.Text a) (h : List Ev) (hf : ∀ e ∈ h, e.Fits c.p) (hn : (calls h).length < 2 ^ 32) :
    ∃ hv hc cl done ml, NInv c a h (run c (Net.init c a) h) hv hc cl done ml := by
  induction h using List.reverseRecOn with
  | nil => exact ⟨_, _, _, _, _, NInv.init c a⟩
  | append_singleton h e ih =>
    obtain ⟨hv, hc, cl, done, ml, hi⟩ := ih (fun x hx => hf x (by simp [hx])) (by rw [calls_append, List.length_append] at hn; omega)
    obtain ⟨hv', hc2, cl', done', ml', hi'⟩ := hi.step hc' ha e (hf e (by simp)) hn
    refine ⟨hv ++ hv', hc ++ hc2, cl', done', ml', ?_⟩
    rw [run, List.foldl_append]
    exact hi'

end Session
end Verif
