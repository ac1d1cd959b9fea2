import Verif.Lemmas.Session
/-! # C94: a client library and a VNIC over the bytes of one control connection -/
namespace Verif.Session
open Verif.Vnic (Key)
open Verif.Control (Cmd)

/-- C94. Both ends behave as if they had called each other: whatever the calls of `connect`, `listen` and `close` at the client, whatever else happens at the VNIC
in between, and however the bytes in both directions are cut and delayed, there are a history of the VNIC and one of the client library such that: the VNIC has
taken the commands of the calls, in order, as far as they have arrived, among the other events; and the client library has made the requests, in order, and has
taken what the VNIC wrote on this connection, in order, as far as it has arrived. When nothing is on the way, nothing is missing. -/
theorem C94_conversation {c : Cfg} (hc : c.Ok) {a : Str} (ha : Link.Text a) (h : List Ev) (hf : ∀ e ∈ h, e.Fits c.p) (hn : (calls h).length < 2 ^ 32) :
    let s := run c (Net.init c a) h
    ∃ hv hl, s.vnic = Vnic.exec (.init a) (.ctlMade c.p :: hv) ∧ s.cli = Cli.exec .init hl ∧
      (hv.filter fun e => !foreign c.p e) <+: commands c.p 0 h ∧ hv.filter (foreign c.p) = foreigns h ∧
      hl.filter isRequest = requestsOf (calls h) ∧ (hl.filter fun e => !isRequest e) <+: (msgsOf c.p c.tcp s.vnic.out).map heard ∧
      (s.toVnic = [] → (hv.filter fun e => !foreign c.p e) = commands c.p 0 h) ∧
      (s.toCli = [] → (hl.filter fun e => !isRequest e) = (msgsOf c.p c.tcp s.vnic.out).map heard) := by
  intro s
  obtain ⟨hv, hl, cl, done, ml, hi⟩ := NInv.reachable hc ha h hf hn
  refine ⟨hv, hl, hi.vnic, hi.cli, ⟨_, hi.cmds.symm⟩, hi.others, hi.reqs, ?_, ?_, ?_⟩
  · rw [hi.got, hi.msgs, List.map_append]
    exact List.prefix_append _ _
  · intro h0
    have hb := hi.vd
    rw [show (run c (Net.init c a) h).toVnic = [] from h0] at hb
    have := hb.empty
    rw [List.map_eq_nil_iff] at this
    rw [hi.cmds, this, List.map_nil, List.append_nil]
  · intro h0
    have hb := hi.cd
    rw [show (run c (Net.init c a) h).toCli = [] from h0] at hb
    have := hb.empty
    rw [List.map_eq_nil_iff] at this
    rw [hi.got, hi.msgs, this, List.append_nil]

theorem outcome_skip (k : Cli.Kind) (n : Nat) : ∀ (x y : List Cli.Ev), (∀ e ∈ x, idOf e ≤ n ∧ ∀ m, e ≠ .cancel m) → Cli.outcome k n (x ++ y) = Cli.outcome k n y
  | [], y, _ => rfl
  | e :: x, y, h => by
    have ih := outcome_skip k n x y fun e he => h e (by simp [he])
    obtain ⟨h1, h2⟩ := h e (by simp)
    rw [List.cons_append]
    cases e with
    | request k' f => exact ih
    | cancel m => exact absurd rfl (h2 m)
    | response i r =>
      have h1 : i ≤ n := h1
      simp only [Cli.outcome]
      rw [if_neg (by omega), ih]
    | spawned i t q =>
      have h1 : i ≤ n := h1
      simp only [Cli.outcome]
      rw [if_neg (by omega), ih]

theorem outcome_filter (k : Cli.Kind) (n : Nat) : ∀ x : List Cli.Ev, Cli.outcome k n (x.filter fun e => !isRequest e) = Cli.outcome k n x
  | [] => rfl
  | e :: x => by
    have ih := outcome_filter k n x
    cases e with
    | request k' f => exact ih
    | cancel m =>
      show Cli.outcome k n (.cancel m :: List.filter (fun e => !isRequest e) x) = _
      simp only [Cli.outcome, ih]
    | response i r =>
      show Cli.outcome k n (.response i r :: List.filter (fun e => !isRequest e) x) = _
      cases r <;> cases k <;> simp only [Cli.outcome, ih]
    | spawned i t q =>
      show Cli.outcome k n (.spawned i t q :: List.filter (fun e => !isRequest e) x) = _
      simp only [Cli.outcome, ih]

/-- The kind of a call. -/
def kindOf : Vnic.Req → Cli.Kind
  | .listen _ => .listen
  | _ => .connect

/-- C94. The future of a call is decided by the first message of the VNIC that names the call, among those that have arrived. -/
theorem C94_future {c : Cfg} (hc : c.Ok) {a : Str} (ha : Link.Text a) (h : List Ev) (hf : ∀ e ∈ h, e.Fits c.p) (hn : (calls h).length < 2 ^ 32) :
    let s := run c (Net.init c a) h
    ∃ ms, ms <+: msgsOf c.p c.tcp s.vnic.out ∧ (s.toCli = [] → ms = msgsOf c.p c.tcp s.vnic.out) ∧
      ∀ n r f, (calls h)[n]? = some (r, f) → s.cli.fut n = Cli.outcome (kindOf r) n (ms.map heard) := by
  intro s
  obtain ⟨hv, hl, cl, done, ml, hi⟩ := NInv.reachable hc ha h hf hn
  refine ⟨done, ⟨ml, hi.msgs.symm⟩, ?_, ?_⟩
  · intro h0
    have hb := hi.cd
    rw [show (run c (Net.init c a) h).toCli = [] from h0] at hb
    have := hb.empty
    rw [List.map_eq_nil_iff] at this
    rw [hi.msgs, this, List.append_nil]
  · intro n r f hr
    obtain ⟨hlt, hr⟩ := List.getElem?_eq_some_iff.mp hr
    have hsplit : requestsOf (calls h) = requestsOf ((calls h).take n) ++ .request (kindOf r) f :: requestsOf ((calls h).drop (n + 1)) := by
      have : calls h = (calls h).take n ++ (r, f) :: (calls h).drop (n + 1) := by
        rw [← hr, ← List.drop_eq_getElem_cons hlt, List.take_append_drop]
      rw [this]
      have hlen : ((calls h).take n).length = n := by rw [List.length_take]; omega
      have e1 : (List.take n (calls h) ++ (r, f) :: List.drop (n + 1) (calls h)).take n = (calls h).take n := by
        rw [List.take_append_of_le_length (by omega), List.take_take, Nat.min_self]
      have e2 : (List.take n (calls h) ++ (r, f) :: List.drop (n + 1) (calls h)).drop (n + 1) = (calls h).drop (n + 1) := by
        rw [← this]
      rw [e1, e2]
      simp only [requestsOf, List.map_append, List.map_cons]
      cases r <;> rfl
    rw [← hi.reqs] at hsplit
    obtain ⟨t, u', rfl, ht, hu'⟩ := List.filter_eq_append_iff.mp hsplit
    obtain ⟨v, u, rfl, hv0, _, hu⟩ := List.filter_eq_cons_iff.mp hu'
    have hreq : Cli.requests (t ++ v) = n := by
      rw [requests_len, List.filter_append, ht, List.filter_eq_nil_iff.mpr hv0, List.append_nil]
      simp [requestsOf]
      omega
    have hfu := Cli.C36_future (t ++ v) u (kindOf r) f
    rw [hreq] at hfu
    have hcli := hi.cli
    rw [show t ++ (v ++ .request (kindOf r) f :: u) = (t ++ v) ++ .request (kindOf r) f :: u by simp] at hcli
    show (run c (Net.init c a) h).cli.fut n = _
    rw [hcli, hfu, ← hi.got]
    rw [show t ++ (v ++ .request (kindOf r) f :: u) = (t ++ v) ++ .request (kindOf r) f :: u by simp, List.filter_append, outcome_skip, outcome_filter, Cli.outcome]
    intro e he
    obtain ⟨he1, he2⟩ := List.mem_filter.mp he
    constructor
    · obtain ⟨t1, t2, e1⟩ := List.append_of_mem he1
      have := hi.early t1 e (t2 ++ .request (kindOf r) f :: u) (by rw [← List.append_assoc, e1]; simp)
      have h2 : Cli.requests t1 ≤ n := by
        rw [← hreq, e1, Cli.requests_append]; omega
      omega
    · have : e ∈ done.map heard := by
        rw [← hi.got, ← List.append_assoc, List.filter_append]
        exact List.mem_append_left _ he
      obtain ⟨m, _, rfl⟩ := List.mem_map.mp this
      exact (heard_ne m).1

theorem commands_calls {p : Nat} {r : Vnic.Req} : ∀ (h : List Ev) (m n : Nat), (∃ f, (calls h)[n]? = some (r, f)) ↔ .openSocket p (m + n + 1) r ∈ commands p m h
  | [], m, n => by simp [calls, commands]
  | e :: h, m, n => by
    have key : ∀ r' f', (∃ f, ((r', f') :: calls h)[n]? = some (r, f)) ↔ .openSocket p (m + n + 1) r ∈ Vnic.Ev.openSocket p (m + 1) r' :: commands p (m + 1) h := by
      intro r' f'
      cases n with
      | zero =>
        simp only [List.getElem?_cons_zero, Option.some.injEq, Prod.mk.injEq, List.mem_cons, Vnic.Ev.openSocket.injEq, Nat.add_zero, true_and]
        constructor
        · rintro ⟨f, rfl, _⟩; exact .inl rfl
        · rintro (rfl | hm)
          · exact ⟨f', rfl, rfl⟩
          · have := commands_ids h (m + 1) hm; omega
      | succ n =>
        have ih := commands_calls (p := p) (r := r) h (m + 1) n
        rw [show m + 1 + n + 1 = m + (n + 1) + 1 by omega] at ih
        simp only [List.getElem?_cons_succ, List.mem_cons, Vnic.Ev.openSocket.injEq, true_and]
        rw [ih]
        constructor
        · exact .inr
        · rintro (⟨h1, _⟩ | hm)
          · omega
          · exact hm
    cases e with
    | connect dst dport f => exact key _ f
    | listen q f => exact key _ f
    | close i =>
      have ih := commands_calls (p := p) (r := r) h m n
      simp only [calls, commands, List.mem_cons, reduceCtorEq, false_or]
      exact ih
    | _ => exact commands_calls h m n

theorem still_up (p : Nat) : ∀ hv : List Vnic.Ev, Vnic.Ev.ctlLost p ∉ hv → Vnic.isUp ((.ctlMade p :: hv).reverse) p = true := by
  intro hv
  induction hv using List.reverseRecOn with
  | nil => intro _; simp [Vnic.isUp]
  | append_singleton hv e ih =>
    intro h
    have ih := ih fun hm => h (by simp [hm])
    rw [← List.cons_append, List.reverse_append]
    show Vnic.isUp (e :: (.ctlMade p :: hv).reverse) p = true
    cases e with
    | ctlLost q =>
      have : q ≠ p := by rintro rfl; exact h (by simp)
      simp [Vnic.isUp, this, ← ih]
    | ctlMade q => rw [Vnic.isUp, ih, Bool.or_true]
    | _ => exact ih

/-- A call has been answered when nothing is on the way, or the VNIC hangs. -/
theorem answered {c : Cfg} {a : Str} {h : List Ev} {s : Net} {hv hl cl done ml} (hi : NInv c a h s hv hl cl done ml) (hq : s.toVnic = []) (hh : .hang ∉ s.vnic.out)
    {n : Nat} {r : Vnic.Req} {f : Nat} (hr : (calls h)[n]? = some (r, f)) (hor : r ≠ .other) : ∃ y, .respond c.p (n + 1) y ∈ s.vnic.out := by
  have hb := hi.vd
  rw [hq] at hb
  have h0 := hb.empty
  rw [List.map_eq_nil_iff] at h0
  have hm := (commands_calls (p := c.p) h 0 n).mp ⟨f, hr⟩
  have hcm := hi.cmds
  rw [h0, List.map_nil, List.append_nil] at hcm
  rw [hcm] at hm
  obtain ⟨hm, _⟩ := List.mem_filter.mp hm
  rw [Nat.zero_add] at hm
  obtain ⟨h1, h2, e1⟩ := List.append_of_mem hm
  have hlost : Vnic.Ev.ctlLost c.p ∉ hv := by
    intro hx
    have : Vnic.Ev.ctlLost c.p ∈ commands c.p 0 h := by rw [hcm]; exact List.mem_filter.mpr ⟨hx, by simp [foreign]⟩
    have hno : ∀ (l : List Ev) (m : Nat), Vnic.Ev.ctlLost c.p ∉ commands c.p m l := by
      intro l
      induction l with
      | nil => intro m hx; cases hx
      | cons e l ih =>
        intro m
        cases e <;> simp [commands, ih]
    exact hno _ _ this
  have hup := (Vnic.Books.reachable a (.ctlMade c.p :: h1)).up c.p |>.mpr (still_up c.p h1 fun hx => hlost (by rw [e1]; simp [hx]))
  have hfit := hi.vfit _ hm
  obtain ⟨x, f1, f2⟩ := open_answer (Vnic.Inv.reachable a (.ctlMade c.p :: h1)) c.p (n + 1) r hup hor hfit
  have hout : (Vnic.step (Vnic.exec (.init a) (.ctlMade c.p :: h1)) (.openSocket c.p (n + 1) r)).out <+: s.vnic.out := by
    rw [hi.vnic, e1, ← List.cons_append, Vnic.exec_append]
    exact (Vnic.Lasts.exec h2 _).out
  rw [f1] at hout
  have hx : x ∈ s.vnic.out := hout.subset (by simp)
  rcases f2 with rfl | ⟨y, rfl, _⟩
  · exact absurd hx hh
  · exact ⟨y, hx⟩

theorem outcome_listen (n : Nat) : ∀ ms : List Msg, (∃ y, .response (n + 1) y ∈ ms) → ∃ y, .response (n + 1) y ∈ ms ∧
    Cli.outcome .listen n (ms.map heard) = match y with | .port q => .result (n + 1) q | .busy => .error 1
  | [], h => by obtain ⟨_, h⟩ := h; cases h
  | m :: ms, h => by
    have ih := outcome_listen n ms
    cases m with
    | response i r =>
      by_cases hi : i = n + 1
      · subst hi
        refine ⟨r, by simp, ?_⟩
        cases r <;> simp [heard, Cli.outcome]
      · obtain ⟨y, hy⟩ := h
        simp only [List.mem_cons, Msg.response.injEq] at hy
        rcases hy with ⟨h1, _⟩ | hy
        · omega
        · obtain ⟨y, e1, e2⟩ := ih ⟨y, hy⟩
          refine ⟨y, by simp [e1], ?_⟩
          cases r <;> simp only [List.map_cons, heard, Cli.outcome, if_neg hi, e2]
    | spawned i t k =>
      obtain ⟨y, hy⟩ := h
      simp only [List.mem_cons, reduceCtorEq, false_or] at hy
      obtain ⟨y, e1, e2⟩ := ih ⟨y, hy⟩
      refine ⟨y, by simp [e1], ?_⟩
      simp [heard, Cli.outcome, e2]

/-- What becomes of a connect call. -/
def Decided (n : Nat) (ms : List Msg) : Prop :=
  (∃ t k, .spawned (n + 1) t k ∈ ms ∧ Cli.outcome .connect n (ms.map heard) = .result (n + 1) k.sourcePort) ∨
    (.response (n + 1) .busy ∈ ms ∧ Cli.outcome .connect n (ms.map heard) = .error 1) ∨
    ((∀ t k, .spawned (n + 1) t k ∉ ms) ∧ .response (n + 1) .busy ∉ ms ∧ Cli.outcome .connect n (ms.map heard) = .pending)

theorem outcome_connect (n : Nat) : ∀ ms : List Msg, Decided n ms
  | [] => .inr (.inr ⟨nofun, nofun, rfl⟩)
  | m :: ms => by
    have ih := outcome_connect n ms
    have skip : Cli.outcome .connect n ((m :: ms).map heard) = Cli.outcome .connect n (ms.map heard) → (∀ t k, m ≠ .spawned (n + 1) t k) → m ≠ .response (n + 1) .busy → Decided n (m :: ms) := fun e1 e2 e3 => by
      rcases ih with ⟨t, k, h1, h2⟩ | ⟨h1, h2⟩ | ⟨h1, h2, h3⟩
      · exact .inl ⟨t, k, List.mem_cons_of_mem _ h1, e1.trans h2⟩
      · exact .inr (.inl ⟨List.mem_cons_of_mem _ h1, e1.trans h2⟩)
      · refine .inr (.inr ⟨fun t k hm => ?_, fun hm => ?_, e1.trans h3⟩)
        · rcases List.mem_cons.mp hm with hm | hm
          · exact e2 t k hm.symm
          · exact h1 t k hm
        · rcases List.mem_cons.mp hm with hm | hm
          · exact e3 hm.symm
          · exact h2 hm
    cases m with
    | response i r =>
      cases r with
      | port q => exact skip (by simp [heard, Cli.outcome]) (fun _ _ h => nomatch h) (fun h => by cases h)
      | busy =>
        by_cases hi : i = n + 1
        · subst hi
          exact .inr (.inl ⟨by simp, by simp [heard, Cli.outcome]⟩)
        · exact skip (by simp [heard, Cli.outcome, hi]) (fun _ _ h => nomatch h) (by simp [hi])
    | spawned i t k =>
      by_cases hi : i = n + 1
      · subst hi
        exact .inl ⟨t, k, by simp, by simp [heard, Cli.outcome]⟩
      · exact skip (by simp [heard, Cli.outcome, hi]) (by simp [hi]) (by simp)

/-- C94. When nothing is on the way and the VNIC does not hang, every call of `listen` is answered: with the port it asked for, as the VNIC says, or with an error
if the VNIC refused it. -/
theorem C94_listen_partial {c : Cfg} (hc : c.Ok) {a : Str} (ha : Link.Text a) (h : List Ev) (hf : ∀ e ∈ h, e.Fits c.p) (hn : (calls h).length < 2 ^ 32) (n q f : Nat)
    (hr : (calls h)[n]? = some (.listen q, f)) (hq : Quiet (run c (Net.init c a) h)) (hh : .hang ∉ (run c (Net.init c a) h).vnic.out) :
    ((run c (Net.init c a) h).cli.fut n = .result (n + 1) q ∧ .respond c.p (n + 1) (.port q) ∈ (run c (Net.init c a) h).vnic.out) ∨
    ((run c (Net.init c a) h).cli.fut n = .error 1 ∧ .respond c.p (n + 1) .busy ∈ (run c (Net.init c a) h).vnic.out) := by
  obtain ⟨ms, _, h2, h3⟩ := C94_future hc ha h hf hn
  have h3 := h3 n _ f hr
  rw [h2 hq.2] at h3
  obtain ⟨hv, hl, cl, done, ml, hi⟩ := NInv.reachable hc ha h hf hn
  obtain ⟨y, hy⟩ := answered hi hq.1 hh hr (fun h => nomatch h)
  obtain ⟨y, e1, e2⟩ := outcome_listen n _ ⟨y, msgsOf_respond (tcp := c.tcp) hy⟩
  rcases mem_msgsOf e1 with ⟨i, y', e3, e4⟩ | ⟨_, _, _, e3, _⟩
  · cases e3
    cases y with
    | busy => exact .inr ⟨h3.trans e2, e4⟩
    | port x =>
      have hor := e4
      rw [hi.vnic] at hor
      obtain ⟨r, g1, g2⟩ := respond_origin _ (by
        intro e he
        rcases List.mem_cons.mp he with rfl | he
        · trivial
        · exact hi.vfit e he) c.p (n + 1) (.port x) hor
      have g3 : .openSocket c.p (0 + n + 1) r ∈ commands c.p 0 h := by
        rw [hi.cmds, Nat.zero_add]
        rcases List.mem_cons.mp g1 with g1 | g1
        · cases g1
        · exact List.mem_append_left _ (List.mem_filter.mpr ⟨g1, by simp [foreign]⟩)
      obtain ⟨f', g3⟩ := (commands_calls h 0 n).mpr g3
      rw [hr] at g3
      cases g3
      have := (g2 x rfl).2 q rfl
      subst this
      exact .inl ⟨h3.trans e2, e4⟩
  · cases e3

/-- C94. When nothing is on the way, a call of `connect` has its result exactly if its connection has been announced: the result is the local port of a connection
from the VNIC's address to the destination that was asked for; an error if the VNIC refused the call; else it is pending. -/
theorem C94_connect_partial {c : Cfg} (hc : c.Ok) {a : Str} (ha : Link.Text a) (h : List Ev) (hf : ∀ e ∈ h, e.Fits c.p) (hn : (calls h).length < 2 ^ 32) (n : Nat) (dst : Str) (dport f : Nat)
    (hr : (calls h)[n]? = some (.connect dst dport, f)) (hq : Quiet (run c (Net.init c a) h)) :
    (∃ t sp, .announce c.p (n + 1) t ⟨a, sp, dst, dport⟩ ∈ (run c (Net.init c a) h).vnic.out ∧ (run c (Net.init c a) h).cli.fut n = .result (n + 1) sp) ∨
    (.respond c.p (n + 1) .busy ∈ (run c (Net.init c a) h).vnic.out ∧ (run c (Net.init c a) h).cli.fut n = .error 1) ∨
    ((∀ t k, .announce c.p (n + 1) t k ∉ (run c (Net.init c a) h).vnic.out) ∧ .respond c.p (n + 1) .busy ∉ (run c (Net.init c a) h).vnic.out ∧
      (run c (Net.init c a) h).cli.fut n = .pending) := by
  obtain ⟨ms, _, h2, h3⟩ := C94_future hc ha h hf hn
  have h3 := h3 n _ f hr
  rw [h2 hq.2] at h3
  obtain ⟨hv, hl, cl, done, ml, hi⟩ := NInv.reachable hc ha h hf hn
  rcases outcome_connect n (msgsOf c.p c.tcp (run c (Net.init c a) h).vnic.out) with ⟨t, k, e1, e2⟩ | ⟨e1, e2⟩ | ⟨e1, e2, e3⟩
  · rcases mem_msgsOf e1 with ⟨_, _, e3, _⟩ | ⟨i, t', k', e3, e4⟩
    · cases e3
    · cases e3
      have hor := Vnic.Origin.reachable a (.ctlMade c.p :: hv)
      rw [← hi.vnic] at hor
      obtain ⟨g1, g2, g3, g4⟩ := hor.told _ _ _ _ e4
      obtain ⟨_, r, g5, g6⟩ := hor.spawn t' g1
      rw [g2, g3] at g5
      have g7 : .openSocket c.p (0 + n + 1) r ∈ commands c.p 0 h := by
        rw [hi.cmds, Nat.zero_add]
        rcases List.mem_cons.mp g5 with g5 | g5
        · cases g5
        · exact List.mem_append_left _ (List.mem_filter.mpr ⟨g5, by simp [foreign]⟩)
      obtain ⟨f', g8⟩ := (commands_calls h 0 n).mpr g7
      rw [hr] at g8
      cases g8
      rw [g4] at g6
      obtain ⟨g6, g9, g10⟩ := g6
      have hadd : (run c (Net.init c a) h).vnic.address = a := by rw [hi.vnic]; exact (Vnic.Lasts.exec _ _).address
      rw [hadd] at g6
      refine .inl ⟨t', k.sourcePort, ?_, h3.trans e2⟩
      have : k = ⟨a, k.sourcePort, dst, dport⟩ := by cases k; simp_all
      rw [← this]; exact e4
  · rcases mem_msgsOf e1 with ⟨_, _, e3, e4⟩ | ⟨_, _, _, e3, _⟩
    · cases e3
      exact .inr (.inl ⟨e4, h3.trans e2⟩)
    · cases e3
  · exact .inr (.inr ⟨fun t k hm => e1 _ _ (msgsOf_announce hm), fun hm => e2 (msgsOf_respond hm), h3.trans e3⟩)

/-! ## Concrete cases -/

/-- The classes of C93, with `VNICSocketControlPacket` (6) and the two packets of the VNIC (7, 8). -/
def sEnv : Env where
  classDef := fun c => if c = 1 then some Control.openDef else if c = 2 then some Control.closeDef else if c = 3 then some Control.startDef else if c = 4 then some Control.stopDef
    else if c = 5 then some Link.wireDef else if c = 7 then some respDef else if c = 8 then some spawnDef else none
  isSub := fun c b => b == 0 || b == c || (b == 6 && (c == 1 || c == 2 || c == 7 || c == 8))
  lookup := fun _ name v => if v ≠ ⟨1, 0⟩ then .ok none else if name = Control.openDef.ident then .ok (some 1) else if name = Control.closeDef.ident then .ok (some 2)
    else if name = Control.startDef.ident then .ok (some 3) else if name = Control.stopDef.ident then .ok (some 4) else if name = Link.wireDef.ident then .ok (some 5)
    else if name = respDef.ident then .ok (some 7) else if name = spawnDef.ident then .ok (some 8) else .ok none

def sCfg : Cfg := ⟨⟨sEnv, 0, 1, 2, 3, 4, 5⟩, 6, 7, 8, 2, 1, ("127.0.0.1".toList, 900), fun n => 40000 + n % 1000⟩

theorem sOk : sCfg.Ok := by
  refine ⟨⟨?_, rfl, rfl, rfl, rfl, rfl, fun _ _ => rfl, by decide⟩, rfl, rfl, by decide, by decide, by decide, ⟨⟨by decide, by decide⟩, by decide⟩, fun n => ?_⟩
  · intro cls d base h _
    have h : sEnv.classDef cls = some d := h
    show ∃ v, Version.fromString d.version = some v ∧ sEnv.lookup base d.ident v = .ok (some cls)
    unfold sEnv at h ⊢
    dsimp only at h ⊢
    repeat' split at h
    all_goals first
      | (cases h; done)
      | (next hc => cases h; exact ⟨⟨1, 0⟩, by decide +kernel, by rw [hc]; decide +kernel⟩)
  · show 40000 + n % 1000 < _
    omega

/-- Two calls of `listen` for one port, and one of `connect`; the bytes come in pieces; another program has control connection 2. -/
def talk : List Ev := [.listen 80 3, .toVnic 50, .listen 80 4, .connect "8.8.8.8".toList 53 5, .vnic (.ctlMade 2), .toVnic 5000, .vnic (.connected 0), .vnic (.finished 0), .toCli 61, .toCli 5000]

theorem talk_fits : ∀ e ∈ talk, e.Fits sCfg.p := by
  intro e he
  simp only [talk, List.mem_cons, List.not_mem_nil, or_false] at he
  rcases he with rfl | rfl | rfl | rfl | rfl | rfl | rfl | rfl | rfl | rfl
  all_goals first
    | trivial
    | exact (by decide : (80 : Nat) < 2 ^ 16)
    | exact ⟨⟨by decide, by decide⟩, by decide⟩
    | exact ⟨by decide, trivial⟩

/-- What the ends show after a history. -/
def seen (h : List Ev) : List Cli.Fut × Bool × Bool × List Vnic.Eff :=
  let s := run sCfg (Net.init sCfg "9.9.9.9".toList) h
  ((List.range s.cli.nFut).map s.cli.fut, s.toVnic.isEmpty, s.toCli.isEmpty, s.vnic.out)

example : seen talk = ([.result 1 80, .error 1, .result 3 2000], true, true, [.respond 1 1 (.port 80), .respond 1 2 .busy, .respond 1 3 (.port 2000),
    .announce 1 3 0 ⟨"9.9.9.9".toList, 2000, "8.8.8.8".toList, 53⟩]) := by decide +kernel

/-- C94 is false when a call is cancelled (a timeout in the program): the answer to it makes the handler raise, and the answers behind it in the same chunk stay in the
Deserializer: the future of another call is pending though its answer has arrived. -/
theorem C94_false_cancelled :
    let h : List Ev := [.listen 80 3, .listen 81 4, .toVnic 5000]
    (seen (h ++ [.toCli 5000])).1 = [.result 1 80, .result 2 81] ∧
    seen (h ++ [.cancel 0, .toCli 5000]) = ([.cancelled, .pending], true, true, [.respond 1 1 (.port 80), .respond 1 2 (.port 81)]) := by decide +kernel

/-- The answer is not lost: it is taken with the next chunk. -/
example : (seen ([.listen 80 3, .listen 81 4, .toVnic 5000] ++ [.cancel 0, .toCli 5000, .listen 82 5, .toVnic 5000, .toCli 5000])).1 = [.cancelled, .result 2 81, .result 3 82] := by
  decide +kernel

end Verif.Session
