import Verif.Spec.AskNet
import Verif.Props.Query
namespace Verif.Spmp.AskNet
open Verif.Spmp.Ask (sents chunks snocInd)

variable {σ : Type} {c : Cfg σ}

theorem bytesOut_eq : ∀ l, bytesOut l = written l
  | [] => rfl
  | .write b :: l => by rw [bytesOut, written, bytesOut_eq l]
  | .call _ _ :: l => by rw [bytesOut, written, bytesOut_eq l]; exact fun _ h => nomatch h
  | .close :: l => by rw [bytesOut, written, bytesOut_eq l]; exact fun _ h => nomatch h

theorem written_append : ∀ l m, written (l ++ m) = written l ++ written m
  | [], m => rfl
  | .write b :: l, m => by rw [List.cons_append, written, written, written_append l m, List.append_assoc]
  | .call _ _ :: l, m => by
    rw [List.cons_append, written, written, written_append l m] <;> exact fun _ h => nomatch h
  | .close :: l, m => by
    rw [List.cons_append, written, written, written_append l m] <;> exact fun _ h => nomatch h

theorem run_snoc (s : Net σ) (h : List Ev) (e : Ev) : run c s (h ++ [e]) = step c (run c s h) e := by simp [run]
theorem run_append (s : Net σ) (h t : List Ev) : run c s (h ++ t) = run c (run c s h) t := by simp [run]
theorem asked_append (h t : List Ev) : asked (h ++ t) = asked h ++ asked t := by simp [asked]

theorem srv_append (s : Server σ) : ∀ (h t : List Spmp.Ev), s.exec c (h ++ t) = (((s.exec c h).1.exec c t).1, (s.exec c h).2 ++ ((s.exec c h).1.exec c t).2) := by
  intro h
  induction h generalizing s with
  | nil => intro t; simp [Server.exec]
  | cons e h ih =>
    intro t
    simp only [List.cons_append, Server.exec]
    rw [ih]
    simp

theorem srv_snoc (s : Server σ) (bs : List Bytes) (b : Bytes) :
    s.exec c ((bs ++ [b]).map .data) = (((s.exec c (bs.map .data)).1.data c b).1, (s.exec c (bs.map .data)).2 ++ ((s.exec c (bs.map .data)).1.data c b).2) := by
  rw [List.map_append, srv_append]
  simp [Server.exec, Server.step]

/-! ## The server on a part of the requests -/

theorem served_take {w w' : σ} {qs : List Query} {acts : List Act} {rs} (h : Served c w qs w' acts rs) :
    ∀ n, ∃ wn an, Served c w (qs.take n) wn an (rs.take n) ∧ an <+: acts := by
  induction h with
  | nil w => intro n; exact ⟨w, [], by simpa using Served.nil w, List.prefix_refl _⟩
  | @cons w w1 w2 q qs a b acts' result error rs h1 h2 h3 ih =>
    intro n
    cases n with
    | zero => exact ⟨w, [], by simpa using Served.nil w, List.nil_prefix⟩
    | succ n =>
      obtain ⟨wn, an, hs, hp⟩ := ih n
      refine ⟨wn, a ++ .write b :: an, ?_, ?_⟩
      · simpa using Served.cons h1 h2 hs
      · rw [List.prefix_append_right_inj]
        exact List.cons_prefix_cons.mpr ⟨rfl, hp⟩

theorem served_unique {w w1 : σ} {qs : List Query} {a1 : List Act} {r1} (h : Served c w qs w1 a1 r1) :
    ∀ {w2 a2 r2}, Served c w qs w2 a2 r2 → w1 = w2 ∧ a1 = a2 ∧ r1 = r2 := by
  induction h with
  | nil w => intro w2 a2 r2 h; cases h; exact ⟨rfl, rfl, rfl⟩
  | @cons w w1 w2 q qs a b acts' result error rs h1 h2 h3 ih =>
    intro w2' a2 r2 h
    cases h with
    | @cons _ v1 _ _ _ a' b' acts'' result' error' rs' g1 g2 g3 =>
      have e := (outcome_execute h1).symm.trans (outcome_execute g1)
      injection e with e1 e2
      injection e2 with e2 e3
      subst e1 e2
      have e4 : result = result' ∧ error = error' := by
        injection e3 with _ _ _ h4 h5 _ _
        exact ⟨by injection h4, h5⟩
      obtain ⟨rfl, rfl⟩ := e4
      rw [h2] at g2
      injection g2 with g2
      subst g2
      obtain ⟨rfl, rfl, rfl⟩ := ih g3
      exact ⟨rfl, rfl, rfl⟩

/-- The `i`-th request and response. -/
def req (Q : List Query) (i : Nat) : Query := Q[i]?.getD ⟨0, [], []⟩
def ans (Q : List Query) (rs : List (Str × Option Str)) (i : Nat) : Packet :=
  (req Q i).response (rs[i]?.getD ([], none)).1 (rs[i]?.getD ([], none)).2

theorem req_mem {Q : List Query} {i : Nat} (h : i < Q.length) : req Q i ∈ Q := by
  unfold req
  rw [List.getElem?_eq_getElem h]
  exact List.getElem_mem h

theorem map_req {Q : List Query} {n : Nat} (h : n ≤ Q.length) {β : Type} (f : Query → β) : (List.range n).map (fun i => f (req Q i)) = (Q.take n).map f := by
  refine List.ext_getElem (by simp [h]) fun i h1 h2 => ?_
  simp only [List.length_map, List.length_range] at h1
  simp [req, List.getElem?_eq_getElem (show i < Q.length by omega)]

theorem map_ans {Q : List Query} {rs : List (Str × Option Str)} (hl : rs.length = Q.length) {n : Nat} (h : n ≤ Q.length) :
    (List.range n).map (ans Q rs) = ((Q.take n).zip (rs.take n)).map fun x => x.1.response x.2.1 x.2.2 := by
  refine List.ext_getElem (by simp; omega) fun i h1 h2 => ?_
  simp only [List.length_map, List.length_range] at h1
  simp [ans, req, List.getElem?_eq_getElem (show i < Q.length by omega), List.getElem?_eq_getElem (show i < rs.length by omega)]

theorem ans_mem {Q : List Query} {rs : List (Str × Option Str)} (hl : rs.length = Q.length) {i : Nat} (h : i < Q.length) :
    ∃ x ∈ Q.zip rs, ans Q rs i = x.1.response x.2.1 x.2.2 := by
  refine ⟨(Q[i], rs[i]), ?_, ?_⟩
  · exact List.mem_iff_getElem.mpr ⟨i, by simp; omega, by simp⟩
  · simp [ans, req, List.getElem?_eq_getElem h, List.getElem?_eq_getElem (show i < rs.length by omega)]

theorem flatMap_ser {env : Env} {cls : Cls} (l : List Nat) (f : Nat → Packet) : l.flatMap (fun i => ser env ((f i).val cls)) = (l.map f).flatMap fun p => ser env (p.val cls) := by
  rw [List.flatMap_map]

/-- The server after a part of the bytes of the first `m` requests: it has served the first `n`, with no more than the complete ones. -/
theorem server_part {w w' : σ} {Q : List Query} {acts : List Act} {rs} (hg : Good c w Q w' acts rs) (m : Nat) (hm : m ≤ Q.length) (bs : List Bytes)
    (hb : bs.flatten <+: (List.range m).flatMap fun i => ser c.env ((req Q i).packet.val c.cls)) :
    ∃ n, n ≤ m ∧ ∃ wn an, Served c w (Q.take n) wn an (rs.take n) ∧ an <+: acts ∧
      ((Server.init c w).exec c (bs.map .data)).1.w = wn ∧ ((Server.init c w).exec c (bs.map .data)).2 = an ∧
      (bs.flatten = ((List.range m).flatMap fun i => ser c.env ((req Q i).packet.val c.cls)) → n = m) := by
  obtain ⟨d, hd⟩ : ∃ d, c.depth = d + 1 := ⟨c.depth - 1, by have := hg.depth; omega⟩
  have hpl : ∀ i, i < m → Plain c.env c.cls (req Q i).packet := fun i hi => hg.requests _ (req_mem (by omega))
  have hvals : ∀ v ∈ (List.range m).map (fun i => (req Q i).packet.val c.cls), Sendable c.env c.cls v ∧ Decodes c.env (d + 1) c.cls (ser c.env v) v := by
    intro v hv
    obtain ⟨i, hi, rfl⟩ := List.mem_map.mp hv
    have hi : i < m := List.mem_range.mp hi
    exact ⟨(hpl i hi).1, plain_decodes hg.registered (hpl i hi)⟩
  have key : ∃ n, n ≤ m ∧ (runOps c.env (d + 1) c.cls (.init c.env (d + 1) c.cls) (opsOf bs)).1 = ((Q.take n).map Query.packet).map (fun p => .packet (p.val c.cls)) ∧
      (bs.flatten = ((List.range m).flatMap fun i => ser c.env ((req Q i).packet.val c.cls)) → n = m) := by
    have hmap : ∀ n, n ≤ m → (((List.range m).map (fun i => (req Q i).packet.val c.cls)).take n).map Event.packet = ((Q.take n).map Query.packet).map (fun p => Event.packet (p.val c.cls)) := by
      intro n hn
      rw [← List.map_take, List.take_range, Nat.min_eq_left hn, List.map_map, List.map_map, ← map_req (f := (fun p => Event.packet (Packet.val c.cls p)) ∘ Query.packet) (by omega)]
      rfl
    obtain ⟨fut, hfut⟩ := hb
    rcases List.eq_nil_or_concat bs with rfl | ⟨bs', b, rfl⟩
    · refine ⟨0, Nat.zero_le _, rfl, fun h => ?_⟩
      cases m with
      | zero => rfl
      | succ m =>
        exfalso
        have h := congrArg List.length h
        rw [List.range_succ, List.flatMap_append, List.length_append] at h
        have := Ask.ser_pos (hpl m (by omega))
        simp at h
        omega
    · rw [List.concat_eq_append] at hfut ⊢
      have hre : received (opsOf bs' ++ [.update b]) = (bs' ++ [b]).flatten := by
        have h1 := received_opsOf (bs' ++ [b])
        rw [opsOf_snoc] at h1
        have h2 : ∀ (o : List DOp), received (o ++ [.next]) = received o := by
          intro o; induction o with
          | nil => rfl
          | cons x o ih => cases x <;> simp [received, ih]
        rw [← h2, h1]
      obtain ⟨-, n, hn, hev, hlt⟩ := C02_C03_prefix hg.registered _ hvals (opsOf bs' ++ [.update b]) fut (by rw [hre, hfut, List.flatMap_map])
      rw [← opsOf_snoc] at hev
      simp only [List.length_map, List.length_range] at hn hlt
      refine ⟨n, hn, hev.trans (hmap n hn), fun he => ?_⟩
      refine Nat.le_antisymm hn (Decidable.byContradiction fun hlt' => ?_)
      have hb := hlt (by omega)
      rw [hre, he, ← List.map_take, List.flatMap_map, List.take_range, Nat.min_eq_left (by omega)] at hb
      rw [show m = (n + 1) + (m - (n + 1)) by omega, List.range_add, List.flatMap_append, List.length_append] at hb
      omega
  obtain ⟨n, hn, hev, hall⟩ := key
  obtain ⟨wn, an, hs, hp⟩ := served_take hg.served n
  have hpa := served_processAll hs fun q hq => hg.authorized q (List.mem_of_mem_take hq)
  rw [← hd] at hev
  have := exec_eq c bs (Server.init c w) ((Q.take n).map Query.packet) hev (by rw [show (Server.init c w).up = true from rfl, show (Server.init c w).w = w from rfl, hpa])
  rw [this, show (Server.init c w).up = true from rfl, show (Server.init c w).w = w from rfl, hpa]
  exact ⟨n, hn, wn, an, hs, hp, rfl, rfl, hall⟩

theorem written_part {w wn : σ} {Q : List Query} {an : List Act} {rs} {n : Nat} (hl : rs.length = Q.length) (hn : n ≤ Q.length)
    (hs : Served c w (Q.take n) wn an (rs.take n)) : written an = (List.range n).flatMap fun i => ser c.env ((ans Q rs i).val c.cls) := by
  rw [(served_written hs).2, flatMap_ser, map_ans hl hn, List.flatMap_map]

/-! ## The invariant -/

/-- The history `ch` of the client, the chunks `bs` that the server got, and the number `m` of calls. -/
structure Inv (c : Cfg σ) (w : σ) (Q : List Query) (rs : List (Str × Option Str)) (m : Nat) (s : Net σ) (ch : List Ask.Ev) (bs : List Bytes) : Prop where
  cli : s.cli = Ask.exec c.env c.depth c.cls (.init c.env c.depth c.cls) ch
  nocancel : ∀ i, Ask.Ev.cancel i ∉ ch
  sents : sents s.cli.log = (List.range m).map fun i => (i, (req Q i).id)
  calls : s.cli.nCall = m
  up : s.cli.up = true
  out : s.cli.out.flatten = (List.range m).flatMap fun i => ser c.env ((req Q i).packet.val c.cls)
  srv : (s.srv, s.acts) = (Server.init c w).exec c (bs.map .data)
  got : bs.flatten = s.cli.out.flatten.take s.atServer
  gotLe : s.atServer ≤ s.cli.out.flatten.length
  back : (chunks ch).flatten = (written s.acts).take s.atClient
  backLe : s.atClient ≤ (written s.acts).length
  stream : ∀ t, t <+: ch → (chunks t).flatten <+: (Ask.sents (Ask.exec c.env c.depth c.cls (.init c.env c.depth c.cls) t).log).flatMap fun x => ser c.env ((ans Q rs x.1).val c.cls)

theorem take_drop_take {α : Type} (l : List α) (a n : Nat) : l.take a ++ (l.drop a).take n = l.take (a + ((l.drop a).take n).length) := by
  rw [List.length_take, List.length_drop]
  by_cases h : n ≤ l.length - a
  · rw [Nat.min_eq_left h, List.take_add]
  · rw [Nat.min_eq_right (by omega), List.take_of_length_le (l := l.drop a) (by simp; omega), List.take_append_drop, List.take_of_length_le (by omega)]

theorem await_out (s : Ask.St) (i : Nat) : (Ask.await s i).out = s.out ∧ (Ask.await s i).nCall = s.nCall ∧ (Ask.await s i).up = s.up ∧ (Ask.await s i).log = s.log := by
  unfold Ask.await Ask.setStage; split <;> exact ⟨rfl, rfl, rfl, rfl⟩

theorem notify_out (s : Ask.St) : (Ask.notify s).out = s.out ∧ (Ask.notify s).nCall = s.nCall ∧ (Ask.notify s).up = s.up ∧ (Ask.notify s).log = s.log := by
  unfold Ask.notify; split <;> exact ⟨rfl, rfl, rfl, rfl⟩

theorem resume_out (s : Ask.St) (i : Nat) : (Ask.resume s i).out = s.out ∧ (Ask.resume s i).nCall = s.nCall ∧ (Ask.resume s i).up = s.up ∧ (Ask.resume s i).log = s.log := by
  unfold Ask.resume; split
  · exact await_out _ i
  · exact ⟨rfl, rfl, rfl, rfl⟩

theorem prefix_snoc {α : Type} {t h : List α} {e : α} (ht : t <+: h ++ [e]) : t <+: h ∨ t = h ++ [e] := by
  rcases List.prefix_concat_iff.mp (by simpa using ht) with h1 | h1
  · exact .inr (by simpa using h1)
  · exact .inl h1

theorem inv_init (w : σ) (Q : List Query) (rs) : Inv c w Q rs 0 (Net.init c w) [] [] where
  cli := rfl
  nocancel := fun _ h => nomatch h
  sents := rfl
  calls := rfl
  up := rfl
  out := rfl
  srv := rfl
  got := rfl
  gotLe := Nat.zero_le _
  back := rfl
  backLe := Nat.zero_le _
  stream := fun t ht => by rw [List.prefix_nil.mp ht]; exact List.nil_prefix

/-- A step of the client that sends nothing and receives nothing. -/
theorem inv_own {w : σ} {Q : List Query} {rs} {m : Nat} {s : Net σ} {ch bs} (hi : Inv c w Q rs m s ch bs) (e : Ask.Ev) (he : e = .notify ∨ ∃ i, e = .resume i) :
    Inv c w Q rs m { s with cli := Ask.step c.env c.depth c.cls s.cli e } (ch ++ [e]) bs := by
  have ho : (Ask.step c.env c.depth c.cls s.cli e).out = s.cli.out ∧ (Ask.step c.env c.depth c.cls s.cli e).nCall = s.cli.nCall ∧
      (Ask.step c.env c.depth c.cls s.cli e).up = s.cli.up ∧ (Ask.step c.env c.depth c.cls s.cli e).log = s.cli.log := by
    rcases he with rfl | ⟨i, rfl⟩
    · exact notify_out _
    · exact resume_out _ i
  have hch : chunks (ch ++ [e]) = chunks ch := by
    rw [Ask.chunks_append]
    rcases he with rfl | ⟨i, rfl⟩ <;> simp [chunks]
  exact {
    cli := by rw [Ask.exec_snoc, ← hi.cli]
    nocancel := fun i h => by
      rcases List.mem_append.mp h with h | h
      · exact hi.nocancel i h
      · rcases he with rfl | ⟨j, rfl⟩ <;> simp at h
    sents := by show Ask.sents (Ask.step c.env c.depth c.cls s.cli e).log = _; rw [ho.2.2.2]; exact hi.sents
    calls := ho.2.1.trans hi.calls
    up := ho.2.2.1.trans hi.up
    out := by show (Ask.step c.env c.depth c.cls s.cli e).out.flatten = _; rw [ho.1]; exact hi.out
    srv := hi.srv
    got := by show _ = (Ask.step c.env c.depth c.cls s.cli e).out.flatten.take _; rw [ho.1]; exact hi.got
    gotLe := by show _ ≤ (Ask.step c.env c.depth c.cls s.cli e).out.flatten.length; rw [ho.1]; exact hi.gotLe
    back := by rw [hch]; exact hi.back
    backLe := hi.backLe
    stream := fun t ht => by
      rcases prefix_snoc ht with h | rfl
      · exact hi.stream t h
      · rw [hch, Ask.exec_snoc, ← hi.cli, ho.2.2.2]
        have := hi.stream ch (List.prefix_refl _)
        rw [← hi.cli] at this
        exact this }

theorem inv_step {w w' : σ} {Q : List Query} {acts : List Act} {rs} (hg : Good c w Q w' acts rs) {m : Nat} {s : Net σ} {ch bs} (hi : Inv c w Q rs m s ch bs) (e : Ev)
    (hq : ∀ n cmd args, e = .query n cmd args → m < Q.length ∧ req Q m = ⟨n, cmd, args⟩) (hm : m ≤ Q.length) :
    ∃ ch' bs', Inv c w Q rs (m + (asked [e]).length) (step c s e) ch' bs' := by
  have hl := (served_written hg.served).1
  cases e with
  | notify => exact ⟨_, bs, inv_own hi .notify (.inl rfl)⟩
  | resume i => exact ⟨_, bs, inv_own hi (.resume i) (.inr ⟨i, rfl⟩)⟩
  | query n cmd args =>
    obtain ⟨hlt, hreq⟩ := hq n cmd args rfl
    obtain ⟨b, hb⟩ : ∃ b, serialize c.env 0 ((request n cmd args).val c.cls) = .ok b := by
      obtain ⟨x, fs, b, e1, e2, e3, e4⟩ := sendable_cases (hg.requests _ (req_mem hlt)).1
      have : (req Q m).packet = request n cmd args := by rw [hreq]; rfl
      rw [this] at e1
      exact ⟨b, by rw [e1]; exact e4⟩
    have hser := ser_eq hb
    have hst : Ask.query c.env c.cls s.cli n cmd args = Ask.await { s.cli with nCall := m + 1, key := fun j => if j = m then n else s.cli.key j, out := s.cli.out ++ [b], log := s.cli.log ++ [.sent m n] } m := by
      unfold Ask.query
      dsimp only
      rw [hb]
      dsimp only
      rw [hi.up, if_pos rfl, hi.calls]
    have ho := await_out { s.cli with nCall := m + 1, key := fun j => if j = m then n else s.cli.key j, out := s.cli.out ++ [b], log := s.cli.log ++ [.sent m n] } m
    rw [← hst] at ho
    have hlog : Ask.sents (Ask.query c.env c.cls s.cli n cmd args).log = (List.range (m + 1)).map fun i => (i, (req Q i).id) := by
      rw [ho.2.2.2]
      dsimp only
      rw [Ask.sents_append, hi.sents, List.range_succ, List.map_append]
      simp [Ask.sents, hreq]
    have hout : (Ask.query c.env c.cls s.cli n cmd args).out.flatten = s.cli.out.flatten ++ b := by rw [ho.1]; simp
    refine ⟨ch ++ [.query n cmd args], bs, ?_⟩
    exact {
      cli := by rw [Ask.exec_snoc, ← hi.cli]; rfl
      nocancel := fun i h => by
        rcases List.mem_append.mp h with h | h
        · exact hi.nocancel i h
        · simp at h
      sents := hlog
      calls := ho.2.1
      up := ho.2.2.1.trans hi.up
      out := by
        show (Ask.query c.env c.cls s.cli n cmd args).out.flatten = (List.range (m + 1)).flatMap _
        rw [hout, hi.out, List.range_succ, List.flatMap_append]
        congr 1
        simp only [List.flatMap_cons, List.flatMap_nil, List.append_nil, hreq]
        exact hser.symm
      srv := hi.srv
      got := by
        show _ = (Ask.query c.env c.cls s.cli n cmd args).out.flatten.take s.atServer
        rw [hout, List.take_append_of_le_length hi.gotLe]
        exact hi.got
      gotLe := by
        show s.atServer ≤ (Ask.query c.env c.cls s.cli n cmd args).out.flatten.length
        rw [hout, List.length_append]
        exact Nat.le_trans hi.gotLe (Nat.le_add_right ..)
      back := by
        show (chunks (ch ++ [.query n cmd args])).flatten = (written s.acts).take s.atClient
        rw [show chunks (ch ++ [.query n cmd args]) = chunks ch by rw [Ask.chunks_append]; simp [chunks]]
        exact hi.back
      backLe := hi.backLe
      stream := fun t ht => by
        rcases prefix_snoc ht with h | rfl
        · exact hi.stream t h
        · rw [Ask.exec_snoc, ← hi.cli]
          have h0 := hi.stream ch (List.prefix_refl _)
          rw [← hi.cli, hi.sents] at h0
          rw [show chunks (ch ++ [.query n cmd args]) = chunks ch by rw [Ask.chunks_append]; simp [chunks]]
          show _ <+: (Ask.sents (Ask.query c.env c.cls s.cli n cmd args).log).flatMap _
          rw [hlog, List.range_succ, List.map_append, List.flatMap_append]
          exact h0.trans (List.prefix_append ..) }
  | toServer n =>
    have hsrv := hi.srv
    have e1 : s.srv = ((Server.init c w).exec c (bs.map .data)).1 := by rw [← hsrv]
    have e2 : s.acts = ((Server.init c w).exec c (bs.map .data)).2 := by rw [← hsrv]
    refine ⟨ch, bs ++ [(s.cli.out.flatten.drop s.atServer).take n], ?_⟩
    exact {
      cli := hi.cli
      nocancel := hi.nocancel
      sents := hi.sents
      calls := hi.calls
      up := hi.up
      out := hi.out
      srv := by
        rw [srv_snoc, ← e1, ← e2]
        rfl
      got := by
        show (bs ++ [_]).flatten = s.cli.out.flatten.take (s.atServer + ((s.cli.out.flatten.drop s.atServer).take n).length)
        rw [List.flatten_append, hi.got, ← take_drop_take]
        simp
      gotLe := by
        show s.atServer + ((s.cli.out.flatten.drop s.atServer).take n).length ≤ _
        rw [List.length_take, List.length_drop]
        have := hi.gotLe
        show _ ≤ s.cli.out.flatten.length
        omega
      back := by
        show _ = (written (s.acts ++ _)).take s.atClient
        rw [written_append, List.take_append_of_le_length hi.backLe]
        exact hi.back
      backLe := by
        show s.atClient ≤ (written (s.acts ++ _)).length
        rw [written_append, List.length_append]
        exact Nat.le_trans hi.backLe (Nat.le_add_right ..)
      stream := hi.stream }
  | toClient n =>
    have hsrv := hi.srv
    have e2 : s.acts = ((Server.init c w).exec c (bs.map .data)).2 := by rw [← hsrv]
    have hbs : bs.flatten <+: (List.range m).flatMap fun i => ser c.env ((req Q i).packet.val c.cls) := by
      rw [hi.got, ← hi.out]
      exact List.take_prefix ..
    obtain ⟨k, hk, wn, an, hs, -, -, ha, -⟩ := server_part hg m hm bs hbs
    have hw := written_part hl (by omega) hs
    rw [← ha, ← e2] at hw
    have hlog : Ask.sents (Ask.data c.env c.depth c.cls s.cli (((written s.acts).drop s.atClient).take n)).log = Ask.sents s.cli.log := by
      show Ask.sents (s.cli.log ++ Ask.responses c.env c.depth c.cls s.cli.cli _) = _
      rw [Ask.sents_append, Ask.sents_nil Ask.responses_came, List.append_nil]
    have hback : (chunks (ch ++ [.data (((written s.acts).drop s.atClient).take n)])).flatten = (written s.acts).take (s.atClient + (((written s.acts).drop s.atClient).take n).length) := by
      rw [Ask.chunks_append, List.flatten_append, hi.back, ← take_drop_take]
      simp [chunks]
    have hstep : step c s (.toClient n) = { s with cli := Ask.data c.env c.depth c.cls s.cli (((written s.acts).drop s.atClient).take n), atClient := s.atClient + (((written s.acts).drop s.atClient).take n).length } := by
      unfold step
      dsimp only
      rw [bytesOut_eq]
    refine ⟨ch ++ [.data (((written s.acts).drop s.atClient).take n)], bs, ?_⟩
    rw [hstep]
    exact {
      cli := by rw [Ask.exec_snoc, ← hi.cli]; rfl
      nocancel := fun i h => by
        rcases List.mem_append.mp h with h | h
        · exact hi.nocancel i h
        · simp at h
      sents := hlog.trans hi.sents
      calls := hi.calls
      up := hi.up
      out := hi.out
      srv := hi.srv
      got := hi.got
      gotLe := hi.gotLe
      back := hback
      backLe := by
        dsimp only
        rw [List.length_take, List.length_drop]
        have := hi.backLe
        omega
      stream := fun t ht => by
        rcases prefix_snoc ht with h | rfl
        · exact hi.stream t h
        · rw [hback, Ask.exec_snoc, ← hi.cli]
          show _ <+: (Ask.sents (Ask.data c.env c.depth c.cls s.cli _).log).flatMap _
          rw [hlog, hi.sents, List.flatMap_map]
          refine (List.take_prefix ..).trans ?_
          rw [hw, show m = k + (m - k) by omega, List.range_add, List.flatMap_append]
          exact List.prefix_append .. }

theorem inv_run {w w' : σ} {Q : List Query} {acts : List Act} {rs} (hg : Good c w Q w' acts rs) (h : List Ev) (hp : asked h <+: Q) :
    ∃ ch bs, Inv c w Q rs (asked h).length (run c (Net.init c w) h) ch bs := by
  induction h using snocInd with
  | nil => exact ⟨_, _, inv_init w Q rs⟩
  | snoc h e ih =>
    rw [asked_append] at hp
    obtain ⟨ch, bs, hi⟩ := ih ((List.prefix_append ..).trans hp)
    rw [run_snoc, asked_append, List.length_append]
    refine inv_step hg hi e (fun n cmd args he => ?_) ((List.prefix_append ..).trans hp).length_le
    subst he
    obtain ⟨r, hr⟩ := hp
    have : Q[(asked h).length]? = some ⟨n, cmd, args⟩ := by
      rw [← hr, List.append_assoc, List.getElem?_append_right (Nat.le_refl _)]
      simp [asked]
    refine ⟨(List.getElem?_eq_some_iff.mp this).1, ?_⟩
    rw [req, this]
    rfl

end Verif.Spmp.AskNet
