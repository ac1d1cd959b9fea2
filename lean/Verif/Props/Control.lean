import Verif.Lemmas.ControlPkt
/-! # C93: commands and raw packets on one control connection -/
namespace Verif.Control
open Verif.Vnic

/-- The packets, each with what lies between it and the packet before. -/
def items (c : Classes) : Bytes → List Cmd → List (Bytes × Val)
  | _, [] => []
  | g, m :: l =>
    if m.framed then (g ++ framePrefix (ser c.env (m.val c)).length, m.val c) :: items c (frameSuffix (ser c.env (m.val c)).length) l
    else (g, m.val c) :: items c [] l

theorem items_vals (c : Classes) : ∀ (l : List Cmd) (g : Bytes), (items c g l).map (·.2) = l.map (Cmd.val c)
  | [], _ => rfl
  | m :: l, g => by
    unfold items
    split
    · rw [List.map_cons, List.map_cons, items_vals c l]
    · rw [List.map_cons, List.map_cons, items_vals c l]

theorem items_snoc (c : Classes) (x : Cmd) (hx : x.framed = false) : ∀ (l : List Cmd) (g : Bytes), ∃ g', items c g (l ++ [x]) = items c g l ++ [(g', x.val c)]
  | [], g => ⟨g, by simp [items, hx]⟩
  | m :: l, g => by
    rw [List.cons_append]
    unfold items
    split
    · obtain ⟨g', e⟩ := items_snoc c x hx l (frameSuffix (ser c.env (m.val c)).length)
      exact ⟨g', by rw [e]; rfl⟩
    · obtain ⟨g', e⟩ := items_snoc c x hx l []
      exact ⟨g', by rw [e]; rfl⟩

theorem items_wire {c : Classes} (hc : c.Ok) (x : Cmd) (hx : x.framed = false) : ∀ (l : List Cmd), (∀ m ∈ l, m.Fits) → ∀ g : Bytes,
    wire c.env (items c g (l ++ [x])) = g ++ l.flatMap (Cmd.bytes c) ++ ser c.env (x.val c)
  | [], _, g => by simp [items, hx, wire]
  | m :: l, hf, g => by
    have ih := items_wire hc x hx l fun m' hm => hf m' (by simp [hm])
    rw [List.cons_append, items]
    by_cases h : m.framed = true
    · have := fser_eq ((hf m (by simp)).ok hc).1
      rw [if_pos h, wire_cons, ih, List.flatMap_cons, show m.bytes c = fser c.env (m.val c) by rw [Cmd.bytes, if_pos h], this, frame]
      simp [List.append_assoc]
    · rw [if_neg h, wire_cons, ih, List.flatMap_cons, show m.bytes c = ser c.env (m.val c) by rw [Cmd.bytes, if_neg h]]
      simp [List.append_assoc]

theorem items_ok {c : Classes} (hc : c.Ok) (depth : Nat) : ∀ (l : List Cmd) (after : Bool) (g : Bytes), (∀ m ∈ l, m.Fits) → Steady c after l →
    (after = false → g = []) → (after = true → ∃ n, n < 2 ^ 31 ∧ g = frameSuffix n) → ∀ x ∈ items c g l, ItemOK c.env (depth + 1) c.packetType x
  | [], _, _, _, _, _, _, x, hx => nomatch hx
  | m :: l, after, g, hf, hs, h0, h1, x, hx => by
    have hm := hf m (by simp)
    obtain ⟨hok, hlen⟩ := hm.ok hc
    obtain ⟨hd1, hd2⟩ := hm.decodes hc depth
    obtain ⟨r, hr⟩ := hm.header hc
    have hcar := carried_of_decodes hc.registered hd1 hd2
    have hf' : ∀ m' ∈ l, m'.Fits := fun m' h => hf m' (by simp [h])
    obtain ⟨hs1, hs2⟩ := hs
    unfold items at hx
    by_cases h : m.framed = true
    · rw [if_pos h] at hx hs1
      rcases List.mem_cons.mp hx with rfl | hx
      · refine ⟨hcar, ?_⟩
        show CleanGarbage (g ++ framePrefix _) (ser c.env (m.val c))
        cases after with
        | false =>
          rw [h0 rfl, List.nil_append, hr]
          have := clean_prefix hlen hs1 r
          rwa [← hr] at this ⊢
        | true =>
          obtain ⟨n, hn, rfl⟩ := h1 rfl
          have := clean_between hn hlen hs1 r
          rwa [← hr] at this
      · exact items_ok hc depth l m.framed _ hf' hs2 (fun e => by rw [h] at e; cases e) (fun _ => ⟨_, hlen, rfl⟩) x hx
    · rw [if_neg h] at hx hs1
      rcases List.mem_cons.mp hx with rfl | hx
      · refine ⟨hcar, ?_⟩
        show CleanGarbage g (ser c.env (m.val c))
        cases after with
        | false => rw [h0 rfl]; exact cleanGarbage_nil _
        | true =>
          obtain ⟨n, hn, rfl⟩ := h1 rfl
          have := clean_suffix hn hlen (hs1 rfl) r
          rwa [← hr] at this
      · exact items_ok hc depth l m.framed _ hf' hs2 (fun _ => rfl) (fun e => absurd e h) x hx

theorem start_len {c : Classes} (hc : c.Ok) : (ser c.env (Cmd.val c .startDump)).length = 51 := by
  obtain ⟨hdr, hh, hhl⟩ := Link.header_ok (16 + (1 + (utf8 startDef.ident).length) + (1 + (utf8 startDef.version).length) + ((beEnc 2 0).length + ([] : Bytes).length))
    (utf8 startDef.ident) (utf8 startDef.version) (by decide +kernel) (by decide +kernel) (by decide +kernel)
  have hser := Spmp.ser_packet (cls := c.startC) (fs := .nil) (tags := []) (n := 0) hc.startIs rfl rfl (packU_nat (w := 2) (v := 0) (by omega)) (by rw [show startDef.fields = .nil from rfl, encF]) hh
  rw [Cmd.val, ser_eq hser]
  have e1 : (utf8 startDef.ident).length = 28 := by decide +kernel
  have e2 : (utf8 startDef.version).length = 3 := by decide +kernel
  simp [hhl, e1, e2]

theorem steady_snoc {c : Classes} (hc : c.Ok) : ∀ (l : List Cmd) (after : Bool), Steady c after l → Steady c after (l ++ [.startDump])
  | [], after, _ => ⟨by rw [if_neg (by simp [Cmd.framed])]; intro _; rw [start_len hc]; omega, trivial⟩
  | m :: l, after, h => ⟨h.1, steady_snoc hc l _ h.2⟩

/-- The packets that the Deserializer gives, for any cuts. -/
theorem packets {c : Classes} (hc : c.Ok) (depth : Nat) (l : List Cmd) (hf : ∀ m ∈ l, m.Fits) (hs : Steady c false l) (bs : List Bytes)
    (hb : bs.flatten = l.flatMap (Cmd.bytes c)) :
    (runOps c.env (depth + 1) c.packetType (.init c.env (depth + 1) c.packetType) (Spmp.opsOf bs)).1 = l.map fun m => .packet (m.val c) := by
  rcases List.eq_nil_or_concat bs with rfl | ⟨bs', b, rfl⟩
  · cases l with
    | nil => rfl
    | cons m l =>
      exfalso
      rw [List.flatMap_cons, List.flatten_nil] at hb
      have h1 := (List.append_eq_nil_iff.mp hb.symm).1
      have hm := hf m (by simp)
      obtain ⟨r, hr⟩ := hm.header hc
      unfold Cmd.bytes at h1
      split at h1
      · rw [fser_eq (hm.ok hc).1] at h1
        have := congrArg List.length h1
        simp [frame] at this
      · rw [hr] at h1
        have := congrArg List.length h1
        simp at this
  · rw [List.concat_eq_append] at hb ⊢
    have hfits : ∀ m ∈ l ++ [Cmd.startDump], m.Fits := by
      intro m hm
      rcases List.mem_append.mp hm with hm | hm
      · exact hf m hm
      · rw [List.mem_singleton.mp hm]; trivial
    have hq := items_ok hc depth (l ++ [.startDump]) false [] hfits (steady_snoc hc l false hs) (fun _ => rfl) (fun h => nomatch h)
    have hw := items_wire hc .startDump rfl l hf []
    rw [List.nil_append, ← hb] at hw
    obtain ⟨g', hg⟩ := items_snoc c .startDump rfl l []
    have hinit : Inv c.env (depth + 1) c.packetType (.init c.env (depth + 1) c.packetType) (items c [] (l ++ [.startDump]))
        (received (Spmp.opsOf bs' ++ [.update b]) ++ ser c.env (Cmd.val c .startDump)) := by
      refine Inv.init hc.registered hq ?_
      rw [hw]
      have h := Spmp.received_opsOf (bs' ++ [b])
      rw [Spmp.opsOf_snoc] at h
      have h2 : ∀ o : List DOp, received (o ++ [.next]) = received o := by
        intro o
        induction o with
        | nil => rfl
        | cons x o ih => cases x <;> simp [received, ih]
      rw [h2] at h
      rw [h]; rfl
    obtain ⟨done, left, st', e1, e2, e3⟩ := Inv.ops hc.registered _ _ _ _ hq hinit
    obtain ⟨d2, l2, s2, g1, g2, g3⟩ := Inv.next hc.registered (st'.buf.length + 1) left st' _ (fun x hx => hq x (by rw [e1]; simp [hx])) e3 (by omega)
    have hlen := start_len hc
    rw [hg] at e1
    have key : ∃ x, l2 = [x] := by
      cases l2 with
      | nil =>
        have := g3.1
        rw [show (ser c.env (Cmd.val c .startDump)) = [] from this.1] at hlen
        simp at hlen
      | cons q qs =>
        cases qs with
        | nil => exact ⟨q, rfl⟩
        | cons y ys =>
          exfalso
          have hlt : (wire c.env (y :: ys)).length < (ser c.env (Cmd.val c .startDump)).length := g3.2
          obtain ⟨zs, z, hz⟩ : ∃ zs z, y :: ys = zs ++ [z] := by
            rcases List.eq_nil_or_concat (y :: ys) with h | ⟨zs, z, h⟩
            · cases h
            · exact ⟨zs, z, by rw [h, List.concat_eq_append]⟩
          rw [g1, hz] at e1
          have e1' : items c [] l ++ [(g', Cmd.val c .startDump)] = (done ++ (d2 ++ q :: zs)) ++ [z] := by simpa using e1
          have := (List.append_inj' e1' rfl).2
          cases this
          rw [hz] at hlt
          simp [wire] at hlt
          omega
    obtain ⟨x, rfl⟩ := key
    rw [g1] at e1
    have e1' : items c [] l ++ [(g', Cmd.val c .startDump)] = (done ++ d2) ++ [x] := by simpa using e1
    have hdone := (List.append_inj' e1' rfl).1
    rw [Spmp.opsOf_snoc, runOps_append, e2]
    simp only [runOps, DState.next, g2, List.append_nil]
    rw [← List.map_append, ← hdone]
    have := items_vals c l []
    rw [show (fun m : Cmd => Event.packet (m.val c)) = Event.packet ∘ Cmd.val c from rfl, ← List.map_map, ← this, List.map_map]
    rfl

theorem loop_eq {c : Classes} (hc : c.Ok) (depth p : Nat) : ∀ (n : Nat) (d : DState) (s : St) (ms : List Cmd), (∀ m ∈ ms, m.Fits) →
    (nextLoop c.env depth c.packetType n d).1 = ms.map (fun m => .packet (m.val c)) →
    loop c depth p n d s = ((nextLoop c.env depth c.packetType n d).2.1, exec s (ms.map (Cmd.ev p)))
  | 0, d, s, ms, _, he => by
    cases ms with
    | nil => rfl
    | cons m ms => simp [nextLoop] at he
  | n + 1, d, s, ms, hf, he => by
    unfold loop
    unfold nextLoop at he ⊢
    cases hi : d.iter c.env depth c.packetType with
    | mk o d' =>
      rw [hi] at he
      cases o with
      | none =>
        cases ms with
        | nil => rfl
        | cons m ms => simp at he
      | some e =>
        dsimp only at he ⊢
        cases ms with
        | nil => simp at he
        | cons m ms =>
          simp only [List.map_cons, List.cons.injEq] at he
          obtain ⟨rfl, he⟩ := he
          dsimp only
          rw [ofVal_val hc]
          dsimp only
          have hr : raises s p m = false := by
            have := hf m (by simp)
            cases m with
            | openSocket i a q r =>
              cases r with
              | other => exact this.2.2.2.elim
              | _ => rfl
            | _ => rfl
          rw [hr, if_neg Bool.false_ne_true, List.map_cons, exec]
          exact loop_eq hc depth p n d' _ ms (fun x hx => hf x (by simp [hx])) he

theorem run_eq {c : Classes} (hc : c.Ok) (depth p : Nat) : ∀ (h : List In) (d : DState) (s : St) (ms : List Cmd), (∀ m ∈ ms, m.Fits) →
    (runOps c.env depth c.packetType d (Spmp.opsOf (chunksOf h))).1 = ms.map (fun m => .packet (m.val c)) →
    ∃ t : List (Bool × Ev), (run c depth p d s h).2 = exec s (t.map (·.2)) ∧ (t.filter (·.1)).map (·.2) = ms.map (Cmd.ev p) ∧
      (t.filter fun x => !x.1).map (·.2) = othersOf h
  | [], d, s, ms, _, he => by
    cases ms with
    | nil => exact ⟨[], rfl, rfl, rfl⟩
    | cons m ms => simp [chunksOf, Spmp.opsOf, runOps] at he
  | .other e :: h, d, s, ms, hf, he => by
    obtain ⟨t, e1, e2, e3⟩ := run_eq hc depth p h d (step s e) ms hf he
    exact ⟨(false, e) :: t, e1, e2, by simpa [othersOf] using e3⟩
  | .bytes b :: h, d, s, ms, hf, he => by
    simp only [chunksOf, Spmp.opsOf, List.flatMap_cons, List.cons_append, List.nil_append, runOps] at he
    obtain ⟨m1, m2, rfl, h1, h2⟩ := List.append_eq_map_iff.mp he
    have hd : data c depth p d s b = ((DState.next c.env depth c.packetType (d.update b)).2.1, exec s (m1.map (Cmd.ev p))) :=
      loop_eq hc depth p _ (d.update b) s m1 (fun m hm => hf m (by simp [hm])) h1.symm
    obtain ⟨t, e1, e2, e3⟩ := run_eq hc depth p h (DState.next c.env depth c.packetType (d.update b)).2.1 (exec s (m1.map (Cmd.ev p))) m2 (fun m hm => hf m (by simp [hm])) h2.symm
    have hex : ∀ (l : List Ev) (s : St) (l' : List Ev), exec (exec s l) l' = exec s (l ++ l') := by
      intro l
      induction l with
      | nil => exact fun s l' => rfl
      | cons x l ih => exact fun s l' => ih _ _
    refine ⟨(m1.map (Cmd.ev p)).map (fun e => (true, e)) ++ t, ?_, ?_, ?_⟩
    · rw [run, hd]
      dsimp only
      rw [e1, hex, List.map_append, List.map_map]
      congr 2
      exact (List.map_id _).symm
    · have : ((m1.map (Cmd.ev p)).map (fun e => (true, e))).filter (·.1) = (m1.map (Cmd.ev p)).map (fun e => (true, e)) := by
        rw [List.filter_eq_self]
        intro a ha
        obtain ⟨x, _, rfl⟩ := List.mem_map.mp ha
        rfl
      rw [List.filter_append, this, List.map_append, e2, List.map_append, List.map_map]
      congr 1
      exact List.map_id _
    · have : ((m1.map (Cmd.ev p)).map (fun e => (true, e))).filter (fun x => !x.1) = [] := by
        rw [List.filter_eq_nil_iff]
        intro a ha
        obtain ⟨x, _, rfl⟩ := List.mem_map.mp ha
        simp
      rw [List.filter_append, this, List.nil_append, e3]
      rfl

theorem ev_means (p : Nat) : Cmd.ev p = Cmd.means p := funext fun m => by cases m <;> rfl

theorem loop_any (c : Classes) (depth p : Nat) : ∀ (n : Nat) (d : DState) (s : St), ∃ l rest,
    commandsIn c (nextLoop c.env depth c.packetType n d).1 = l ++ rest ∧ (loop c depth p n d s).2 = exec s (l.map (Cmd.ev p)) ∧
      (rest ≠ [] → ∃ l' i a q, l = l' ++ [.openSocket i a q .other] ∧ ((exec s (l'.map (Cmd.ev p))).ids p).has i = false)
  | 0, d, s => ⟨[], [], rfl, rfl, fun h => absurd rfl h⟩
  | n + 1, d, s => by
    unfold loop nextLoop
    cases hi : d.iter c.env depth c.packetType with
    | mk o d' =>
      cases o with
      | none => exact ⟨[], [], rfl, rfl, fun h => absurd rfl h⟩
      | some e =>
        cases e with
        | error x => exact loop_any c depth p n d' s
        | packet v =>
          dsimp only [commandsIn]
          cases hv : ofVal c v with
          | none => exact loop_any c depth p n d' s
          | some m =>
            dsimp only
            cases hr : raises s p m with
            | true =>
              rw [if_pos rfl]
              refine ⟨[m], _, rfl, rfl, fun _ => ?_⟩
              cases m with
              | openSocket i a q r =>
                cases r with
                | other =>
                  refine ⟨[], i, a, q, rfl, ?_⟩
                  simp only [raises, Bool.and_eq_true, Bool.not_eq_true'] at hr
                  exact hr.2
                | _ => cases hr
              | _ => cases hr
            | false =>
              rw [if_neg Bool.false_ne_true]
              obtain ⟨l, rest, h1, h2, h3⟩ := loop_any c depth p n d' (step s (m.ev p))
              refine ⟨m :: l, rest, ?_, h2, fun h => ?_⟩
              · rw [h1]; rfl
              · obtain ⟨l', i, a, q, e, hid⟩ := h3 h
                exact ⟨m :: l', i, a, q, by rw [e]; rfl, hid⟩

/-- C93: whatever bytes come, from whomever: the VNIC carries out the commands that can be read in them, in order; it stops only behind a request to open a socket that
says neither connect nor listen, with an unused id. -/
theorem C93_any (c : Classes) (depth p : Nat) (d : DState) (s : St) (b : Bytes) : ∃ l rest,
    commandsIn c ((d.update b).next c.env depth c.packetType).1 = l ++ rest ∧ (data c depth p d s b).2 = exec s (l.map (Cmd.means p)) ∧
      (rest ≠ [] → ∃ l' i a q, l = l' ++ [.openSocket i a q .other] ∧ ((exec s (l'.map (Cmd.means p))).ids p).has i = false) := by
  rw [← ev_means]
  exact loop_any c depth p _ _ s

/-- C93: commands and raw packets that a client writes on a control connection, cut into chunks in any way and with any other events at the VNIC in between: the
VNIC carries out exactly these commands, once and in order, and sends these raw packets; the other events happen in their order. It is restricted to sizes that
keep the receiver in step. -/
theorem C93_carried_out_partial {c : Classes} (hc : c.Ok) (depth p : Nat) (s : St) (ms : List Cmd) (hf : ∀ m ∈ ms, m.Fits) (hs : Steady c false ms)
    (h : List In) (hb : (chunksOf h).flatten = ms.flatMap (Cmd.bytes c)) :
    ∃ t : List (Bool × Ev), (run c (depth + 1) p (.init c.env (depth + 1) c.packetType) s h).2 = exec s (t.map (·.2)) ∧
      (t.filter (·.1)).map (·.2) = ms.map (Cmd.means p) ∧ (t.filter fun x => !x.1).map (·.2) = othersOf h := by
  rw [← ev_means]
  exact run_eq hc (depth + 1) p h _ s ms hf (packets hc depth ms hf hs (chunksOf h) hb)

/-- C93: without raw packets the sizes do not matter. -/
theorem C93_commands {c : Classes} (hc : c.Ok) (depth p : Nat) (s : St) (ms : List Cmd) (hf : ∀ m ∈ ms, m.Fits) (hn : ∀ m ∈ ms, ∀ k d, m ≠ .raw k d)
    (h : List In) (hb : (chunksOf h).flatten = ms.flatMap (Cmd.bytes c)) :
    ∃ t : List (Bool × Ev), (run c (depth + 1) p (.init c.env (depth + 1) c.packetType) s h).2 = exec s (t.map (·.2)) ∧
      (t.filter (·.1)).map (·.2) = ms.map (Cmd.means p) ∧ (t.filter fun x => !x.1).map (·.2) = othersOf h := by
  refine C93_carried_out_partial hc depth p s ms hf ?_ h hb
  have hfr : ∀ m ∈ ms, m.framed = false := by
    intro m hm
    cases m with
    | raw k d => exact absurd rfl (hn _ hm k d)
    | _ => rfl
  clear hf hn hb
  induction ms with
  | nil => trivial
  | cons m ms ih =>
    have h1 := hfr m (by simp)
    refine ⟨by rw [if_neg (by simp [h1])]; exact (fun h => nomatch h), ?_⟩
    rw [h1]
    exact ih fun x hx => hfr x (by simp [hx])

/-! ## Examples, and what does not hold -/

/-- Classes 1 to 5; 0 is `PacketType`. -/
def cEnv : Env where
  classDef := fun c => if c = 1 then some openDef else if c = 2 then some closeDef else if c = 3 then some startDef else if c = 4 then some stopDef
    else if c = 5 then some Link.wireDef else none
  isSub := fun c b => b == 0 || b == c
  lookup := fun _ name v => if v ≠ ⟨1, 0⟩ then .ok none else if name = openDef.ident then .ok (some 1) else if name = closeDef.ident then .ok (some 2)
    else if name = startDef.ident then .ok (some 3) else if name = stopDef.ident then .ok (some 4) else if name = Link.wireDef.ident then .ok (some 5) else .ok none

def cClasses : Classes := ⟨cEnv, 0, 1, 2, 3, 4, 5⟩

theorem cOk : cClasses.Ok := by
  refine ⟨?_, rfl, rfl, rfl, rfl, rfl, fun _ _ => rfl, by decide⟩
  intro cls d base h _
  have h : cEnv.classDef cls = some d := h
  show ∃ v, Version.fromString d.version = some v ∧ cEnv.lookup base d.ident v = .ok (some cls)
  unfold cEnv at h ⊢
  dsimp only at h ⊢
  split at h
  · next hc => cases h; exact ⟨⟨1, 0⟩, by decide +kernel, by rw [hc]; decide +kernel⟩
  · split at h
    · next hc => cases h; exact ⟨⟨1, 0⟩, by decide +kernel, by rw [hc]; decide +kernel⟩
    · split at h
      · next hc => cases h; exact ⟨⟨1, 0⟩, by decide +kernel, by rw [hc]; decide +kernel⟩
      · split at h
        · next hc => cases h; exact ⟨⟨1, 0⟩, by decide +kernel, by rw [hc]; decide +kernel⟩
        · split at h
          · next hc => cases h; exact ⟨⟨1, 0⟩, by decide +kernel, by rw [hc]; decide +kernel⟩
          · cases h

/-- What the VNIC does when control connection 1 gets these chunks. -/
def outOf (bs : List Bytes) : List Eff :=
  (run cClasses 2 1 (.init cEnv 2 0) (exec (St.init "9.9.9.9".toList) [.linkUp, .ctlMade 1]) (bs.map .bytes)).2.out

def rawKey : Key := ⟨"1.1.1.1".toList, 1, "2.2.2.2".toList, 2⟩

/-- Two commands and two raw packets. -/
def session : List Cmd := [.openSocket 7 "127.0.0.1".toList 900 (.listen 80), .raw rawKey [1, 2, 3], .raw rawKey [4], .closeSocket 7]

theorem session_fits : (∀ m ∈ session, m.Fits) ∧ Steady cClasses false session := by
  constructor
  · intro m hm
    simp only [session, List.mem_cons, List.not_mem_nil, or_false] at hm
    rcases hm with rfl | rfl | rfl | rfl
    · exact ⟨by decide, ⟨by decide, by decide⟩, by decide, by decide⟩
    · exact ⟨⟨by decide, by decide⟩, by decide, ⟨by decide, by decide⟩, by decide, by decide⟩
    · exact ⟨⟨by decide, by decide⟩, by decide, ⟨by decide, by decide⟩, by decide, by decide⟩
    · exact (by decide : 7 < 2 ^ 32)
  · have e1 : ¬ Slips (ser cEnv (Cmd.val cClasses (.raw rawKey [1, 2, 3]))).length := by decide +kernel
    have e2 : ¬ Slips (ser cEnv (Cmd.val cClasses (.raw rawKey [4]))).length := by decide +kernel
    have e3 : (ser cEnv (Cmd.val cClasses (.closeSocket 7))).length % 256 ≠ 175 := by decide +kernel
    exact ⟨(fun h => nomatch h), e1, e2, fun _ => e3, trivial⟩

example : outOf [(session.flatMap (Cmd.bytes cClasses)).take 100, ((session.flatMap (Cmd.bytes cClasses)).drop 100).take 150, (session.flatMap (Cmd.bytes cClasses)).drop 250] =
    [.respond 1 7 (.port 80), .link rawKey [1, 2, 3], .link rawKey [4]] := by decide +kernel

/-- C93 is false for raw packets of some sizes: the packet is lost. One byte of data less, and it is sent. -/
theorem C93_false_slips : ∃ k d x, Cmd.Fits (.raw k (x :: d)) ∧ (ser cEnv (Cmd.val cClasses (.raw k (x :: d)))).length = 359 ∧ outOf [Cmd.bytes cClasses (.raw k (x :: d))] = [] ∧
    outOf [Cmd.bytes cClasses (.raw k d)] = [.link k d] :=
  ⟨rawKey, List.replicate 275 0, 0, ⟨⟨by decide, by decide⟩, by decide, ⟨by decide, by decide⟩, by decide, by decide +kernel⟩, by decide +kernel, by decide +kernel, by decide +kernel⟩

/-- C93 is false for commands behind such a packet: whoever chooses the data of a raw packet can have the commands that arrive with it thrown away. -/
theorem C93_false_swallowed : ∃ k d, Cmd.Fits (.raw k d) ∧ outOf [Cmd.bytes cClasses (.openSocket 7 "127.0.0.1".toList 900 (.listen 80))] = [.respond 1 7 (.port 80)] ∧
    outOf [Cmd.bytes cClasses (.raw k d) ++ Cmd.bytes cClasses (.openSocket 7 "127.0.0.1".toList 900 (.listen 80))] = [] :=
  ⟨rawKey, List.replicate 85 0 ++ [3, 49, 46, 48] ++ List.replicate 187 0, ⟨⟨by decide, by decide⟩, by decide, ⟨by decide, by decide⟩, by decide, by decide +kernel⟩,
    by decide +kernel, by decide +kernel⟩

/-- C93 is false for commands of some sizes directly behind a raw packet: the command is lost. -/
theorem C93_false_after_raw : ∃ m : Cmd, m.Fits ∧ (ser cEnv (m.val cClasses)).length = 175 ∧ outOf [m.bytes cClasses] = [.respond 1 7 (.port 2000)] ∧
    outOf [Cmd.bytes cClasses (.raw rawKey [4]) ++ m.bytes cClasses] = [.link rawKey [4]] :=
  ⟨.openSocket 7 "127.0.0.1".toList 900 (.connect (List.replicate 88 'x') 80), ⟨by decide, ⟨by decide, by decide⟩, by decide, ⟨by decide +kernel, by decide⟩, by decide⟩, by decide +kernel,
    by decide +kernel, by decide +kernel⟩

/-- C93 is false behind a request to open a socket that says neither: the command in the same chunk is carried out only when more bytes come. -/
theorem C93_false_neither : ∃ m : Cmd, outOf [m.bytes cClasses ++ Cmd.bytes cClasses (.openSocket 7 "127.0.0.1".toList 900 (.listen 80))] = outOf [m.bytes cClasses] ∧
    outOf [m.bytes cClasses ++ Cmd.bytes cClasses (.openSocket 7 "127.0.0.1".toList 900 (.listen 80)), [0]] = outOf [m.bytes cClasses] ++ [.respond 1 7 (.port 80)] :=
  ⟨.openSocket 8 "127.0.0.1".toList 900 .other, by decide +kernel, by decide +kernel⟩

/-- Something unknown in front of a command. -/
example : outOf [ser cEnv (.packet 9 .nil) ++ [1, 2] ++ Cmd.bytes cClasses (.openSocket 7 "127.0.0.1".toList 900 (.listen 80))] = [.respond 1 7 (.port 80)] := by decide +kernel

end Verif.Control
