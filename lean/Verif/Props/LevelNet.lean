import Verif.Spec.LevelNet
import Verif.Lemmas.Session
import Verif.Props.Promiscuous
/-! # C111: the promiscuous level over control connections -/
namespace Verif.LevelNet
open Prom (Phase nextPhase phaseFrom)

/-! ## The packets -/

theorem bytes_eq (c : Cfg) : bytesOf c = ser c.env := rfl

theorem level_fields : levelDef.fields = .cons "set" none true (Link.uint 8) (.cons "get" none true (Link.uint 8) .nil) := rfl

theorem level_tags : processFields levelDef.fields = .ok [0, 1] := by decide +kernel

theorem item_of {c : Cfg} (hc : c.Ok) {base : Cls} {v : Val} (hs : FramedSendable c.env base v) : ItemOK c.env c.depth base ([], v) := by
  obtain ⟨d, hd⟩ : ∃ d, c.depth = d + 1 := ⟨c.depth - 1, by have := hc.depth; omega⟩
  refine ⟨?_, cleanGarbage_nil _⟩
  rw [hd]
  obtain ⟨cls, fs, e, hfl⟩ := hs.flat
  have ha := hs.ascii
  have hs := hs.inv.1
  rw [e] at ha hs
  show Carried _ _ _ v
  rw [e]
  exact carried_of_decodes hc.registered hs (C01_roundtrip_flat_partial hc.registered hs hfl (by simpa [asciiV] using ha))

theorem ask_item {c : Cfg} (hc : c.Ok) : ItemOK c.env c.depth c.packetType ([], .packet c.levelC (.unset (.unset .nil))) :=
  item_of hc (Control.ok_of_body (n := 0) (body := []) hc.levelIs hc.subs.1 level_tags (by rw [level_fields]; rfl) (by omega)
    (by rw [level_fields, Link.encF_unset, Link.encF_unset, encF]) (by simp) (by decide +kernel) (by decide +kernel)
    (by rw [level_fields]; simp [acceptsF]) (by simp [flatF]) (by simp [asciiF])).1

theorem set_item {c : Cfg} (hc : c.Ok) {l : Nat} (hl : l < 256) : ItemOK c.env c.depth c.packetType ([], .packet c.levelC (.set (.num l) (.unset .nil))) :=
  item_of hc (Control.ok_of_body (n := 1) hc.levelIs hc.subs.1 level_tags (by rw [level_fields]; rfl) (by omega)
    (by rw [level_fields]; exact Link.encF_set (by omega) (Session.enc8 (by omega)) (by rw [Link.encF_unset, encF])) (by simp) (by decide +kernel) (by decide +kernel)
    (by rw [level_fields]; simp [acceptsF, Link.validates_nat, hl]) (by simp [flatF, flatV]) (by simp [asciiF, asciiV])).1

theorem reply_item {c : Cfg} (hc : c.Ok) {l : Nat} (hl : l < 256) : ItemOK c.env c.depth c.levelC ([], reply c l) :=
  item_of hc (Control.ok_of_body (n := 1) hc.levelIs hc.subs.2 level_tags (by rw [level_fields]; rfl) (by omega)
    (by rw [level_fields, Link.encF_unset]; exact Link.encF_set (by omega) (Session.enc8 (by omega)) (by rw [encF])) (by simp) (by decide +kernel) (by decide +kernel)
    (by rw [level_fields]; simp [acceptsF, Link.validates_nat, hl]) (by simp [flatF, flatV]) (by simp [asciiF, asciiV])).1

theorem request_fits {c : Cfg} (hc : c.Ok) {l : Option Int} (hl : Fits l) :
    ∃ v, request c l = some v ∧ setOf c v = some l ∧ ItemOK c.env c.depth c.packetType ([], v) := by
  cases l with
  | none => exact ⟨_, rfl, by simp [setOf], ask_item hc⟩
  | some l =>
    obtain ⟨h1, h2⟩ := hl
    obtain ⟨n, rfl⟩ := Int.eq_ofNat_of_zero_le h1
    exact ⟨_, by simp only [request]; rw [if_pos ⟨h1, h2⟩], by simp [setOf], set_item hc (by omega)⟩

theorem request_unfit {c : Cfg} {l : Option Int} (hl : ¬ Fits l) : request c l = none := by
  cases l with
  | none => exact absurd trivial hl
  | some l =>
    simp only [request]
    exact if_neg hl

/-! ## The loops -/

theorem vnicLoop_nil {c : Cfg} : ∀ (n : Nat) (d : DState) (s : Prom.St) (out : List Val), (nextLoop c.env c.depth c.packetType n d).1 = [] →
    vnicLoop c n d s out = ((nextLoop c.env c.depth c.packetType n d).2.1, s, out)
  | 0, _, _, _, _ => rfl
  | n + 1, d, s, out, h => by
    unfold vnicLoop
    unfold nextLoop at h ⊢
    cases hi : d.iter c.env c.depth c.packetType with
    | mk o d' =>
      rw [hi] at h
      cases o with
      | none => rfl
      | some e => simp at h

theorem vnicLoop_one {c : Cfg} {v : Val} {l : Option Int} (hv : setOf c v = some l) : ∀ (n : Nat) (d : DState) (s : Prom.St), (nextLoop c.env c.depth c.packetType n d).1 = [.packet v] →
    vnicLoop c n d s [] = ((nextLoop c.env c.depth c.packetType n d).2.1, (control s l).1, match (control s l).2 with
      | none => []
      | some k => [reply c k])
  | 0, _, _, h => by simp [nextLoop] at h
  | n + 1, d, s, h => by
    unfold vnicLoop
    unfold nextLoop at h ⊢
    cases hi : d.iter c.env c.depth c.packetType with
    | mk o d' =>
      rw [hi] at h
      cases o with
      | none => simp at h
      | some e =>
        simp only [List.cons.injEq] at h
        obtain ⟨rfl, h⟩ := h
        dsimp only
        rw [hv]
        dsimp only
        rcases hx : control s l with ⟨s', o⟩
        cases o with
        | none => exact vnicLoop_nil n d' s' _ h
        | some k => exact vnicLoop_nil n d' s' _ h

theorem clientLoop_nil {c : Cfg} : ∀ (n : Nat) (d : DState), (nextLoop c.env c.depth c.levelC n d).1 = [] → clientLoop c n d = ((nextLoop c.env c.depth c.levelC n d).2.1, none)
  | 0, _, _ => rfl
  | n + 1, d, h => by
    unfold clientLoop
    unfold nextLoop at h ⊢
    cases hi : d.iter c.env c.depth c.levelC with
    | mk o d' =>
      rw [hi] at h
      cases o with
      | none => rfl
      | some e => simp at h

theorem clientLoop_one {c : Cfg} {v : Val} : ∀ (n : Nat) (d : DState), (nextLoop c.env c.depth c.levelC n d).1 = [.packet v] → (clientLoop c n d).2 = some v
  | 0, _, h => by simp [nextLoop] at h
  | n + 1, d, h => by
    unfold clientLoop
    unfold nextLoop at h
    cases hi : d.iter c.env c.depth c.levelC with
    | mk o d' =>
      rw [hi] at h
      cases o with
      | none => simp at h
      | some e =>
        simp only [List.cons.injEq] at h
        obtain ⟨rfl, h⟩ := h
        rfl

/-- A chunk where nothing is expected. -/
theorem quiet_chunk {c : Cfg} (hc : c.Ok) {base : Cls} {d : DState} {b : Bytes} (h : Blocked c.env c.depth base d [] (b ++ [])) :
    (nextLoop c.env c.depth base ((d.buf ++ b).length + 1) (d.update b)).1 = [] ∧
    Blocked c.env c.depth base (nextLoop c.env c.depth base ((d.buf ++ b).length + 1) (d.update b)).2.1 [] [] := by
  obtain ⟨k, hd⟩ : ∃ k, c.depth = k + 1 := ⟨c.depth - 1, by have := hc.depth; omega⟩
  rw [hd] at h ⊢
  obtain ⟨done, left, st', e1, e2, e3⟩ := Inv.next hc.registered ((d.buf ++ b).length + 1) _ (d.update b) [] (fun x (hx : x ∈ []) => by cases hx) h.1.update (by simp [DState.update])
  have e4 := List.append_eq_nil_iff.mp e1.symm
  rw [e4.1] at e2
  rw [e4.2] at e3
  rw [e2]
  exact ⟨rfl, e3⟩

/-- A chunk where one packet is expected: it is not complete, or it is the end. -/
theorem one_chunk {c : Cfg} (hc : c.Ok) {base : Cls} {d : DState} {b fut : Bytes} {v : Val} (hv : ItemOK c.env c.depth base ([], v))
    (h : Blocked c.env c.depth base d [([], v)] (b ++ fut)) :
    ((nextLoop c.env c.depth base ((d.buf ++ b).length + 1) (d.update b)).1 = [] ∧
      Blocked c.env c.depth base (nextLoop c.env c.depth base ((d.buf ++ b).length + 1) (d.update b)).2.1 [([], v)] fut) ∨
    ((nextLoop c.env c.depth base ((d.buf ++ b).length + 1) (d.update b)).1 = [.packet v] ∧ fut = [] ∧
      Blocked c.env c.depth base (nextLoop c.env c.depth base ((d.buf ++ b).length + 1) (d.update b)).2.1 [] []) := by
  obtain ⟨k, hd⟩ : ∃ k, c.depth = k + 1 := ⟨c.depth - 1, by have := hc.depth; omega⟩
  rw [hd] at h hv ⊢
  obtain ⟨done, left, st', e1, e2, e3⟩ := Inv.next hc.registered ((d.buf ++ b).length + 1) _ (d.update b) fut
    (fun x hx => by rw [List.mem_singleton.mp hx]; exact hv) h.1.update (by simp [DState.update])
  rw [e2]
  cases done with
  | nil =>
    rw [List.nil_append] at e1
    subst e1
    exact .inl ⟨rfl, e3⟩
  | cons x done =>
    simp only [List.cons_append, List.cons.injEq] at e1
    obtain ⟨rfl, e1⟩ := e1
    obtain ⟨rfl, rfl⟩ := List.append_eq_nil_iff.mp e1.symm
    have hf : fut = [] := e3.1.1
    subst hf
    exact .inr ⟨rfl, rfl, e3⟩

/-! ## The VNIC -/

theorem not_refused {z n d j : Nat} {s : Prom.St} {p : Phase} {k : Nat} (h : Prom.Inv z n d j s p k) (l : Option Int) : refuses s l = false := by
  unfold refuses
  cases p with
  | idle => simp [h.phase.1]
  | opening m => simp [h.phase.1]
  | up m =>
    obtain ⟨p1, p2, _, p4, _⟩ := h.phase
    obtain ⟨b, hb, _⟩ := Prom.parents_wild z n d j (Prom.clampLevel l) (by rw [Prom.clamp_asked]; exact Prom.asked_le l)
    rw [h.addr, hb, p2, p1]
    simp [p4]

theorem control_spec {z n d j : Nat} {s : Prom.St} {p : Phase} {k : Nat} (h : Prom.Inv z n d j s p k) (l : Option Int) :
    (∃ k', Prom.Inv z n d j (control s l).1 p k') ∧ (control s l).1.nTx = s.nTx ∧ (control s l).2 = some (Prom.promiscuousLevel (control s l).1) ∧
    Prom.promiscuousLevel (control s l).1 = levelAfter (Prom.promiscuousLevel s) l := by
  cases l with
  | none => exact ⟨⟨k, h⟩, rfl, rfl, rfl⟩
  | some l =>
    have hs := h.step (e := .setLevel (some l)) (p' := p) (by cases p <;> rfl)
    refine ⟨⟨_, hs.1⟩, by have := hs.2; rwa [if_neg (by simp)] at this, ?_, hs.1.level⟩
    simp only [control, not_refused h, Bool.false_eq_true, if_false]

theorem level_lt {z n d j : Nat} {s : Prom.St} {p : Phase} {k : Nat} (h : Prom.Inv z n d j s p k) : Prom.promiscuousLevel s < 256 := by
  rw [h.level]
  have := h.le
  omega

/-! ## Histories -/

theorem exec_append (c : Cfg) : ∀ (h t : List Ev) (w : World), exec c w (h ++ t) = exec c (exec c w h) t
  | [], _, _ => rfl
  | e :: h, t, w => exec_append c h t _

theorem run_snoc (c : Cfg) (a : Addr) (h : List Ev) (e : Ev) : run c a (h ++ [e]) = step c (run c a h) e := by
  unfold run
  rw [exec_append]
  rfl

theorem nets_append : ∀ h t : List Ev, nets (h ++ t) = nets h ++ nets t
  | [], _ => rfl
  | e :: h, t => by cases e <;> simp [nets, nets_append h t]

theorem Opened.snoc {h : List Ev} {i : Nat} {l : Option Int} (ho : Opened h i l) (e : Ev) : Opened (h ++ [e]) i l := by
  obtain ⟨h1, h2, rfl, h3⟩ := ho
  exact ⟨h1, h2 ++ [e], by simp, h3⟩

theorem Answered.snoc {c : Cfg} {a : Addr} {h : List Ev} {i : Nat} {l : Option Int} {k : Nat} (ho : Answered c a h i l k) (e : Ev) : Answered c a (h ++ [e]) i l k := by
  obtain ⟨h1, n, h2, rfl, h3⟩ := ho
  exact ⟨h1, n, h2 ++ [e], by simp, h3⟩

theorem split_unique {i : Nat} {l m : Option Int} : ∀ {h1 h2 t1 t2 : List Ev}, h1 ++ .open i l :: h2 = t1 ++ .open i m :: t2 → (∀ x, .open i x ∉ h1) → (∀ x, .open i x ∉ t1) → l = m
  | [], _, [], _, h, _, _ => by simp at h; exact h.1
  | [], _, t :: t1, _, h, _, h4 => by simp at h; exact absurd (by rw [← h.1]; simp) (h4 l)
  | t :: h1, _, [], _, h, h3, _ => by simp at h; exact absurd (by rw [h.1]; simp) (h3 m)
  | x :: h1, h2, y :: t1, t2, h, h3, h4 => by
    simp only [List.cons_append, List.cons.injEq] at h
    exact split_unique h.2 (fun z hz => h3 z (by simp [hz])) (fun z hz => h4 z (by simp [hz]))

theorem Opened.unique {h : List Ev} {i : Nat} {l m : Option Int} (h1 : Opened h i l) (h2 : Opened h i m) : l = m := by
  obtain ⟨a1, b1, e1, g1⟩ := h1
  obtain ⟨a2, b2, e2, g2⟩ := h2
  exact split_unique (e1.symm.trans e2) g1 g2

/-- A connection after a history. -/
inductive CInv (c : Cfg) (a : Addr) (h : List Ev) (i : Nat) (x : Conn) : Prop
  | idle (ho : ∀ l, .open i l ∉ h) (hx : x.opened = false) (h1 : x.toVnic = []) (h2 : Blocked c.env c.depth c.packetType x.vd [] [])
      (h3 : x.toClient = []) (h4 : Blocked c.env c.depth c.levelC x.cd [] []) (h5 : x.current = none) (h6 : x.closed = false)
  | mute (l : Option Int) (ho : Opened h i l) (hl : ¬ Fits l) (hx : x.opened = true) (h1 : x.toVnic = []) (h2 : Blocked c.env c.depth c.packetType x.vd [] [])
      (h3 : x.toClient = []) (h4 : Blocked c.env c.depth c.levelC x.cd [] []) (h5 : x.current = none) (h6 : x.closed = false)
  | waiting (l : Option Int) (v : Val) (ho : Opened h i l) (hl : Fits l) (hx : x.opened = true) (hv : setOf c v = some l) (hok : ItemOK c.env c.depth c.packetType ([], v))
      (h1 : Blocked c.env c.depth c.packetType x.vd [([], v)] x.toVnic) (h3 : x.toClient = []) (h4 : Blocked c.env c.depth c.levelC x.cd [] []) (h5 : x.current = none) (h6 : x.closed = false)
  | answered (l : Option Int) (k : Nat) (ho : Opened h i l) (hl : Fits l) (hx : x.opened = true) (hk : k < 256) (ha : Answered c a h i l k) (h1 : x.toVnic = [])
      (h2 : Blocked c.env c.depth c.packetType x.vd [] []) (h3 : Blocked c.env c.depth c.levelC x.cd [([], reply c k)] x.toClient) (h5 : x.current = none) (h6 : x.closed = false)
  | done (l : Option Int) (k : Nat) (ho : Opened h i l) (hl : Fits l) (hx : x.opened = true) (ha : Answered c a h i l k) (h1 : x.toVnic = [])
      (h2 : Blocked c.env c.depth c.packetType x.vd [] []) (h5 : x.current = some k) (h6 : x.closed = true)

theorem not_opened {h : List Ev} {i : Nat} (ho : ∀ l, .open i l ∉ h) {e : Ev} (he : ∀ l, e ≠ .open i l) : ∀ l, .open i l ∉ h ++ [e] := by
  intro l hl
  rcases List.mem_append.mp hl with hl | hl
  · exact ho l hl
  · exact he l (List.mem_singleton.mp hl).symm

theorem CInv.snoc {c : Cfg} {a : Addr} {h : List Ev} {i : Nat} {x : Conn} (hi : CInv c a h i x) (e : Ev) (he : ∀ l, e ≠ .open i l) : CInv c a (h ++ [e]) i x := by
  cases hi with
  | idle ho hx h1 h2 h3 h4 h5 h6 => exact .idle (not_opened ho he) hx h1 h2 h3 h4 h5 h6
  | mute l ho hl hx h1 h2 h3 h4 h5 h6 => exact .mute l (ho.snoc e) hl hx h1 h2 h3 h4 h5 h6
  | waiting l v ho hl hx hv hok h1 h3 h4 h5 h6 => exact .waiting l v (ho.snoc e) hl hx hv hok h1 h3 h4 h5 h6
  | answered l k ho hl hx hk ha h1 h2 h3 h5 h6 => exact .answered l k (ho.snoc e) hl hx hk (ha.snoc e) h1 h2 h3 h5 h6
  | done l k ho hl hx ha h1 h2 h5 h6 => exact .done l k (ho.snoc e) hl hx (ha.snoc e) h1 h2 h5 h6

/-- The same when the connection has been opened before. -/
theorem CInv.snoc' {c : Cfg} {a : Addr} {h : List Ev} {i : Nat} {x : Conn} (hi : CInv c a h i x) (e : Ev) (hx' : x.opened = true) : CInv c a (h ++ [e]) i x := by
  cases hi with
  | idle ho hx => rw [hx] at hx'; cases hx'
  | mute l ho hl hx h1 h2 h3 h4 h5 h6 => exact .mute l (ho.snoc e) hl hx h1 h2 h3 h4 h5 h6
  | waiting l v ho hl hx hv hok h1 h3 h4 h5 h6 => exact .waiting l v (ho.snoc e) hl hx hv hok h1 h3 h4 h5 h6
  | answered l k ho hl hx hk ha h1 h2 h3 h5 h6 => exact .answered l k (ho.snoc e) hl hx hk (ha.snoc e) h1 h2 h3 h5 h6
  | done l k ho hl hx ha h1 h2 h5 h6 => exact .done l k (ho.snoc e) hl hx (ha.snoc e) h1 h2 h5 h6

theorem blocked_init (c : Cfg) (base : Cls) : Blocked c.env c.depth base (.init c.env c.depth base) [] [] := ⟨⟨rfl, rfl, .inl rfl⟩, trivial⟩

/-- The world after a history that has the phase `p`. -/
structure WInv (c : Cfg) (z n d j : Nat) (h : List Ev) (w : World) (p : Phase) : Prop where
  run : w = LevelNet.run c (addr z n d j) h
  vnic : ∃ k, Prom.Inv z n d j w.vnic p k
  conn : ∀ i, CInv c (addr z n d j) h i (w.conn i)

theorem put_same (w : World) (i : Nat) (x : Conn) : (w.put i x).conn i = x := by simp [World.put]

theorem put_other (w : World) {i j : Nat} (x : Conn) (h : j ≠ i) : (w.put i x).conn j = w.conn j := by simp [World.put, h]

/-- Only connection `i` changes. -/
theorem others {c : Cfg} {a : Addr} {h : List Ev} {w : World} (hw : ∀ i, CInv c a h i (w.conn i)) {e : Ev} {i : Nat} {x : Conn} {w' : World} (hw' : w'.conn = (w.put i x).conn)
    (hi : CInv c a (h ++ [e]) i x) (he : ∀ m l, e = .open m l → m = i) : ∀ m, CInv c a (h ++ [e]) m (w'.conn m) := by
  intro m
  rw [hw']
  by_cases hm : m = i
  · subst hm; rw [put_same]; exact hi
  · rw [put_other _ _ hm]; exact (hw m).snoc e (fun l hl => hm (he m l hl))

theorem WInv.init (c : Cfg) (z n d j : Nat) : WInv c z n d j [] (.init c (addr z n d j)) .idle :=
  ⟨rfl, ⟨0, Prom.Inv.init z n d j⟩, fun _ => .idle (fun _ h => nomatch h) rfl rfl (blocked_init c _) rfl (blocked_init c _) rfl rfl⟩

/-- A step at which the VNIC's link does not change. -/
theorem WInv.open {c : Cfg} (hc : c.Ok) {z n d j : Nat} {h : List Ev} {w : World} {p : Phase} (hw : WInv c z n d j h w p) (i : Nat) (l : Option Int) :
    WInv c z n d j (h ++ [.open i l]) (step c w (.open i l)) p ∧ (step c w (.open i l)).vnic = w.vnic := by
  have hr : step c w (.open i l) = LevelNet.run c (addr z n d j) (h ++ [.open i l]) := by rw [run_snoc, hw.run]
  have hv : (step c w (.open i l)).vnic = w.vnic := by
    show (connect c w i l).vnic = _
    unfold connect
    dsimp only
    split <;> rfl
  refine ⟨⟨hr, by rw [hv]; exact hw.vnic, ?_⟩, hv⟩
  show ∀ m, CInv _ _ _ m ((connect c w i l).conn m)
  unfold connect
  rcases Bool.eq_false_or_eq_true (w.conn i).opened with ho | ho
  · rw [if_pos ho]
    intro m
    by_cases hm : m = i
    · subst hm; exact (hw.conn m).snoc' _ ho
    · exact (hw.conn m).snoc _ (fun _ he => by cases he; exact hm rfl)
  · rw [if_neg (by simp [ho])]
    have hi := hw.conn i
    cases hi with
    | idle hno hx h1 h2 h3 h4 h5 h6 =>
      have hop : Opened (h ++ [.open i l]) i l := ⟨h, [], by simp, hno⟩
      refine others hw.conn (i := i) rfl ?_ (fun m l' he => by cases he; rfl)
      by_cases hl : Fits l
      · obtain ⟨v, r1, r2, r3⟩ := request_fits hc hl
        rw [r1]
        refine .waiting l v hop hl rfl r2 r3 ?_ h3 h4 h5 h6
        have := h2.extend hc.registered r3
        simpa [bytes_eq] using this
      · rw [request_unfit hl]
        exact .mute l hop hl rfl rfl h2 h3 h4 h5 h6
    | mute _ _ _ hx => rw [hx] at ho; cases ho
    | waiting _ _ _ _ hx => rw [hx] at ho; cases ho
    | answered _ _ _ _ hx => rw [hx] at ho; cases ho
    | done _ _ _ _ hx => rw [hx] at ho; cases ho

theorem WInv.toVnic {c : Cfg} (hc : c.Ok) {z n d j : Nat} {h : List Ev} {w : World} {p : Phase} (hw : WInv c z n d j h w p) (i m : Nat) :
    WInv c z n d j (h ++ [.toVnic i m]) (step c w (.toVnic i m)) p ∧ (step c w (.toVnic i m)).vnic.nTx = w.vnic.nTx ∧ ((step c w (.toVnic i m)).vnic = w.vnic ∨ ∃ l, Opened h i l ∧ Fits l ∧ (step c w (.toVnic i m)).vnic = (control w.vnic l).1) := by
  have hr : step c w (.toVnic i m) = LevelNet.run c (addr z n d j) (h ++ [.toVnic i m]) := by rw [run_snoc, hw.run]
  -- a chunk that brings nothing
  have calm : ∀ (hn : (nextLoop c.env c.depth c.packetType (((w.conn i).vd.buf ++ (w.conn i).toVnic.take m).length + 1) ((w.conn i).vd.update ((w.conn i).toVnic.take m))).1 = []),
      step c w (.toVnic i m) = w.put i { w.conn i with
        toVnic := (w.conn i).toVnic.drop m, vd := (nextLoop c.env c.depth c.packetType (((w.conn i).vd.buf ++ (w.conn i).toVnic.take m).length + 1) ((w.conn i).vd.update ((w.conn i).toVnic.take m))).2.1 } := by
    intro hn
    show atVnic c w i m = _
    unfold atVnic
    dsimp only
    rw [vnicLoop_nil _ _ _ _ hn]
    simp [World.put]
  have fin : ∀ x, step c w (.toVnic i m) = w.put i x → CInv c (addr z n d j) (h ++ [.toVnic i m]) i x →
      WInv c z n d j (h ++ [.toVnic i m]) (step c w (.toVnic i m)) p ∧ (step c w (.toVnic i m)).vnic.nTx = w.vnic.nTx ∧ ((step c w (.toVnic i m)).vnic = w.vnic ∨ ∃ l, Opened h i l ∧ Fits l ∧ (step c w (.toVnic i m)).vnic = (control w.vnic l).1) := by
    intro x hx hi
    have hv : (step c w (.toVnic i m)).vnic = w.vnic := by rw [hx]; rfl
    exact ⟨⟨hr, by rw [hv]; exact hw.vnic, others hw.conn (by rw [hx]) hi (fun _ _ he => nomatch he)⟩, by rw [hv], .inl hv⟩
  have hi := hw.conn i
  cases hi with
  | idle hno hx h1 h2 h3 h4 h5 h6 =>
    have hq := quiet_chunk hc (base := c.packetType) (d := (w.conn i).vd) (b := (w.conn i).toVnic.take m) (by rw [h1]; simpa using h2)
    exact fin _ (calm hq.1) (.idle (not_opened hno (fun _ he => nomatch he)) hx (by simp [h1]) hq.2 h3 h4 h5 h6)
  | mute l ho hl hx h1 h2 h3 h4 h5 h6 =>
    have hq := quiet_chunk hc (base := c.packetType) (d := (w.conn i).vd) (b := (w.conn i).toVnic.take m) (by rw [h1]; simpa using h2)
    exact fin _ (calm hq.1) (.mute l (ho.snoc _) hl hx (by simp [h1]) hq.2 h3 h4 h5 h6)
  | answered l k ho hl hx hk ha h1 h2 h3 h5 h6 =>
    have hq := quiet_chunk hc (base := c.packetType) (d := (w.conn i).vd) (b := (w.conn i).toVnic.take m) (by rw [h1]; simpa using h2)
    exact fin _ (calm hq.1) (.answered l k (ho.snoc _) hl hx hk (ha.snoc _) (by simp [h1]) hq.2 h3 h5 h6)
  | done l k ho hl hx ha h1 h2 h5 h6 =>
    have hq := quiet_chunk hc (base := c.packetType) (d := (w.conn i).vd) (b := (w.conn i).toVnic.take m) (by rw [h1]; simpa using h2)
    exact fin _ (calm hq.1) (.done l k (ho.snoc _) hl hx (ha.snoc _) (by simp [h1]) hq.2 h5 h6)
  | waiting l v ho hl hx hv hok h1 h3 h4 h5 h6 =>
    have hb : Blocked c.env c.depth c.packetType (w.conn i).vd [([], v)] ((w.conn i).toVnic.take m ++ (w.conn i).toVnic.drop m) := by rw [List.take_append_drop]; exact h1
    rcases one_chunk hc hok hb with ⟨g1, g2⟩ | ⟨g1, g2, g3⟩
    · exact fin _ (calm g1) (.waiting l v (ho.snoc _) hl hx hv hok g2 h3 h4 h5 h6)
    · obtain ⟨k, hk⟩ := hw.vnic
      obtain ⟨⟨k', c1⟩, c2, c3, c4⟩ := control_spec hk l
      have hlt := level_lt c1
      have hs : step c w (.toVnic i m) = World.put { w with vnic := (control w.vnic l).1 } i { w.conn i with
          toVnic := [], toClient := ser c.env (reply c (Prom.promiscuousLevel (control w.vnic l).1)),
          vd := (nextLoop c.env c.depth c.packetType (((w.conn i).vd.buf ++ (w.conn i).toVnic.take m).length + 1) ((w.conn i).vd.update ((w.conn i).toVnic.take m))).2.1 } := by
        show atVnic c w i m = _
        unfold atVnic
        dsimp only
        rw [vnicLoop_one hv _ _ _ g1, c3]
        simp [h3, g2, bytes_eq]
      refine ⟨⟨hr, ⟨k', by rw [hs]; exact c1⟩, others hw.conn (by rw [hs]; rfl) ?_ (fun _ _ he => nomatch he)⟩, by rw [hs]; exact c2, .inr ⟨l, ho, hl, by rw [hs]; rfl⟩⟩
      refine .answered l (Prom.promiscuousLevel (control w.vnic l).1) (ho.snoc _) hl hx hlt ⟨h, m, [], rfl, ho, ?_, ?_⟩ rfl g3 ?_ h5 h6
      · rw [c4]; unfold vnicLevel; rw [← hw.run]
      · unfold vnicLevel; rw [← hr, hs]; rfl
      · have := h4.extend hc.registered (reply_item hc hlt)
        simpa using this

theorem getOf_reply (c : Cfg) (k : Nat) : getOf (reply c k) = some k := rfl

theorem WInv.toClient {c : Cfg} (hc : c.Ok) {z n d j : Nat} {h : List Ev} {w : World} {p : Phase} (hw : WInv c z n d j h w p) (i m : Nat) :
    WInv c z n d j (h ++ [.toClient i m]) (step c w (.toClient i m)) p ∧ (step c w (.toClient i m)).vnic = w.vnic := by
  have hr : step c w (.toClient i m) = LevelNet.run c (addr z n d j) (h ++ [.toClient i m]) := by rw [run_snoc, hw.run]
  have fin : ∀ x, step c w (.toClient i m) = w.put i x → CInv c (addr z n d j) (h ++ [.toClient i m]) i x →
      WInv c z n d j (h ++ [.toClient i m]) (step c w (.toClient i m)) p ∧ (step c w (.toClient i m)).vnic = w.vnic := by
    intro x hx hi
    have hv : (step c w (.toClient i m)).vnic = w.vnic := by rw [hx]; rfl
    exact ⟨⟨hr, by rw [hv]; exact hw.vnic, others hw.conn (by rw [hx]) hi (fun _ _ he => nomatch he)⟩, hv⟩
  have calm : ∀ (_ : (w.conn i).closed = false)
      (_ : (nextLoop c.env c.depth c.levelC (((w.conn i).cd.buf ++ (w.conn i).toClient.take m).length + 1) ((w.conn i).cd.update ((w.conn i).toClient.take m))).1 = []),
      step c w (.toClient i m) = w.put i { w.conn i with
        toClient := (w.conn i).toClient.drop m,
        cd := (nextLoop c.env c.depth c.levelC (((w.conn i).cd.buf ++ (w.conn i).toClient.take m).length + 1) ((w.conn i).cd.update ((w.conn i).toClient.take m))).2.1 } := by
    intro h6 hn
    show atClient c w i m = _
    unfold atClient
    dsimp only
    rw [h6, if_neg Bool.false_ne_true, clientLoop_nil _ _ hn]
  have hi := hw.conn i
  cases hi with
  | idle hno hx h1 h2 h3 h4 h5 h6 =>
    have hq := quiet_chunk hc (base := c.levelC) (d := (w.conn i).cd) (b := (w.conn i).toClient.take m) (by rw [h3]; simpa using h4)
    exact fin _ (calm h6 hq.1) (.idle (not_opened hno (fun _ he => nomatch he)) hx h1 h2 (by simp [h3]) hq.2 h5 h6)
  | mute l ho hl hx h1 h2 h3 h4 h5 h6 =>
    have hq := quiet_chunk hc (base := c.levelC) (d := (w.conn i).cd) (b := (w.conn i).toClient.take m) (by rw [h3]; simpa using h4)
    exact fin _ (calm h6 hq.1) (.mute l (ho.snoc _) hl hx h1 h2 (by simp [h3]) hq.2 h5 h6)
  | waiting l v ho hl hx hv hok h1 h3 h4 h5 h6 =>
    have hq := quiet_chunk hc (base := c.levelC) (d := (w.conn i).cd) (b := (w.conn i).toClient.take m) (by rw [h3]; simpa using h4)
    exact fin _ (calm h6 hq.1) (.waiting l v (ho.snoc _) hl hx hv hok h1 (by simp [h3]) hq.2 h5 h6)
  | done l k ho hl hx ha h1 h2 h5 h6 =>
    have hs : step c w (.toClient i m) = w := by
      show atClient c w i m = _
      unfold atClient
      dsimp only
      rw [if_pos h6]
    refine ⟨⟨hr, by rw [hs]; exact hw.vnic, fun q => ?_⟩, by rw [hs]⟩
    rw [hs]
    exact (hw.conn q).snoc _ (fun _ he => nomatch he)
  | answered l k ho hl hx hk ha h1 h2 h3 h5 h6 =>
    have hb : Blocked c.env c.depth c.levelC (w.conn i).cd [([], reply c k)] ((w.conn i).toClient.take m ++ (w.conn i).toClient.drop m) := by rw [List.take_append_drop]; exact h3
    rcases one_chunk hc (reply_item hc hk) hb with ⟨g1, g2⟩ | ⟨g1, g2, g3⟩
    · exact fin _ (calm h6 g1) (.answered l k (ho.snoc _) hl hx hk (ha.snoc _) h1 h2 g2 h5 h6)
    · have hl1 := clientLoop_one _ _ g1
      rcases hx' : clientLoop c (((w.conn i).cd.buf ++ (w.conn i).toClient.take m).length + 1) ((w.conn i).cd.update ((w.conn i).toClient.take m)) with ⟨d', o⟩
      rw [hx'] at hl1
      subst hl1
      refine fin { w.conn i with toClient := (w.conn i).toClient.drop m, cd := d', closed := true, current := some k } ?_ (.done l k (ho.snoc _) hl hx (ha.snoc _) h1 h2 rfl rfl)
      show atClient c w i m = _
      unfold atClient
      dsimp only
      rw [h6, if_neg Bool.false_ne_true, hx']
      rfl

theorem WInv.net {c : Cfg} {z n d j : Nat} {h : List Ev} {w : World} {p q : Phase} (hw : WInv c z n d j h w p) (e : Prom.Ev) (he : nextPhase w.vnic.nTx p e = some q) :
    WInv c z n d j (h ++ [.net e]) (step c w (.net e)) q ∧ (step c w (.net e)).vnic.nTx = if e = .factory then w.vnic.nTx + 1 else w.vnic.nTx := by
  have hr : step c w (.net e) = LevelNet.run c (addr z n d j) (h ++ [.net e]) := by rw [run_snoc, hw.run]
  obtain ⟨k, hk⟩ := hw.vnic
  obtain ⟨h1, h2⟩ := hk.step he
  exact ⟨⟨hr, ⟨_, h1⟩, fun i => (hw.conn i).snoc _ (fun _ he => nomatch he)⟩, h2⟩

theorem WInv.exec {c : Cfg} (hc : c.Ok) {z n d j : Nat} : ∀ (t h : List Ev) {w : World} {p q : Phase}, WInv c z n d j h w p → phaseFrom w.vnic.nTx p (nets t) = some q →
    WInv c z n d j (h ++ t) (exec c w t) q
  | [], h, w, p, q, hw, hp => by cases hp; rw [List.append_nil]; exact hw
  | e :: t, h, w, p, q, hw, hp => by
    have key : ∀ p', WInv c z n d j (h ++ [e]) (step c w e) p' → phaseFrom (step c w e).vnic.nTx p' (nets t) = some q → WInv c z n d j (h ++ e :: t) (LevelNet.exec c w (e :: t)) q := by
      intro p' h1 h2
      have := WInv.exec hc t (h ++ [e]) h1 h2
      rwa [List.append_assoc] at this
    cases e with
    | «open» i l =>
      obtain ⟨h1, h2⟩ := hw.open hc i l
      exact key p h1 (by rw [h2]; exact hp)
    | toVnic i m =>
      obtain ⟨h1, h2, _⟩ := hw.toVnic hc i m
      exact key p h1 (by rw [h2]; exact hp)
    | toClient i m =>
      obtain ⟨h1, h2⟩ := hw.toClient hc i m
      exact key p h1 (by rw [h2]; exact hp)
    | net x =>
      simp only [nets, phaseFrom] at hp
      split at hp
      · cases hp
      · next p' hp' =>
        obtain ⟨h1, h2⟩ := hw.net x hp'
        exact key p' h1 (by rw [h2]; exact hp)

/-- The number of links that the history has opened. -/
def links (es : List Prom.Ev) : Nat := (es.filter (· == .factory)).length

theorem phaseFrom_append : ∀ (es ts : List Prom.Ev) (n : Nat) (p : Phase), phaseFrom n p (es ++ ts) = (phaseFrom n p es).bind fun q => phaseFrom (n + links es) q ts
  | [], _, _, _ => rfl
  | e :: es, ts, n, p => by
    simp only [List.cons_append, phaseFrom]
    cases nextPhase n p e with
    | none => rfl
    | some p' =>
      dsimp only
      rw [phaseFrom_append es ts]
      congr 1
      funext q
      congr 1
      cases e <;> simp [links, List.filter_cons] <;> omega

theorem exec_links {c : Cfg} (hc : c.Ok) {z n d j : Nat} : ∀ (t h : List Ev) {w : World} {p q : Phase}, WInv c z n d j h w p → phaseFrom w.vnic.nTx p (nets t) = some q →
    (exec c w t).vnic.nTx = w.vnic.nTx + links (nets t)
  | [], _, _, _, _, _, _ => rfl
  | e :: t, h, w, p, q, hw, hp => by
    cases e with
    | «open» i l =>
      obtain ⟨h1, h2⟩ := hw.open hc i l
      have := exec_links hc t _ h1 (by rw [h2]; exact hp)
      rw [h2] at this; exact this
    | toVnic i m =>
      obtain ⟨h1, h2, _⟩ := hw.toVnic hc i m
      have := exec_links hc t _ h1 (by rw [h2]; exact hp)
      rw [h2] at this; exact this
    | toClient i m =>
      obtain ⟨h1, h2⟩ := hw.toClient hc i m
      have := exec_links hc t _ h1 (by rw [h2]; exact hp)
      rw [h2] at this; exact this
    | net x =>
      simp only [nets, phaseFrom] at hp
      split at hp
      · cases hp
      · next p' hp' =>
        obtain ⟨h1, h2⟩ := hw.net x hp'
        have := exec_links hc t _ h1 (by rw [h2]; exact hp)
        rw [h2] at this
        show (LevelNet.exec c (step c w (.net x)) t).vnic.nTx = _
        rw [this]
        cases x <;> simp [links, nets, List.filter_cons] <;> omega

theorem WInv.reachable {c : Cfg} (hc : c.Ok) (z n d j : Nat) {h : List Ev} {q : Phase} (hp : Prom.phase (nets h) = some q) : WInv c z n d j h (LevelNet.run c (addr z n d j) h) q :=
  WInv.exec hc h [] (WInv.init c z n d j) hp

theorem next_of {c : Cfg} (hc : c.Ok) (z n d j : Nat) {h : List Ev} {x : Prom.Ev} {q q' : Phase} (hq : Prom.phase (nets h) = some q') (hp : Prom.phase (nets (h ++ [.net x])) = some q) :
    ∃ q'', nextPhase (LevelNet.run c (addr z n d j) h).vnic.nTx q' x = some q'' := by
  have hl : (LevelNet.run c (addr z n d j) h).vnic.nTx = 0 + links (nets h) := exec_links hc h [] (WInv.init c z n d j) hq
  unfold Prom.phase at hp hq
  rw [nets_append, phaseFrom_append, hq, ← hl] at hp
  simp only [Option.bind, nets, phaseFrom] at hp
  split at hp
  · cases hp
  · next q'' hq'' => exact ⟨q'', hq''⟩

/-! ## The theorems -/

/-- C111. Whatever number of clients set and ask for the level, on connections of their own, however the bytes are cut and interleaved and whatever else happens at the VNIC (a new connection to the switch
being opened only when there is none): a client whose bytes and whose answer have arrived has closed its connection, and the level that it holds is the level of the VNIC just after its own request was
handled: `min(level, 4)` if it set one, else what the VNIC had. -/
theorem C111_answer_partial {c : Cfg} (hc : c.Ok) (z n d j : Nat) (h : List Ev) (q : Phase) (hp : Prom.phase (nets h) = some q) (i : Nat) (l : Option Int) (ho : Opened h i l) (hl : Fits l) :
    let x := (run c (addr z n d j) h).conn i
    x.toVnic = [] → x.toClient = [] → x.closed = true ∧ ∃ k, x.current = some k ∧ Answered c (addr z n d j) h i l k := by
  intro x h1 h2
  have hi := (WInv.reachable hc z n d j hp).conn i
  cases hi with
  | idle hno => obtain ⟨a, b, e, _⟩ := ho; exact absurd (by rw [e]; simp) (hno l)
  | mute l' ho' hl' => rw [ho.unique ho'] at hl; exact absurd hl hl'
  | waiting l' v _ _ _ _ _ g =>
    have g : Blocked c.env c.depth c.packetType x.vd [([], v)] x.toVnic := g
    rw [h1] at g; exact absurd g.empty (by simp)
  | answered l' k _ _ _ _ _ _ _ g =>
    have g : Blocked c.env c.depth c.levelC x.cd [([], reply c k)] x.toClient := g
    rw [h2] at g; exact absurd g.empty (by simp)
  | done l' k ho' _ _ ha _ _ g5 g6 => rw [ho.unique ho']; exact ⟨g6, k, g5, ha⟩

/-- C111. A client never holds another level: at any time, one that holds a level has closed its connection, and its request was handled with that result. -/
theorem C111_only_partial {c : Cfg} (hc : c.Ok) (z n d j : Nat) (h : List Ev) (q : Phase) (hp : Prom.phase (nets h) = some q) (i k : Nat) :
    let x := (run c (addr z n d j) h).conn i
    x.current = some k → x.closed = true ∧ ∃ l, Opened h i l ∧ Answered c (addr z n d j) h i l k := by
  intro x hx
  have hi := (WInv.reachable hc z n d j hp).conn i
  have no : x.current = none → False := fun h => by rw [h] at hx; cases hx
  cases hi with
  | idle _ _ _ _ _ _ h5 => exact (no h5).elim
  | mute _ _ _ _ _ _ _ _ h5 => exact (no h5).elim
  | waiting _ _ _ _ _ _ _ _ _ _ h5 => exact (no h5).elim
  | answered _ _ _ _ _ _ _ _ _ _ h5 => exact (no h5).elim
  | done l k' ho _ _ ha _ _ g5 g6 =>
    have g5 : x.current = some k' := g5
    rw [hx] at g5; cases g5
    exact ⟨g6, l, ho, ha⟩

/-- C111. A client with a level that does not fit into a packet says nothing, whatever happens: it has no level, and its connection stays open. -/
theorem C111_mute_partial {c : Cfg} (hc : c.Ok) (z n d j : Nat) (h : List Ev) (q : Phase) (hp : Prom.phase (nets h) = some q) (i : Nat) (l : Option Int) (ho : Opened h i l) (hl : ¬ Fits l) :
    let x := (run c (addr z n d j) h).conn i
    x.toVnic = [] ∧ x.toClient = [] ∧ x.current = none ∧ x.closed = false := by
  intro x
  have hi := (WInv.reachable hc z n d j hp).conn i
  cases hi with
  | idle hno => obtain ⟨a, b, e, _⟩ := ho; exact absurd (by rw [e]; simp) (hno l)
  | mute l' ho' hl' _ h1 _ h3 _ h5 h6 => exact ⟨h1, h3, h5, h6⟩
  | waiting l' _ ho' hl' => rw [ho.unique ho'] at hl; exact absurd hl' hl
  | answered l' _ ho' hl' => rw [ho.unique ho'] at hl; exact absurd hl' hl
  | done l' _ ho' hl' => rw [ho.unique ho'] at hl; exact absurd hl' hl

theorem net_level {z n d j : Nat} {s : Prom.St} {p q : Phase} {k : Nat} (h : Prom.Inv z n d j s p k) {e : Prom.Ev} (he : nextPhase s.nTx p e = some q) (hs : ∀ l, e ≠ .setLevel l) :
    Prom.promiscuousLevel (Prom.step s e) = Prom.promiscuousLevel s := by
  have := (h.step he).1.level
  rw [this, h.level]
  cases e with
  | setLevel l => exact absurd rfl (hs l)
  | _ => rfl

theorem phaseFrom_snoc {e : Prom.Ev} : ∀ (es : List Prom.Ev) (n : Nat) (p : Phase) {q : Phase}, phaseFrom n p (es ++ [e]) = some q → ∃ q', phaseFrom n p es = some q'
  | [], _, p, _, _ => ⟨p, rfl⟩
  | x :: es, n, p, q, h => by
    simp only [List.cons_append, phaseFrom] at h ⊢
    cases hx : nextPhase n p x with
    | none => rw [hx] at h; cases h
    | some p' => rw [hx] at h; exact phaseFrom_snoc es _ p' h

/-- C111. The level of the VNIC changes in no other way: where it does, something else at the VNIC has set it, or the VNIC has just taken the request of a client that sets it, and it is the level that the client asked for. -/
theorem C111_level_partial {c : Cfg} (hc : c.Ok) (z n d j : Nat) (h : List Ev) (e : Ev) (q : Phase) (hp : Prom.phase (nets (h ++ [e])) = some q)
    (hch : vnicLevel c (addr z n d j) (h ++ [e]) ≠ vnicLevel c (addr z n d j) h) :
    (∃ l, e = .net (.setLevel l)) ∨
    ∃ i m l, e = .toVnic i m ∧ Opened h i (some l) ∧ (0 ≤ l ∧ l < 256) ∧ vnicLevel c (addr z n d j) (h ++ [e]) = (min l 4).toNat := by
  have hp' : ∃ q', Prom.phase (nets h) = some q' := by
    rw [nets_append] at hp
    cases e with
    | net x => exact phaseFrom_snoc _ _ _ hp
    | _ => exact ⟨q, by simpa [nets] using hp⟩
  obtain ⟨q', hq⟩ := hp'
  have hw := WInv.reachable hc z n d j hq
  have hs : run c (addr z n d j) (h ++ [e]) = step c (run c (addr z n d j) h) e := run_snoc ..
  unfold vnicLevel at hch ⊢
  rw [hs] at hch ⊢
  obtain ⟨k, hk⟩ := hw.vnic
  cases e with
  | «open» i l => rw [(hw.open hc i l).2] at hch; exact absurd rfl hch
  | toClient i m => rw [(hw.toClient hc i m).2] at hch; exact absurd rfl hch
  | toVnic i m =>
    rcases (hw.toVnic hc i m).2.2 with g | ⟨l, g1, g2, g3⟩
    · rw [g] at hch; exact absurd rfl hch
    · obtain ⟨_, _, _, c4⟩ := control_spec hk l
      rw [g3, c4] at hch ⊢
      cases l with
      | none => exact absurd rfl hch
      | some l =>
        refine .inr ⟨i, m, l, rfl, g1, g2, ?_⟩
        have : (0 : Int) ≤ l := g2.1
        simp only [levelAfter]
        omega
  | net x =>
    cases x with
    | setLevel l => exact .inl ⟨l, rfl⟩
    | _ =>
      -- the phase after `h` and after one step more
      have hn : ∃ q'', nextPhase (run c (addr z n d j) h).vnic.nTx q' _ = some q'' := next_of hc z n d j hq hp
      obtain ⟨q'', hn⟩ := hn
      exact absurd (net_level hk hn (fun _ he => nomatch he)) hch

/-! ## Concrete cases -/

def lEnv : Env where
  classDef := fun c => if c = 1 then some levelDef else none
  isSub := fun c b => b == 0 || b == c
  lookup := fun _ name v => if v ≠ ⟨1, 0⟩ then .ok none else if name = levelDef.ident then .ok (some 1) else .ok none

def lCfg : Cfg := ⟨lEnv, 0, 1, 1⟩

theorem lOk : lCfg.Ok := by
  refine ⟨?_, rfl, by decide, by decide⟩
  intro cls d base h _
  have h : lEnv.classDef cls = some d := h
  show ∃ v, Version.fromString d.version = some v ∧ lEnv.lookup base d.ident v = .ok (some cls)
  unfold lEnv at h ⊢
  dsimp only at h ⊢
  split at h
  · next hc => cases h; exact ⟨⟨1, 0⟩, by decide +kernel, by rw [hc]; decide +kernel⟩
  · cases h

/-- What is seen of the connections 1 and 2: level, whether closed, whether bytes are on the way; and the level and the announcements of the VNIC. -/
def seen (h : List Ev) : (Option Nat × Bool × Bool) × (Option Nat × Bool × Bool) × Nat × List Prom.Eff :=
  let w := run lCfg (addr 1 2 3 4) h
  let f := fun i => ((w.conn i).current, (w.conn i).closed, (w.conn i).toVnic.isEmpty && (w.conn i).toClient.isEmpty)
  (f 1, f 2, Prom.promiscuousLevel w.vnic, w.vnic.out)

/-- Two clients: one sets the level, the other asks; the bytes come in pieces. -/
def talk : List Ev := [.net .factory, .net (.made 0), .open 1 (some 200), .open 2 none, .toVnic 1 30, .toVnic 2 500, .toVnic 1 500, .toClient 2 40, .toClient 1 500, .toClient 2 500]

/-- The one that asked was answered first. -/
example : Prom.phase (nets talk) = some (.up 0) ∧ seen talk = ((some 4, true, true), (some 0, true, true), 4, [.announce 0 "1.2.3.4".toList, .announce 0 "*.*.*.*".toList]) := by
  decide +kernel

example : Prom.phase (nets (talk.take 7)) = some (.up 0) ∧ vnicLevel lCfg (addr 1 2 3 4) (talk.take 6) = 0 ∧ vnicLevel lCfg (addr 1 2 3 4) (talk.take 6 ++ [.toVnic 1 500]) = 4 := by decide +kernel

example : Opened talk 1 (some 200) ∧ Fits (some 200) ∧ Opened talk 2 none := ⟨⟨[.net .factory, .net (.made 0)], _, rfl, by simp⟩, by decide, ⟨[.net .factory, .net (.made 0), .open 1 (some 200)], _, rfl, by simp⟩⟩

/-- C111 is false of the levels that the VNIC would take but a packet cannot hold: `setPromiscuousLevel(256)` is level 4, but a client with it says nothing and waits for ever. -/
theorem C111_false_range : Prom.clampLevel (some 256) = 4 ∧ Prom.clampLevel (some (-1)) = 0 ∧
    seen [.net .factory, .net (.made 0), .open 1 (some 256), .open 2 (some (-1)), .toVnic 1 500, .toVnic 2 500, .toClient 1 500, .toClient 2 500] =
      ((none, false, true), (none, false, true), 0, [.announce 0 "1.2.3.4".toList]) := by decide +kernel

example : ¬ Fits (some 256) ∧ ¬ Fits (some (-1)) := by decide

/-- C111 is false while a second link is being opened under a standing one: the level is set but the handler raises before it answers, and the client waits for ever. -/
theorem C111_false_reopen :
    seen [.net .factory, .net (.made 0), .net .factory, .open 1 (some 2), .toVnic 1 500, .toClient 1 500] =
      ((none, false, true), (none, false, true), 2, [.announce 0 "1.2.3.4".toList, .close 0, .raised]) := by decide +kernel

end Verif.LevelNet
