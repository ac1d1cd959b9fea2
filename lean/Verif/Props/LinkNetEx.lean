import Verif.Props.LinkNet
/-! # C58: what `Reaches` means, that bytes can always arrive, examples, and what does not hold -/
namespace Verif.Link

/-- A destination that is a full address reaches exactly the strings of this address and of the blocks enclosing it. -/
theorem C58_reaches (dst : Str) (z n d i : Nat) (addr : Str)
    (hd : ∃ a b c e, dst = dotted a b c e ∧ DenotesNum a (.num z) ∧ DenotesNum b (.num n) ∧ DenotesNum c (.num d) ∧ DenotesNum e (.num i)) :
    Reaches dst addr ↔ addr ∈ enclosing z n d i := by
  obtain ⟨a, b, c, e, rfl, d1, d2, d3, d4⟩ := hd
  have hf : Addr.blockFromString (dotted a b c e) = .ok (Verif.addr z n d i) :=
    (C25_block_accepts_iff _ _).mpr ⟨a, b, c, e, rfl, .inr d1, .inr d2, .inr d3, .inr d4⟩
  rw [← enclosing_str]
  constructor
  · rintro ⟨x, hx, hm⟩
    rw [hf] at hx; cases hx
    exact hm
  · intro hm
    exact ⟨_, hf, hm⟩

/-! ## All bytes can arrive -/

theorem forward_frame (c : Classes) (p : Val) : ∀ (ds : List Nat) (n : Net), (n.forward c p ds).1.toSwitch = n.toSwitch ∧ (n.forward c p ds).1.swUp = n.swUp
  | [], _ => ⟨rfl, rfl⟩
  | d :: ds, n => by
    unfold Net.forward
    split
    · exact ⟨rfl, rfl⟩
    · split
      · next b _ _ => exact forward_frame c p ds { n with toHost := upd n.toHost d (n.toHost d ++ b) }
      · exact ⟨rfl, rfl⟩

theorem handle_frame (c : Classes) (n : Net) (l : Nat) (p : Val) : (n.handle c l p).1.toSwitch = n.toSwitch ∧ (n.handle c l p).1.swUp = n.swUp := by
  unfold Net.handle
  split
  · split <;> exact ⟨rfl, rfl⟩
  · split
    · exact ⟨rfl, rfl⟩
    · exact forward_frame c p _ n
  · exact ⟨rfl, rfl⟩

theorem loop_frame (c : Classes) (l : Nat) : ∀ (k : Nat) (n : Net), (Net.loop c l k n).toSwitch = n.toSwitch ∧ (Net.loop c l k n).swUp = n.swUp
  | 0, _ => ⟨rfl, rfl⟩
  | k + 1, n => by
    unfold Net.loop
    split
    · exact ⟨rfl, rfl⟩
    · next d _ => exact loop_frame c l k { n with rx := upd n.rx l d }
    · next p d _ =>
      have := handle_frame c { n with rx := upd n.rx l d } l p
      split
      · next n' he => rw [he] at this; exact this
      · next n' he =>
        rw [he] at this
        have g := loop_frame c l k n'
        exact ⟨g.1.trans this.1, g.2.trans this.2⟩

/-- How the bytes come to the receiver: in one chunk, or in chunks of at most 67 bytes. -/
def Cut (one : Bool) (ms : List Nat) : Prop := if one then ms.length = 1 else ∀ m ∈ ms, m ≤ 67

theorem drain_host (c : Classes) (l : Nat) (one : Bool) : ∀ (k : Nat) (n : Net), (n.toHost l).length ≤ k → l ∈ n.hostUp →
    ∃ ms, Cut one ms ∧ (n.exec c (ms.map (.toHost l))).toHost l = [] ∧ (n.exec c (ms.map (.toHost l))).toSwitch = n.toSwitch := by
  cases one with
  | true =>
    intro k n _ hl
    refine ⟨[(n.toHost l).length], rfl, ?_, ?_⟩
    · show (n.step c _).toHost l = []
      rw [Net.step, if_pos hl]; simp
    · show (n.step c _).toSwitch = _
      rw [Net.step, if_pos hl]
  | false =>
    intro k
    induction k with
    | zero => intro n hk _; exact ⟨[], by simp [Cut], List.length_eq_zero_iff.mp (Nat.le_zero.mp hk), rfl⟩
    | succ k ih =>
      intro n hk hl
      have hst : (n.step c (.toHost l 67)).toHost l = (n.toHost l).drop 67 ∧ (n.step c (.toHost l 67)).toSwitch = n.toSwitch ∧ l ∈ (n.step c (.toHost l 67)).hostUp := by
        rw [Net.step, if_pos hl]; exact ⟨by simp, rfl, hl⟩
      obtain ⟨ms, h1, h2, h3⟩ := ih (n.step c (.toHost l 67)) (by rw [hst.1, List.length_drop]; omega) hst.2.2
      refine ⟨67 :: ms, ?_, h2, h3.trans hst.2.1⟩
      intro m hm
      rcases List.mem_cons.mp hm with rfl | hm
      · exact Nat.le_refl _
      · exact h1 m hm

/-- From every state in which the connections that have bytes on their way are accepted and the receiver is connected, all bytes can arrive, those for the
receiver in one chunk, or in small chunks. -/
theorem C58_can_drain (c : Classes) (l : Nat) (one : Bool) : ∀ (ls : List Nat) (n : Net), (∀ s, n.toSwitch s ≠ [] → s ∈ ls) → (∀ s ∈ ls, s ∈ n.swUp) → l ∈ n.hostUp →
    ∃ (ks : List (Nat × Nat)) (ms : List Nat), Cut one ms ∧ Drained (n.exec c (ks.map (fun x => .toSwitch x.1 x.2) ++ ms.map (.toHost l))) l
  | [], n, h1, _, hl => by
    obtain ⟨ms, g1, g2, g3⟩ := drain_host c l one _ n (Nat.le_refl _) hl
    refine ⟨[], ms, g1, fun s => ?_, g2⟩
    have h0 : n.toSwitch s = [] := by
      by_cases hs : n.toSwitch s = []
      · exact hs
      · exact absurd (h1 s hs) (by simp)
    show (n.exec c (ms.map (.toHost l))).toSwitch s = []
    rw [g3, h0]
  | s :: ls, n, h1, h2, hl => by
    have hs : s ∈ n.swUp := h2 s (by simp)
    have hfr := loop_frame c s ((((n.rx s).update ((n.toSwitch s).take (n.toSwitch s).length)).frm.s.buf.length) + 1)
      { n with toSwitch := upd n.toSwitch s ((n.toSwitch s).drop (n.toSwitch s).length), rx := upd n.rx s ((n.rx s).update ((n.toSwitch s).take (n.toSwitch s).length)) }
    have hst : n.step c (.toSwitch s (n.toSwitch s).length) = Net.loop c s ((((n.rx s).update ((n.toSwitch s).take (n.toSwitch s).length)).frm.s.buf.length) + 1)
      { n with toSwitch := upd n.toSwitch s ((n.toSwitch s).drop (n.toSwitch s).length), rx := upd n.rx s ((n.rx s).update ((n.toSwitch s).take (n.toSwitch s).length)) } := by
      rw [Net.step, if_pos hs]; rfl
    rw [← hst] at hfr
    obtain ⟨ks, ms, hcut, hd⟩ := C58_can_drain c l one ls (n.step c (.toSwitch s (n.toSwitch s).length)) (by
      intro k hk
      rw [hfr.1] at hk
      by_cases hks : k = s
      · subst hks; simp at hk
      · simp only [upd_other _ _ hks] at hk
        rcases List.mem_cons.mp (h1 k hk) with h | h
        · exact absurd h hks
        · exact h) (by
      intro k hk
      rw [hfr.2]
      exact h2 k (by simp [hk])) (by
      have := step_hostUp c n (.toSwitch s (n.toSwitch s).length) l
      simp only [upAfter] at this
      exact (decide_eq_decide.mp this).mpr hl)
    exact ⟨(s, (n.toSwitch s).length) :: ks, ms, hcut, hd⟩

/-! ## A network with two links -/

/-- Class 1 is `WirePacket`, class 2 `AnnounceLinkPacket`, class 4 `FramedPacketType`. -/
def lEnv : Env where
  classDef := fun c => if c = 1 then some wireDef else if c = 2 then some announceDef else none
  isSub := fun c b => b == 0 || b == c || (b == 4 && (c == 1 || c == 2))
  lookup := fun _ name v => if v ≠ ⟨1, 0⟩ then .ok none else if name = wireDef.ident then .ok (some 1) else if name = announceDef.ident then .ok (some 2)
    else .ok none

def lClasses : Classes := ⟨lEnv, 4, 1, 2⟩

theorem lOk : lClasses.Ok := by
  refine ⟨?_, rfl, rfl, rfl, rfl, rfl⟩
  intro cls d base h _
  have h : lEnv.classDef cls = some d := h
  show ∃ v, Version.fromString d.version = some v ∧ lEnv.lookup base d.ident v = .ok (some cls)
  unfold lEnv at h ⊢
  dsimp only at h ⊢
  split at h
  · next hc => cases h; exact ⟨⟨1, 0⟩, by decide +kernel, by rw [hc]; decide +kernel⟩
  · split at h
    · next hc => cases h; exact ⟨⟨1, 0⟩, by decide +kernel, by rw [hc]; decide +kernel⟩
    · cases h

/-- Two connections, `1.1.1.1` and `2.2.2.2`. -/
def start : List Ev := [.accept 0, .accept 1, .connect 0 "1.1.1.1".toList, .connect 1 "2.2.2.2".toList]

/-- From `1.1.1.1` to `2.2.2.2`. -/
def head (sp dp : Nat) : Frag.Header := ⟨"1.1.1.1".toList, sp, "2.2.2.2".toList, dp⟩

theorem start_fits : ∀ e ∈ start, Fits e := by
  intro e he
  simp only [start, List.mem_cons, List.not_mem_nil, or_false] at he
  rcases he with rfl | rfl | rfl | rfl
  · trivial
  · trivial
  · exact ⟨by decide +kernel, by decide +kernel⟩
  · exact ⟨by decide +kernel, by decide +kernel⟩

theorem text_ex (s : Str) (h : (isAscii s && decide (s.length < 100)) = true) : Text s := by
  rw [Bool.and_eq_true] at h
  have h2 := of_decide_eq_true h.2
  exact ⟨h.1, by omega⟩

/-- Only arrivals. -/
def Arrivals (h : List Ev) : Prop := ∀ e ∈ h, (∃ s k, e = .toSwitch s k) ∨ ∃ s k, e = .toHost s k

theorem arrivals_sent {h : List Ev} (ha : Arrivals h) (up : Bool) (l : Nat) : sent up l h = [] := by
  induction h generalizing up with
  | nil => rfl
  | cons e h ih =>
    have ih := ih (fun x hx => ha x (by simp [hx]))
    rcases ha e (by simp) with ⟨s, k, rfl⟩ | ⟨s, k, rfl⟩ <;> exact ih _

theorem arrivals_up {h : List Ev} (ha : Arrivals h) (up : Bool) (l : Nat) : upAfter up l h = up := by
  induction h generalizing up with
  | nil => rfl
  | cons e h ih =>
    have ih := ih (fun x hx => ha x (by simp [hx]))
    rcases ha e (by simp) with ⟨s, k, rfl⟩ | ⟨s, k, rfl⟩ <;> exact ih _

theorem arrivals_losses {h : List Ev} (ha : Arrivals h) : lossesIn h = [] := by
  induction h with
  | nil => rfl
  | cons e h ih =>
    have ih := ih (fun x hx => ha x (by simp [hx]))
    rcases ha e (by simp) with ⟨s, k, rfl⟩ | ⟨s, k, rfl⟩ <;> exact ih

theorem arrivals_fits {h : List Ev} (ha : Arrivals h) : ∀ e ∈ h, Fits e := by
  intro e he
  rcases ha e he with ⟨s, k, rfl⟩ | ⟨s, k, rfl⟩ <;> trivial

theorem arrivals_mem (ks : List (Nat × Nat)) (l : Nat) (ms : List Nat) : Arrivals (ks.map (fun x => .toSwitch x.1 x.2) ++ ms.map (.toHost l)) := by
  intro e he
  rcases List.mem_append.mp he with he | he
  · obtain ⟨x, _, rfl⟩ := List.mem_map.mp he
    exact .inl ⟨_, _, rfl⟩
  · obtain ⟨x, _, rfl⟩ := List.mem_map.mp he
    exact .inr ⟨_, _, rfl⟩

/-- The two connections stay up, and only they have bytes on their way. -/
structure Two (n : Net) : Prop where
  up0 : 0 ∈ n.swUp
  up1 : 1 ∈ n.swUp
  host : 1 ∈ n.hostUp
  only : ∀ s, n.toSwitch s ≠ [] → s ∈ [0, 1]

theorem Two.send {c : Classes} : ∀ (ps : List Pkt) {n : Net}, Two n → Two (n.send c 0 ps)
  | [], _, h => h
  | p :: ps, n, h => by
    unfold Net.send
    split
    · exact h
    · refine Two.send ps ⟨h.up0, h.up1, h.host, fun s hs => ?_⟩
      by_cases h0 : s = 0
      · simp [h0]
      · simp only [upd_other _ _ h0] at hs
        exact h.only s hs

theorem Two.step {c : Classes} {n : Net} (h : Two n) {e : Ev} (he : (∃ hd id data, e = .write 0 hd id data) ∨ (∃ s k, e = .toSwitch s k) ∨ ∃ s k, e = .toHost s k) :
    Two (n.step c e) := by
  rcases he with ⟨hd, id, data, rfl⟩ | ⟨s, k, rfl⟩ | ⟨s, k, rfl⟩
  · rw [Net.step]
    split
    · exact Two.send _ h
    · exact h
  · have hu := step_hostUp c n (.toSwitch s k) 1
    simp only [upAfter] at hu
    have hh := (decide_eq_decide.mp hu).mpr h.host
    rw [Net.step] at hh ⊢
    split at hh
    · next hs =>
      rw [if_pos hs]
      have hfr := loop_frame c s ((((n.rx s).update ((n.toSwitch s).take k)).frm.s.buf.length) + 1)
        { n with toSwitch := upd n.toSwitch s ((n.toSwitch s).drop k), rx := upd n.rx s ((n.rx s).update ((n.toSwitch s).take k)) }
      refine ⟨?_, ?_, hh, ?_⟩
      · show 0 ∈ (Net.loop c s _ _).swUp
        rw [hfr.2]; exact h.up0
      · show 1 ∈ (Net.loop c s _ _).swUp
        rw [hfr.2]; exact h.up1
      · intro j hj
        have hj : (Net.loop c s ((((n.rx s).update ((n.toSwitch s).take k)).frm.s.buf.length) + 1) { n with toSwitch := upd n.toSwitch s ((n.toSwitch s).drop k), rx := upd n.rx s ((n.rx s).update ((n.toSwitch s).take k)) }).toSwitch j ≠ [] := hj
        rw [hfr.1] at hj
        by_cases hjs : j = s
        · subst hjs
          apply h.only
          intro h0
          apply hj
          simp [h0]
        · simp only [upd_other _ _ hjs] at hj
          exact h.only j hj
    · next hs => rw [if_neg hs]; exact h
  · rw [Net.step]
    split
    · exact ⟨h.up0, h.up1, h.host, h.only⟩
    · exact h

theorem Two.exec {c : Classes} : ∀ {h : List Ev} {n : Net}, Two n →
    (∀ e ∈ h, (∃ hd id data, e = .write 0 hd id data) ∨ (∃ s k, e = .toSwitch s k) ∨ ∃ s k, e = .toHost s k) → Two (n.exec c h)
  | [], _, h, _ => h
  | e :: t, n, h, he => Two.exec (n := n.step c e) (h.step (he e (by simp))) (fun x hx => he x (by simp [hx]))

theorem two_start {c : Classes} (hc : c.Ok) : Two (Net.init.exec c start) := by
  have e1 : (Pkt.announce "1.1.1.1".toList).Good := start_fits (.connect 0 "1.1.1.1".toList) (by simp [start])
  have e2 : (Pkt.announce "2.2.2.2".toList).Good := start_fits (.connect 1 "2.2.2.2".toList) (by simp [start])
  simp only [start, Net.exec, Net.step]
  rw [send_eq hc 0 _ (by intro p hp; cases List.mem_singleton.mp hp; exact e1), send_eq hc 1 _ (by intro p hp; cases List.mem_singleton.mp hp; exact e2)]
  refine ⟨by simp [add, Net.init], by simp [add, Net.init], by simp [add, Net.init], fun s hs => ?_⟩
  by_cases h1 : s = 1
  · simp [h1]
  · by_cases h0 : s = 0
    · simp [h0]
    · simp [upd_other _ _ h1, upd_other _ _ h0, Net.init] at hs

/-- The start, until everything has arrived. -/
theorem started {c : Classes} (hc : c.Ok) : ∃ d, Arrivals d ∧ Drained (Net.init.exec c (start ++ d)) 1 ∧ Two (Net.init.exec c (start ++ d)) := by
  have h := two_start hc
  obtain ⟨ks, m, _, hd⟩ := C58_can_drain c 1 true [0, 1] _ h.only (by intro s hs; simp at hs; rcases hs with rfl | rfl; exact h.up0; exact h.up1) h.host
  have ha := arrivals_mem ks 1 m
  refine ⟨_, ha, by rw [exec_append]; exact hd, ?_⟩
  rw [exec_append]
  exact h.exec (fun e he => .inr (ha e he))

/-- Messages from the first connection, until everything has arrived. -/
theorem finished {c : Classes} (one : Bool) {n : Net} (h : Two n) (ws : List (Frag.Header × Nat × Bytes)) :
    ∃ (ks : List (Nat × Nat)) (ms : List Nat), Cut one ms ∧ Drained (n.exec c (ws.map (fun x => .write 0 x.1 x.2.1 x.2.2) ++ (ks.map (fun x => .toSwitch x.1 x.2) ++ ms.map (.toHost 1)))) 1 := by
  have h' : Two (n.exec c (ws.map (fun x => .write 0 x.1 x.2.1 x.2.2))) := h.exec (fun e he => by
    obtain ⟨x, _, rfl⟩ := List.mem_map.mp he
    exact .inl ⟨_, _, _, rfl⟩)
  obtain ⟨ks, m, hcut, hd⟩ := C58_can_drain c 1 one [0, 1] _ h'.only (by intro s hs; simp at hs; rcases hs with rfl | rfl; exact h'.up0; exact h'.up1) h'.host
  exact ⟨ks, m, hcut, by rw [exec_append]; exact hd⟩

theorem reach2 (sp dp : Nat) : Reaches (head sp dp).destination "2.2.2.2".toList := by
  show Reaches "2.2.2.2".toList "2.2.2.2".toList
  decide +kernel

theorem calm2 (sp dp : Nat) (f : Option Frag.Info) (b : Bytes) : CalmPkt (.wire ⟨head sp dp, f, b⟩) := by
  obtain ⟨a, h, _⟩ := reach2 sp dp
  exact .inl ⟨a, h⟩

/-- The messages of the examples: after the start, from the first connection to the second. -/
def messages (ws : List (Nat × Nat × Nat × Bytes)) : List Ev := ws.map fun x => .write 0 (head x.1 x.2.1) x.2.2.1 x.2.2.2

/-- Everything the theorems ask for, for any messages between the two. -/
theorem two_links {c : Classes} (hc : c.Ok) (one : Bool) (ws : List (Nat × Nat × Nat × Bytes))
    (hw : ∀ x ∈ ws, x.1 < 2 ^ 16 ∧ x.2.1 < 2 ^ 16 ∧ x.2.2.1 < 2 ^ 32 ∧ x.2.2.2.length < 2 ^ 64) :
    ∃ (d : List Ev) (ks : List (Nat × Nat)) (ms : List Nat), Cut one ms ∧ Arrivals d ∧ Drained (Net.init.exec c (start ++ d)) 1 ∧
      Drained (Net.init.exec c ((start ++ d) ++ (messages ws ++ (ks.map (fun x => .toSwitch x.1 x.2) ++ ms.map (.toHost 1))))) 1 ∧
      (∀ e ∈ (start ++ d) ++ (messages ws ++ (ks.map (fun x => .toSwitch x.1 x.2) ++ ms.map (.toHost 1))), Fits e) ∧
      Calm ((start ++ d) ++ (messages ws ++ (ks.map (fun x => .toSwitch x.1 x.2) ++ ms.map (.toHost 1)))) ∧
      Stays (start ++ d) (messages ws ++ (ks.map (fun x => .toSwitch x.1 x.2) ++ ms.map (.toHost 1))) 1 "2.2.2.2".toList ∧
      upAfter false 0 (start ++ d) = true ∧ upAfter false 1 (start ++ d) = true := by
  obtain ⟨d, ha, h1, h2⟩ := started hc
  obtain ⟨ks, m, hcut, h3⟩ := finished (c := c) one h2 (ws.map fun x => (head x.1 x.2.1, x.2.2.1, x.2.2.2))
  rw [List.map_map] at h3
  have ha' := arrivals_mem ks 1 m
  have hmsg : ∀ e ∈ messages ws, ∃ x ∈ ws, e = .write 0 (head x.1 x.2.1) x.2.2.1 x.2.2.2 := by
    intro e he
    obtain ⟨x, hx, rfl⟩ := List.mem_map.mp he
    exact ⟨x, hx, rfl⟩
  have t1 := text_ex "1.1.1.1".toList (by decide +kernel)
  have t2 := text_ex "2.2.2.2".toList (by decide +kernel)
  have hb : BlockText "2.2.2.2".toList := by
    refine (isValidBlockString_iff _).mp ?_
    decide +kernel
  refine ⟨d, ks, m, hcut, ha, h1, by rw [exec_append]; exact h3, ?_, ?_, ⟨?_, ?_, ?_, ?_⟩, ?_, ?_⟩
  · intro e he
    rcases List.mem_append.mp he with he | he
    · rcases List.mem_append.mp he with he | he
      · exact start_fits e he
      · exact arrivals_fits ha e he
    · rcases List.mem_append.mp he with he | he
      · obtain ⟨x, hx, rfl⟩ := hmsg e he
        obtain ⟨w1, w2, w3, w4⟩ := hw x hx
        exact ⟨t1, t2, w1, w2, w3, w4⟩
      · exact arrivals_fits ha' e he
  · intro s p hp
    cases p with
    | announce a => trivial
    | wire w =>
      obtain ⟨hd, id, data, g1, g2⟩ := wire_mem_sent hp
      have hm : .write s hd id data ∈ messages ws := by
        rcases List.mem_append.mp g1 with g | g
        · rcases List.mem_append.mp g with g | g
          · simp [start] at g
          · rcases ha _ g with ⟨_, _, h⟩ | ⟨_, _, h⟩ <;> cases h
        · rcases List.mem_append.mp g with g | g
          · exact g
          · rcases ha' _ g with ⟨_, _, h⟩ | ⟨_, _, h⟩ <;> cases h
      obtain ⟨x, hx, he⟩ := hmsg _ hm
      cases he
      have hh : w.header = head x.1 x.2.1 := by
        by_cases hle : x.2.2.2.length ≤ 2 ^ 16
        · rw [Frag.C29_sender_small _ _ _ hle] at g2
          rw [List.mem_singleton.mp g2]
        · exact ((Frag.C29_sender _ _ _ (by unfold Frag.MAX_MSG_SIZE; omega)).2.1 w g2).1
      obtain ⟨w1, w2, w3⟩ := w
      cases hh
      exact calm2 _ _ _ _
  · rw [sent_append, arrivals_sent ha]
    exact ⟨hb, [], [], by simp [start, sent], by simp⟩
  · rw [lossesIn_append, arrivals_losses ha]; simp [start, lossesIn]
  · rw [lossesIn_append, arrivals_losses ha', List.append_nil]
    have : ∀ ws : List (Nat × Nat × Nat × Bytes), lossesIn (messages ws) = [] := by
      intro ws; induction ws with
      | nil => rfl
      | cons x ws ih => exact ih
    rw [this]; simp
  · intro x
    constructor
    · intro hm
      rcases List.mem_append.mp hm with hm | hm
      · obtain ⟨_, _, h⟩ := hmsg _ hm; cases h
      · rcases ha' _ hm with ⟨_, _, h⟩ | ⟨_, _, h⟩ <;> cases h
    · intro hm
      rcases List.mem_append.mp hm with hm | hm
      · obtain ⟨_, _, h⟩ := hmsg _ hm; cases h
      · rcases ha' _ hm with ⟨_, _, h⟩ | ⟨_, _, h⟩ <;> cases h
  · rw [upAfter_append, arrivals_up ha]; simp [start, upAfter]
  · rw [upAfter_append, arrivals_up ha]; simp [start, upAfter]

theorem sent_messages (ws : List (Nat × Nat × Nat × Bytes)) :
    sent true 0 (messages ws) = (ws.flatMap fun x => Frag.write (head x.1 x.2.1) x.2.2.1 x.2.2.2).map .wire := by
  induction ws with
  | nil => rfl
  | cons x ws ih =>
    show sent true 0 (.write 0 _ _ _ :: messages ws) = _
    simp [sent, ih]

/-- What the second link gets from the messages, and that it had nothing before. -/
theorem two_received {c : Classes} (hc : c.Ok) (ws : List (Nat × Nat × Nat × Bytes))
    (hw : ∀ x ∈ ws, x.1 < 2 ^ 16 ∧ x.2.1 < 2 ^ 16 ∧ x.2.2.1 < 2 ^ 32 ∧ x.2.2.2.length < 2 ^ 64) :
    ∃ (h : List Ev) (E1 E2 : List Frag.Ev), Drained (Net.init.exec c h) 1 ∧ Frag.packets E1 = [] ∧
      Frag.packets E2 = (ws.flatMap fun x => Frag.write (head x.1 x.2.1) x.2.2.1 x.2.2.2) ∧ kinds E2 = [none] ∧
      ((Net.init.exec c h).tx 1).got = (Frag.exec (Frag.exec [] E1).1 E2).2 ∧
      ∀ s hd id b, .write s hd id b ∈ h → ∃ x ∈ ws, hd = head x.1 x.2.1 ∧ b = x.2.2.2 := by
  obtain ⟨d, ks, ms, hcut, ha, d1, d2, hf, hcalm, hs, hu, hu1⟩ := two_links hc true ws hw
  obtain ⟨T, E1, E2, g1, g2, g3, g4, g5, g6, g7, g8⟩ := C58_received hc _ _ hf hcalm 1 _ hs d1 d2
  have ha' := arrivals_mem ks 1 ms
  have hwr : ∀ s, written (start ++ d) (messages ws ++ (ks.map (fun x => .toSwitch x.1 x.2) ++ ms.map (.toHost 1))) s =
      if s = 0 then (ws.flatMap fun x => Frag.write (head x.1 x.2.1) x.2.2.1 x.2.2.2) else [] := by
    intro s
    rw [written, sent_append, arrivals_sent ha', List.append_nil]
    by_cases h0 : s = 0
    · subst h0; rw [hu, sent_messages, wires_map, if_pos rfl]
    · rw [if_neg h0]
      have : ∀ (ws : List (Nat × Nat × Nat × Bytes)) (up : Bool), sent up s (messages ws) = [] := by
        intro ws up
        induction ws with
        | nil => rfl
        | cons x ws ih =>
          show sent up s (.write 0 _ _ _ :: messages ws) = _
          simp [sent, ih, Ne.symm h0]
      rw [this]; rfl
  have hT : T.filter (fun t => t.1 = 0) = T := by
    refine List.filter_eq_self.mpr fun t ht => ?_
    by_cases he : t.1 = 0
    · simpa using he
    · have h := g1 t.1
      rw [hwr, if_neg he] at h
      have hm : t.2 ∈ (T.filter fun u => u.1 = t.1).map (·.2) := List.mem_map.mpr ⟨t, List.mem_filter.mpr ⟨ht, by simp⟩, rfl⟩
      rw [h] at hm
      simp at hm
  have h0 := g1 0
  rw [hT, hwr, if_pos rfl] at h0
  have hreach : ((ws.flatMap fun x => Frag.write (head x.1 x.2.1) x.2.2.1 x.2.2.2).filter fun w => decide (Reaches w.header.destination "2.2.2.2".toList)) =
      ws.flatMap fun x => Frag.write (head x.1 x.2.1) x.2.2.1 x.2.2.2 := by
    refine List.filter_eq_self.mpr fun w hm => ?_
    obtain ⟨x, hx, hm⟩ := List.mem_flatMap.mp hm
    have hh : w.header = head x.1 x.2.1 := by
      by_cases hle : x.2.2.2.length ≤ 2 ^ 16
      · rw [Frag.C29_sender_small _ _ _ hle] at hm
        rw [List.mem_singleton.mp hm]
      · exact ((Frag.C29_sender _ _ _ (by unfold Frag.MAX_MSG_SIZE; omega)).2.1 w hm).1
    rw [hh]
    exact decide_eq_true (reach2 _ _)
  rw [hreach] at h0
  have hE1 : Frag.packets E1 = [] := by
    refine List.eq_nil_iff_forall_not_mem.mpr fun w hw => ?_
    obtain ⟨s, hs⟩ := g4 w hw
    rw [sent_append, arrivals_sent ha, List.append_nil] at hs
    obtain ⟨hd, id, data, g, _⟩ := wire_mem_sent (mem_wires.mp hs)
    simp [start] at g
  refine ⟨_, E1, E2, d2, hE1, by rw [g3, h0], ?_, ?_, ?_⟩
  · rw [g7, hu1]
    have hin : ∀ (ws : List (Nat × Nat × Nat × Bytes)) (t : List Ev), inputs true 1 (messages ws ++ t) = inputs true 1 t := by
      intro ws t
      induction ws with
      | nil => rfl
      | cons x ws ih => exact ih
    have hin2 : ∀ (ks : List (Nat × Nat)) (t : List Ev), inputs true 1 (ks.map (fun x => .toSwitch x.1 x.2) ++ t) = inputs true 1 t := by
      intro ks t
      induction ks with
      | nil => rfl
      | cons x ks ih => exact ih
    rw [hin, hin2]
    obtain _ | ⟨m, _ | ⟨m', ms⟩⟩ := ms
    · simp [Cut] at hcut
    · rfl
    · simp [Cut] at hcut
  · rw [g6, g5, exec_small [] E1 (by rw [hE1]; simp), hE1]
    rfl
  · intro s hd id b hm
    rcases List.mem_append.mp hm with hm | hm
    · rcases List.mem_append.mp hm with hm | hm
      · simp [start] at hm
      · rcases ha _ hm with ⟨_, _, h⟩ | ⟨_, _, h⟩ <;> cases h
    · rcases List.mem_append.mp hm with hm | hm
      · obtain ⟨x, hx, he⟩ := List.mem_map.mp hm
        cases he
        exact ⟨x, hx, rfl, rfl⟩
      · rcases ha' _ hm with ⟨_, _, h⟩ | ⟨_, _, h⟩ <;> cases h

/-- Three small messages: the demuxer of the second link gets these, in this order. -/
example : ∃ h, Drained (Net.init.exec lClasses h) 1 ∧
    ((Net.init.exec lClasses h).tx 1).got.map (fun d => (d.1.header, d.2)) = [(head 5 6, [1, 2]), (head 7 8, []), (head 5 6, [3])] := by
  obtain ⟨h, E1, E2, h0, h1, h2, h3, h4, _⟩ := two_received lOk [(5, 6, 0, [1, 2]), (7, 8, 0, []), (5, 6, 0, [3])] (by decide)
  refine ⟨h, h0, ?_⟩
  simp only [List.flatMap_cons, List.flatMap_nil, Frag.C29_sender_small _ _ [1, 2] (by decide), Frag.C29_sender_small _ _ [] (by decide),
    Frag.C29_sender_small _ _ [3] (by decide)] at h2
  rw [h4, exec_small, h2]
  · rfl
  · rw [h2]; intro w hw; simp at hw; rcases hw with rfl | rfl | rfl <;> rfl

/-- The hypotheses of `C58_delivered_small` hold of the two links. -/
example : ∃ h1 h2, (∀ e ∈ h1 ++ h2, Fits e) ∧ Calm (h1 ++ h2) ∧ Stays h1 h2 1 "2.2.2.2".toList ∧ Drained (Net.init.exec lClasses h1) 1 ∧
    Drained (Net.init.exec lClasses (h1 ++ h2)) 1 ∧
    (∀ s hd id data, .write s hd id data ∈ h2 → Reaches hd.destination "2.2.2.2".toList → data.length ≤ 2 ^ 16) ∧ .write 0 (head 5 6) 0 [1, 2] ∈ h2 := by
  obtain ⟨d, ks, m, _, ha, d1, d2, hf, hcalm, hs, hu, _⟩ := two_links lOk true [(5, 6, 0, [1, 2]), (7, 8, 0, []), (5, 6, 0, [3])] (by decide)
  refine ⟨_, _, hf, hcalm, hs, d1, d2, ?_, by simp [messages]⟩
  intro s hd id data hm _
  rcases List.mem_append.mp hm with hm | hm
  · simp only [messages, List.map_cons, List.map_nil, List.mem_cons, List.not_mem_nil, or_false] at hm
    rcases hm with h | h | h <;> cases h <;> decide
  · rcases arrivals_mem ks 1 m _ hm with ⟨_, _, h⟩ | ⟨_, _, h⟩ <;> cases h

/-- The hypotheses of `C58_delivered_alone` hold of the two links, for every message of more than 2^16 bytes. -/
example (data : Bytes) (hbig : 2 ^ 16 < data.length) (hlen : data.length < 2 ^ 64) : ∃ h1 y, (∀ e ∈ h1 ++ ([] ++ .write 0 (head 5 6) 9 data :: y), Fits e) ∧
    Calm (h1 ++ ([] ++ .write 0 (head 5 6) 9 data :: y)) ∧ Stays h1 ([] ++ .write 0 (head 5 6) 9 data :: y) 1 "2.2.2.2".toList ∧
    Drained (Net.init.exec lClasses h1) 1 ∧ Drained (Net.init.exec lClasses (h1 ++ ([] ++ .write 0 (head 5 6) 9 data :: y))) 1 ∧
    2 ^ 16 < data.length ∧ upAfter false 0 (h1 ++ []) = true ∧ Reaches (head 5 6).destination "2.2.2.2".toList ∧ Fresh 9 h1 ∧ (∀ s' hd' id' data', .write s' hd' id' data' ∈ [] ++ y → ¬ Reaches hd'.destination "2.2.2.2".toList) ∧
    .timeout 1 9 ∉ [] ++ .write 0 (head 5 6) 9 data :: y := by
  obtain ⟨d, ks, m, _, ha, d1, d2, hf, hcalm, hs, hu, _⟩ := two_links lOk true [(5, 6, 9, data)] (by
    intro x hx; cases List.mem_singleton.mp hx; exact ⟨(by decide : 5 < 2 ^ 16), (by decide : 6 < 2 ^ 16), (by decide : 9 < 2 ^ 32), hlen⟩)
  have ha' := arrivals_mem ks 1 m
  refine ⟨_, _, hf, hcalm, hs, d1, d2, hbig, by rw [List.append_nil]; exact hu, reach2 5 6, ?_, ?_, ?_⟩
  · intro s hd data hm
    rcases List.mem_append.mp hm with hm | hm
    · simp [start] at hm
    · rcases ha _ hm with ⟨_, _, h⟩ | ⟨_, _, h⟩ <;> cases h
  · intro s' hd' id' data' hm
    rcases ha' _ hm with ⟨_, _, h⟩ | ⟨_, _, h⟩ <;> cases h
  · intro hm
    rcases List.mem_cons.mp hm with h | hm
    · cases h
    · rcases ha' _ hm with ⟨_, _, h⟩ | ⟨_, _, h⟩ <;> cases h

/-- The hypotheses of `C58_delivered_large_partial` hold of the two links: a large message between two small ones, in small chunks. -/
example (data : Bytes) (hbig : 2 ^ 16 < data.length) (hlen : data.length < 2 ^ 64) :
    ∃ h1 x y, x ≠ [] ∧ (∀ e ∈ h1 ++ (x ++ .write 0 (head 5 6) 9 data :: y), Fits e) ∧
    Calm (h1 ++ (x ++ .write 0 (head 5 6) 9 data :: y)) ∧ Stays h1 (x ++ .write 0 (head 5 6) 9 data :: y) 1 "2.2.2.2".toList ∧
    Drained (Net.init.exec lClasses h1) 1 ∧ Drained (Net.init.exec lClasses (h1 ++ (x ++ .write 0 (head 5 6) 9 data :: y))) 1 ∧
    2 ^ 16 < data.length ∧ upAfter false 0 (h1 ++ x) = true ∧ Reaches (head 5 6).destination "2.2.2.2".toList ∧ Fresh 9 h1 ∧ Fresh 9 x ∧ Fresh 9 y ∧
    .timeout 1 9 ∉ x ++ .write 0 (head 5 6) 9 data :: y ∧ ∀ k, .toHost 1 k ∈ x ++ .write 0 (head 5 6) 9 data :: y → k ≤ 67 := by
  obtain ⟨d, ks, ms, hcut, ha, d1, d2, hf, hcalm, hs, hu, _⟩ := two_links lOk false [(5, 6, 0, [1, 2]), (5, 6, 9, data), (7, 8, 0, [3])] (by
    intro x hx
    simp only [List.mem_cons, List.not_mem_nil, or_false] at hx
    rcases hx with rfl | rfl | rfl
    · exact ⟨(by decide : 5 < 2 ^ 16), (by decide : 6 < 2 ^ 16), (by decide : 0 < 2 ^ 32), (by decide : 2 < 2 ^ 64)⟩
    · exact ⟨(by decide : 5 < 2 ^ 16), (by decide : 6 < 2 ^ 16), (by decide : 9 < 2 ^ 32), hlen⟩
    · exact ⟨(by decide : 7 < 2 ^ 16), (by decide : 8 < 2 ^ 16), (by decide : 0 < 2 ^ 32), (by decide : 1 < 2 ^ 64)⟩)
  have ha' := arrivals_mem ks 1 ms
  refine ⟨start ++ d, [.write 0 (head 5 6) 0 [1, 2]], .write 0 (head 7 8) 0 [3] :: (ks.map (fun x => Ev.toSwitch x.1 x.2) ++ ms.map (Ev.toHost 1)), by simp,
    hf, hcalm, hs, d1, d2, hbig, ?_, reach2 5 6, ?_, ?_, ?_, ?_, ?_⟩
  · rw [upAfter_append, hu]; rfl
  · intro s hd data hm
    rcases List.mem_append.mp hm with hm | hm
    · simp [start] at hm
    · rcases ha _ hm with ⟨_, _, h⟩ | ⟨_, _, h⟩ <;> cases h
  · intro s hd data hm
    cases List.mem_singleton.mp hm
  · intro s hd data hm
    rcases List.mem_cons.mp hm with h | hm
    · cases h
    · rcases ha' _ hm with ⟨_, _, h⟩ | ⟨_, _, h⟩ <;> cases h
  · intro hm
    simp only [List.cons_append, List.nil_append, List.mem_cons] at hm
    rcases hm with h | h | h | hm
    · cases h
    · cases h
    · cases h
    · rcases ha' _ hm with ⟨_, _, h⟩ | ⟨_, _, h⟩ <;> cases h
  · intro k hm
    simp only [List.cons_append, List.nil_append, List.mem_cons, List.mem_append] at hm
    rcases hm with h | h | h | h | hm
    · cases h
    · cases h
    · cases h
    · obtain ⟨_, _, h⟩ := List.mem_map.mp h; cases h
    · obtain ⟨m, hm, h⟩ := List.mem_map.mp hm
      cases h
      exact hcut _ hm

/-! ## What does not hold -/

/-- Without the conditions on sizes and chunks, a link side can hand over bytes with the header of a message they do not belong to: a small
message and a large one, arriving in one chunk. -/
theorem C58_false_stale {c : Classes} (hc : c.Ok) (data : Bytes) (hbig : 2 ^ 16 < data.length) (hlen : data.length < 2 ^ 64) :
    ∃ h, Drained (Net.init.exec c h) 1 ∧ (∀ s hd id b, .write s hd id b ∈ h → hd = head 7 8 → b = data) ∧
      ∃ f, f.header = head 7 8 ∧ (f, [1, 2]) ∈ ((Net.init.exec c h).tx 1).got := by
  obtain ⟨h, E1, E2, h0, h1, h2, h3, h4, h5⟩ := two_received hc [(5, 6, 0, [1, 2]), (7, 8, 9, data)] (by
    intro x hx
    simp only [List.mem_cons, List.not_mem_nil, or_false] at hx
    rcases hx with rfl | rfl
    · exact ⟨(by decide : 5 < 2 ^ 16), (by decide : 6 < 2 ^ 16), (by decide : 0 < 2 ^ 32), (by decide : 2 < 2 ^ 64)⟩
    · exact ⟨(by decide : 7 < 2 ^ 16), (by decide : 8 < 2 ^ 16), (by decide : 9 < 2 ^ 32), hlen⟩)
  refine ⟨h, h0, ?_, ?_⟩
  · intro s hd id b hm he
    obtain ⟨x, hx, g1, g2⟩ := h5 s hd id b hm
    simp only [List.mem_cons, List.not_mem_nil, or_false] at hx
    rcases hx with rfl | rfl
    · rw [g1] at he
      exact absurd (congrArg Frag.Header.sourcePort he) (by decide)
    · exact g2
  · obtain ⟨f, rest, w1, w2, w3⟩ := Frag.C29_false_stale ⟨head 5 6, none, [1, 2]⟩ rfl (head 7 8) 9 data hbig
    refine ⟨f, w2, ?_⟩
    have hst : ∀ (E : List Frag.Ev), Frag.packets E = [] → (Frag.exec [] E).1 = [] := by
      intro E
      induction E with
      | nil => intro _; rfl
      | cons e E ih =>
        intro hp
        cases e with
        | timeout i => exact ih hp
        | data ws =>
          obtain ⟨g1, g2⟩ := List.append_eq_nil_iff.mp hp
          subst g1
          exact ih g2
    have hE2 : E2 = [.data (Frag.packets E2)] := by
      obtain _ | ⟨e, _ | ⟨e', E2⟩⟩ := E2
      · simp [kinds] at h3
      · cases e with
        | timeout i => simp [kinds] at h3
        | data ws => simp [Frag.packets]
      · cases e <;> cases e' <;> simp [kinds] at h3
    have hpre : ∀ (a b : List Frag.Wire) (st : Frag.State) (v : Option Bytes), ∀ d ∈ (Frag.loop st v a).2, d ∈ (Frag.loop st v (a ++ b)).2 := by
      intro a b
      induction a with
      | nil => intro st v d hd; simp [Frag.loop] at hd
      | cons w a ih =>
        intro st v d hd
        simp only [List.cons_append, Frag.loop, List.mem_append] at hd ⊢
        rcases hd with hd | hd
        · exact .inl hd
        · exact .inr (ih _ _ d hd)
    rw [h4, hst E1 h1, hE2, h2]
    simp only [List.flatMap_cons, List.flatMap_nil, List.append_nil, Frag.C29_sender_small _ _ [1, 2] (by decide), w1]
    simp only [Frag.exec, Frag.step, List.append_nil] at w3 ⊢
    refine hpre [_, f] rest [] none _ ?_
    rw [w3]
    simp

/-- A packet whose destination looks like an address without being one makes the switch raise; what has arrived behind it then stays where it is,
although all bytes have arrived and its receiver is registered. -/
def uncalm : List Ev :=
  start ++ [.toSwitch 0 1000, .toSwitch 1 1000, .write 0 ⟨"1.1.1.1".toList, 5, "-1.1.1.1".toList, 6⟩ 0 [1], .write 0 (head 5 6) 0 [2], .toSwitch 0 1000, .toHost 1 1000]

theorem C58_false_uncalm : (∀ e ∈ uncalm, Fits e) ∧ Stays (start ++ [.toSwitch 0 1000, .toSwitch 1 1000])
      [.write 0 ⟨"1.1.1.1".toList, 5, "-1.1.1.1".toList, 6⟩ 0 [1], .write 0 (head 5 6) 0 [2], .toSwitch 0 1000, .toHost 1 1000] 1 "2.2.2.2".toList ∧
    Drained (Net.init.exec lClasses uncalm) 1 ∧ ((Net.init.exec lClasses uncalm).tx 1).got = [] := by
  have t1 := text_ex "1.1.1.1".toList (by decide +kernel)
  have t2 := text_ex "2.2.2.2".toList (by decide +kernel)
  have t3 := text_ex "-1.1.1.1".toList (by decide +kernel)
  have hb : BlockText "2.2.2.2".toList := (isValidBlockString_iff _).mp (by decide +kernel)
  have htwo : Two (Net.init.exec lClasses uncalm) := by
    rw [uncalm, exec_append]
    refine (two_start lOk).exec fun e he => ?_
    simp only [List.mem_cons, List.not_mem_nil, or_false] at he
    rcases he with rfl | rfl | rfl | rfl | rfl | rfl
    · exact .inr (.inl ⟨_, _, rfl⟩)
    · exact .inr (.inl ⟨_, _, rfl⟩)
    · exact .inl ⟨_, _, _, rfl⟩
    · exact .inl ⟨_, _, _, rfl⟩
    · exact .inr (.inl ⟨_, _, rfl⟩)
    · exact .inr (.inr ⟨_, _, rfl⟩)
  have hfin : (Net.init.exec lClasses uncalm).toSwitch 0 = [] ∧ (Net.init.exec lClasses uncalm).toSwitch 1 = [] ∧ (Net.init.exec lClasses uncalm).toHost 1 = [] ∧
      ((Net.init.exec lClasses uncalm).tx 1).got = [] := by decide +kernel
  refine ⟨?_, ⟨⟨hb, [], [], by simp [start, sent], by simp⟩, by simp [start, lossesIn], by simp [lossesIn], by simp⟩, ⟨?_, hfin.2.2.1⟩, hfin.2.2.2⟩
  · intro e he
    rw [uncalm] at he
    rcases List.mem_append.mp he with he | he
    · exact start_fits e he
    · simp only [List.mem_cons, List.not_mem_nil, or_false] at he
      rcases he with rfl | rfl | rfl | rfl | rfl | rfl
      · trivial
      · trivial
      · exact ⟨t1, t3, (by decide : 5 < 2 ^ 16), (by decide : 6 < 2 ^ 16), (by decide : 0 < 2 ^ 32), (by decide : 1 < 2 ^ 64)⟩
      · exact ⟨t1, t2, (by decide : 5 < 2 ^ 16), (by decide : 6 < 2 ^ 16), (by decide : 0 < 2 ^ 32), (by decide : 1 < 2 ^ 64)⟩
      · trivial
      · trivial
  · intro s
    by_cases hs : (Net.init.exec lClasses uncalm).toSwitch s = []
    · exact hs
    · have := htwo.only s hs
      simp only [List.mem_cons, List.not_mem_nil, or_false] at this
      rcases this with rfl | rfl
      · exact hfin.1
      · exact hfin.2.1

end Verif.Link
