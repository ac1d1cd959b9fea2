import Verif.Props.Vnic
/-! # C32: the VNIC delivers the data of a connection to its callback connection, in order -/
namespace Verif.Vnic

theorem written_append (l m : List Eff) (t : Nat) : written (l ++ m) t = written l t ++ written m t := by
  induction l with
  | nil => rfl
  | cons e l ih =>
    cases e <;> simp only [List.cons_append, written, ih]
    split
    · rw [List.append_assoc]
    · rfl

theorem written_other {l : List Eff} (h : ∀ e ∈ l, ∀ t d, e ≠ Eff.write t d) (t : Nat) : written l t = [] := by
  induction l with
  | nil => rfl
  | cons e l ih =>
    have := ih (fun x hx => h x (List.mem_cons_of_mem _ hx))
    cases e <;> simp only [written, this]
    exact absurd rfl (h _ (List.mem_cons_self ..) _ _)

/-- `A i`: the data that arrived so far for connection object `i`. -/
structure Fed (A : Nat → Bytes) (s : St) : Prop where
  beyond : ∀ i, s.nConn ≤ i → A i = []
  buf : ∀ i b, i < s.nConn → (s.conn i).writer = .buf b → b = A i
  tr : ∀ i t, i < s.nConn → (s.conn i).writer = .tr t → t < s.nSpawn ∧ (s.spawn t).stage = .finished ∧
    (s.spawn t).key = (s.conn i).key ∧ written s.out t = A i
  inj : ∀ i j t, i < s.nConn → j < s.nConn → (s.conn i).writer = .tr t → (s.conn j).writer = .tr t → i = j
  quiet : ∀ t, (∀ i, i < s.nConn → (s.conn i).writer ≠ .tr t) → written s.out t = []

theorem Fed.init (a : Str) : Fed (fun _ => []) (.init a) where
  beyond := fun _ _ => rfl
  buf := fun i b h => by simp [St.init] at h
  tr := fun i t h => by simp [St.init] at h
  inj := fun i j t h => by simp [St.init] at h
  quiet := fun t _ => rfl

theorem Fed.same {A : Nat → Bytes} {s s' : St} (h : Fed A s) (e1 : s'.conn = s.conn) (e2 : s'.nConn = s.nConn)
    (e3 : s.nSpawn ≤ s'.nSpawn) (e4 : ∀ t, t < s.nSpawn → (s'.spawn t).key = (s.spawn t).key ∧
      ((s.spawn t).stage = .finished → (s'.spawn t).stage = .finished))
    (e5 : ∀ t, written s'.out t = written s.out t) : Fed A s' where
  beyond := fun i hi => h.beyond i (by rw [e2] at hi; exact hi)
  buf := fun i b hi hb => h.buf i b (by rw [e2] at hi; exact hi) (by rw [e1] at hb; exact hb)
  tr := fun i t hi hb => by
    rw [e2] at hi; rw [e1] at hb
    obtain ⟨a1, a2, a3, a4⟩ := h.tr i t hi hb
    exact ⟨by omega, (e4 t a1).2 a2, by rw [(e4 t a1).1, a3, e1], by rw [e5, a4]⟩
  inj := fun i j t hi hj => by rw [e2] at hi hj; rw [e1]; exact h.inj i j t hi hj
  quiet := fun t ht => by
    rw [e5]
    exact h.quiet t (fun i hi => by have := ht i (by rw [e2]; exact hi); rw [e1] at this; exact this)

theorem Fed.closes {A : Nat → Bytes} {s s' : St} (h : Fed A s) (hc : Closes s s') : Fed A s' := by
  refine h.same hc.conn hc.nConn (by rw [hc.nSpawn]; exact Nat.le_refl _) (fun t _ => by rw [hc.spawn]; exact ⟨rfl, id⟩) ?_
  intro t
  obtain ⟨l, e, hl⟩ := hc.out
  rw [e, written_append, written_other (l := l), List.append_nil]
  intro x hx t' d he
  obtain ⟨u, hu⟩ := hl x hx
  rw [hu] at he; cases he

theorem Fed.emit {A : Nat → Bytes} {s : St} (h : Fed A s) (e : Eff) (he : ∀ t d, e ≠ Eff.write t d) : Fed A (s.emit e) :=
  h.same rfl rfl (Nat.le_refl _) (fun _ _ => ⟨rfl, id⟩) (fun t => by
    show written (s.out ++ [e]) t = _
    rw [written_append, written_other (l := [e]), List.append_nil]
    intro x hx; rw [List.mem_singleton.mp hx]; exact he)

theorem Fed.newConn {A : Nat → Bytes} {s : St} (h : Fed A s) (c : Nat) (k : Key) (d : Bytes) :
    Fed (fun i => A i ++ if i = s.nConn then d else []) (newConn s c k d) where
  beyond := fun i hi => by
    have h1 : s.nConn + 1 ≤ i := hi
    simp only [h.beyond i (by omega), if_neg (show ¬ i = s.nConn by omega)]; rfl
  buf := fun i b hi hb => by
    have h1 : i < s.nConn + 1 := hi
    simp only [Vnic.newConn, upd] at hb
    try dsimp only
    split at hb
    · next e =>
      cases hb
      rw [if_pos e, h.beyond i (by omega)]; rfl
    · next e => rw [if_neg e, List.append_nil]; exact h.buf i b (by omega) hb
  tr := fun i t hi hb => by
    have h1 : i < s.nConn + 1 := hi
    simp only [Vnic.newConn, upd] at hb ⊢
    split at hb
    · cases hb
    · next e =>
      obtain ⟨a1, a2, a3, a4⟩ := h.tr i t (by omega) hb
      refine ⟨a1, a2, ?_, ?_⟩
      · rw [if_neg e]; exact a3
      · rw [if_neg e, List.append_nil]; exact a4
  inj := fun i j t hi hj hb hb' => by
    have h1 : i < s.nConn + 1 := hi
    have h2 : j < s.nConn + 1 := hj
    simp only [Vnic.newConn, upd] at hb hb'
    split at hb
    · cases hb
    · split at hb'
      · cases hb'
      · exact h.inj i j t (by omega) (by omega) hb hb'
  quiet := fun t ht => by
    refine h.quiet t (fun i hi => ?_)
    have := ht i (show i < s.nConn + 1 by omega)
    simp only [Vnic.newConn, upd] at this
    rw [if_neg (by omega)] at this
    exact this

theorem Fed.congr {A B : Nat → Bytes} {s : St} (h : Fed A s) (e : ∀ i, A i = B i) : Fed B s := by
  have : A = B := funext e
  rw [← this]; exact h

theorem Fed.writeConn {A : Nat → Bytes} {s : St} (h : Fed A s) (j : Nat) (hj : j < s.nConn) (d : Bytes) :
    Fed (fun i => A i ++ if i = j then d else []) (writeConn s j d) := by
  unfold Vnic.writeConn
  split
  · next b hb =>
    have hA := h.buf j b hj hb
    refine ⟨?_, ?_, ?_, ?_, ?_⟩
    · intro i hi
      have h1 : s.nConn ≤ i := hi
      simp only [h.beyond i h1, if_neg (show ¬ i = j by omega)]; rfl
    · intro i b' hi hb'
      simp only [upd] at hb'
      try dsimp only
      split at hb'
      · next e => cases hb'; rw [if_pos e, hA, e]
      · next e => rw [if_neg e, List.append_nil]; exact h.buf i b' hi hb'
    · intro i t hi hb'
      simp only [upd] at hb' ⊢
      split at hb'
      · cases hb'
      · next e =>
        obtain ⟨a1, a2, a3, a4⟩ := h.tr i t hi hb'
        rw [if_neg e, if_neg e, List.append_nil]
        exact ⟨a1, a2, a3, a4⟩
    · intro i i' t hi hi' hb1 hb2
      simp only [upd] at hb1 hb2
      split at hb1
      · cases hb1
      · split at hb2
        · cases hb2
        · exact h.inj i i' t hi hi' hb1 hb2
    · intro t ht
      refine h.quiet t (fun i hi => ?_)
      have := ht i hi
      simp only [upd] at this
      split at this
      · next e => rw [e, hb]; exact Writer.noConfusion
      · exact this
  · next t hb =>
    have hw : ∀ u, written (s.emit (.write t d)).out u = written s.out u ++ if u = t then d else [] := by
      intro u
      show written (s.out ++ [.write t d]) u = _
      rw [written_append]
      simp only [written, List.append_nil]
      by_cases e : t = u
      · rw [if_pos e, if_pos e.symm]
      · rw [if_neg e, if_neg (Ne.symm e)]
    refine ⟨?_, ?_, ?_, h.inj, ?_⟩
    · intro i hi
      have h1 : s.nConn ≤ i := hi
      simp only [h.beyond i h1, if_neg (show ¬ i = j by omega)]; rfl
    · intro i b hi hb'
      try dsimp only
      have : i ≠ j := by rintro rfl; rw [show ((s.emit (.write t d)).conn i) = s.conn i from rfl, hb] at hb'; cases hb'
      rw [if_neg this, List.append_nil]; exact h.buf i b hi hb'
    · intro i u hi hb'
      obtain ⟨a1, a2, a3, a4⟩ := h.tr i u hi hb'
      refine ⟨a1, a2, a3, ?_⟩
      rw [hw, a4]
      try dsimp only
      by_cases e : i = j
      · subst e
        have : (s.conn i).writer = .tr u := hb'
        rw [hb] at this
        cases this
        rw [if_pos rfl, if_pos rfl]
      · have : u ≠ t := by
          rintro rfl; exact e (h.inj i j u hi hj hb' hb)
        rw [if_neg e, if_neg this]
    · intro u hu
      rw [hw, h.quiet u hu]
      have : u ≠ t := by rintro rfl; exact hu j hj hb
      rw [if_neg this]; rfl

theorem Fed.dumpAll {A : Nat → Bytes} {s : St} (h : Fed A s) (k : Key) (d : Bytes) : Fed A (dumpAll s k d) :=
  h.same rfl rfl (Nat.le_refl _) (fun _ _ => ⟨rfl, id⟩) (fun t => by
    show written (s.out ++ _) t = _
    rw [written_append, written_other (l := s.dumps.map _), List.append_nil]
    intro x hx t' d' he
    obtain ⟨p, _, hp⟩ := List.mem_map.mp hx
    rw [← hp] at he; cases he)

theorem Fed.startSpawn {A : Nat → Bytes} {s : St} (h : Fed A s) (c : Nat) (k : Key) : Fed A (startSpawn s c k) :=
  h.same rfl rfl (Nat.le_succ _) (fun t ht => by
    have : (Vnic.startSpawn s c k).spawn t = s.spawn t := by
      simp only [Vnic.startSpawn]; exact upd_ne _ _ (by omega)
    rw [this]; exact ⟨rfl, id⟩) (fun _ => rfl)

theorem demux_eq (s : St) (k : Key) (d : Bytes) :
    (∃ j, s.conns.get k.inverse = some j ∧ demux s k d = writeConn (dumpAll s k d) j d) ∨
    (s.conns.get k.inverse = none ∧ demux s k d = dumpAll s k d) ∨
    (s.conns.get k.inverse = none ∧ ∃ c, demux s k d = startSpawn (newConn (dumpAll s k d) c k.inverse d) c k.inverse) := by
  unfold Vnic.demux demuxLocal
  rw [show (Vnic.dumpAll s k d).conns = s.conns from rfl]
  cases hg : s.conns.get k.inverse with
  | some j => exact .inl ⟨j, rfl, rfl⟩
  | none =>
    right
    dsimp only
    cases hp : (Vnic.dumpAll s k d).ports.get k.inverse.sourcePort with
    | none => exact .inl ⟨rfl, rfl⟩
    | some c =>
      dsimp only
      split
      · exact .inr ⟨rfl, c, rfl⟩
      · exact .inl ⟨rfl, rfl⟩

theorem Fed.demux {A : Nat → Bytes} {s : St} (hi : Inv [] s) (h : Fed A s) (k : Key) (d : Bytes) :
    Fed (fun i => A i ++ if (demux s k d).conns.get k.inverse = some i then d else []) (demux s k d) := by
  have h1 := h.dumpAll k d
  rcases demux_eq s k d with ⟨j, hg, e⟩ | ⟨hg, e⟩ | ⟨hg, c, e⟩
  · have hc : (Vnic.demux s k d).conns.get k.inverse = some j := by
      rw [e]; unfold Vnic.writeConn; split <;> exact hg
    have h2 := h1.writeConn j (hi.conn1 _ _ hg).1 d
    rw [← e] at h2
    refine h2.congr ?_
    intro i
    rw [hc]
    by_cases e : i = j
    · subst e; simp
    · rw [if_neg e, if_neg]; simpa using fun e' => e e'.symm
  · have hc : (Vnic.demux s k d).conns.get k.inverse = none := by rw [e]; exact hg
    rw [← e] at h1
    refine h1.congr ?_
    intro i
    rw [hc, if_neg (by simp), List.append_nil]
  · have h2 := (h1.newConn c k.inverse d).startSpawn c k.inverse
    rw [← e] at h2
    have hc : (Vnic.demux s k d).conns.get k.inverse = some s.nConn := by rw [e]; exact Dict.get_set_self _ _ _
    refine h2.congr ?_
    intro i
    rw [hc, show (Vnic.dumpAll s k d).nConn = s.nConn from rfl]
    by_cases e : i = s.nConn
    · rw [if_pos e, if_pos (by rw [e])]
    · rw [if_neg e, if_neg (by simpa using fun e' => e e'.symm)]

theorem Fed.announce {A : Nat → Bytes} {s : St} (h : Fed A s) (c t : Nat) (k : Key) : Fed A (announce s c t k) := by
  unfold Vnic.announce
  split <;> exact h.emit _ (fun _ _ => Eff.noConfusion)

theorem Fed.finish {A : Nat → Bytes} {s : St} (hi : Inv [] s) (h : Fed A s) (n : Nat) (hn : n < s.nSpawn)
    (hst : (s.spawn n).stage = .connected) : Fed A (spawnFinished s n) := by
  unfold spawnFinished
  dsimp only
  have hfree : ∀ i, i < s.nConn → (s.conn i).writer ≠ .tr n := by
    intro i hlt hw
    have := (h.tr i n hlt hw).2.1
    rw [hst] at this; cases this
  generalize hs2 : (St.setCtl { s with spawn := upd s.spawn n { s.spawn n with stage := Stage.finished } } (s.spawn n).control _) = s2
  have e1 : s2.conn = s.conn := by rw [← hs2]; rfl
  have e2 : s2.nConn = s.nConn := by rw [← hs2]; rfl
  have e3 : s2.nSpawn = s.nSpawn := by rw [← hs2]; rfl
  have e4 : s2.spawn = upd s.spawn n { s.spawn n with stage := Stage.finished } := by rw [← hs2]; rfl
  have e5 : s2.out = s.out := by rw [← hs2]; rfl
  have e6 : s2.conns = s.conns := by rw [← hs2]; rfl
  have h2 : Fed A s2 := by
    refine h.same e1 e2 (by rw [e3]; exact Nat.le_refl _) (fun t ht => ?_) (fun t => by rw [e5])
    rw [e4]; simp only [upd]
    split
    · next e => subst e; exact ⟨rfl, fun _ => rfl⟩
    · exact ⟨rfl, id⟩
  clear hs2
  cases hg : s2.conns.get (s.spawn n).key with
  | none => exact h2.emit _ (fun _ _ => Eff.noConfusion)
  | some j =>
    dsimp only
    have hj := hi.conn1 _ _ (by rw [← e6]; exact hg)
    cases hw : (s2.conn j).writer with
    | tr t => exact h2.emit _ (fun _ _ => Eff.noConfusion)
    | buf b =>
      unfold attach
      dsimp only
      apply Fed.announce
      have hjlt : j < s2.nConn := by rw [e2]; exact hj.1
      have hb := h2.buf j b hjlt hw
      have hq : written s2.out n = [] := by
        refine h2.quiet n (fun i hlt => ?_)
        rw [e1]; exact hfree i (by rw [e2] at hlt; exact hlt)
      -- the state after the write of the buffer
      generalize hs3 : (if b = [] then s2 else s2.emit (.write n b)) = s3
      have f1 : s3.conn = s2.conn := by rw [← hs3]; split <;> rfl
      have f2 : s3.nConn = s2.nConn := by rw [← hs3]; split <;> rfl
      have f3 : s3.nSpawn = s2.nSpawn := by rw [← hs3]; split <;> rfl
      have f4 : s3.spawn = s2.spawn := by rw [← hs3]; split <;> rfl
      have f5 : ∀ u, written s3.out u = written s2.out u ++ if u = n then b else [] := by
        intro u
        rw [← hs3]
        split
        · next e => rw [e]; split <;> rw [List.append_nil]
        · show written (s2.out ++ [.write n b]) u = _
          rw [written_append]; simp only [written, List.append_nil]
          by_cases e : n = u
          · rw [if_pos e, if_pos e.symm]
          · rw [if_neg e, if_neg (Ne.symm e)]
      clear hs3
      refine ⟨?_, ?_, ?_, ?_, ?_⟩
      · intro i hlt; exact h2.beyond i (by rw [← f2]; exact hlt)
      · intro i b' hlt hb'
        simp only [upd] at hb'
        split at hb'
        · cases hb'
        · rw [f1] at hb'; exact h2.buf i b' (by rw [← f2]; exact hlt) hb'
      · intro i t hlt hb'
        simp only [upd] at hb' ⊢
        split at hb'
        · next e =>
          cases hb'
          subst e
          refine ⟨by rw [f3, e3]; exact hn, by rw [f4, e4]; simp, ?_, ?_⟩
          · rw [if_pos rfl, f1, f4, e4]; simp only [upd_self]; rw [e1]; exact hj.2.symm
          · rw [f5, if_pos rfl, hq, hb]; rfl
        · next e =>
          rw [f1] at hb'
          obtain ⟨a1, a2, a3, a4⟩ := h2.tr i t (by rw [← f2]; exact hlt) hb'
          refine ⟨by rw [f3]; exact a1, by rw [f4]; exact a2, by rw [if_neg e, f4, f1]; exact a3, ?_⟩
          have : t ≠ n := by
            rintro rfl
            rw [e1] at hb'
            exact hfree i (by rw [← e2, ← f2]; exact hlt) hb'
          rw [f5, if_neg this, List.append_nil]; exact a4
      · intro i i' t hlt hlt' hb1 hb2
        have hlt1 : i < s2.nConn := by rw [← f2]; exact hlt
        have hlt2 : i' < s2.nConn := by rw [← f2]; exact hlt'
        simp only [upd] at hb1 hb2
        split at hb1
        · next x =>
          cases hb1
          split at hb2
          · next y => rw [x, y]
          · rw [f1, e1] at hb2; exact absurd hb2 (hfree i' (by rw [← e2]; exact hlt2))
        · split at hb2
          · cases hb2; rw [f1, e1] at hb1; exact absurd hb1 (hfree i (by rw [← e2]; exact hlt1))
          · rw [f1] at hb1 hb2; exact h2.inj i i' t hlt1 hlt2 hb1 hb2
      · intro t ht
        have htn : t ≠ n := by
          rintro rfl
          refine ht j (by show j < s3.nConn; rw [f2]; exact hjlt) ?_
          simp
        show written s3.out t = []
        rw [f5, if_neg htn, List.append_nil]
        refine h2.quiet t (fun i hlt => ?_)
        have := ht i (by show i < s3.nConn; rw [f2]; exact hlt)
        simp only [upd] at this
        split at this
        · next e => rw [e, hw]; exact Writer.noConfusion
        · rw [f1] at this; exact this

/-- The part of `arrived` of one event. -/
def arrivedNow (i : Nat) (s : St) : Ev → Bytes
  | .data k d => if (step s (.data k d)).conns.get k.inverse = some i then d else []
  | _ => []

theorem arrived_cons (i : Nat) (s : St) (e : Ev) (h : List Ev) :
    arrived i s (e :: h) = arrivedNow i s e ++ arrived i (step s e) h := by
  cases e <;> rfl

theorem Fed.openConnect {A : Nat → Bytes} {s : St} (h : Fed A s) (p i : Nat) (dst : Str) (q : Nat) :
    Fed A (openConnect s p i dst q) := by
  unfold Vnic.openConnect
  have h1 : Fed A (newCtl s p i false) := h.same rfl rfl (Nat.le_refl _) (fun _ _ => ⟨rfl, id⟩) (fun _ => rfl)
  split
  · exact h1.emit _ (fun _ _ => Eff.noConfusion)
  · next r _ =>
    dsimp only
    refine Fed.emit ?_ _ (fun _ _ => Eff.noConfusion)
    have h2 : Fed A { newCtl s p i false with cursor := r + 1, ports := s.ports.set r s.nCtl } :=
      h1.same rfl rfl (Nat.le_refl _) (fun _ _ => ⟨rfl, id⟩) (fun _ => rfl)
    have h3 := (h2.newConn s.nCtl ⟨s.address, r, dst, q⟩ []).startSpawn s.nCtl ⟨s.address, r, dst, q⟩
    have h4 := h3.congr (B := A) (by intro i; split <;> rw [List.append_nil])
    exact h4.same rfl rfl (Nat.le_refl _) (fun _ _ => ⟨rfl, id⟩) (fun _ => rfl)

theorem Fed.openSocket {A : Nat → Bytes} {s : St} (h : Fed A s) (p i : Nat) (r : Req) : Fed A (openSocket s p i r) := by
  unfold Vnic.openSocket
  split
  · exact h.emit _ (fun _ _ => Eff.noConfusion)
  · split
    · exact h.openConnect ..
    · unfold openListen
      split
      · refine Fed.emit ?_ _ (fun _ _ => Eff.noConfusion)
        exact h.same rfl rfl (Nat.le_refl _) (fun _ _ => ⟨rfl, id⟩) (fun _ => rfl)
      · refine Fed.emit ?_ _ (fun _ _ => Eff.noConfusion)
        exact h.same rfl rfl (Nat.le_refl _) (fun _ _ => ⟨rfl, id⟩) (fun _ => rfl)
    · exact h.emit _ (fun _ _ => Eff.noConfusion)

theorem Fed.linkWrite {A : Nat → Bytes} {s : St} (h : Fed A s) (k : Key) (d : Bytes) : Fed A (linkWrite s k d) := by
  unfold Vnic.linkWrite
  split
  · exact h.emit _ (fun _ _ => Eff.noConfusion)
  · exact h

theorem Fed.spawnSet {A : Nat → Bytes} {s : St} (h : Fed A s) (n : Nat) (x : Spawn) (hk : x.key = (s.spawn n).key)
    (hs : (s.spawn n).stage = .finished → x.stage = .finished) : Fed A { s with spawn := upd s.spawn n x } :=
  h.same rfl rfl (Nat.le_refl _) (fun t _ => by
    simp only [upd]; split
    · next e => subst e; exact ⟨hk, hs⟩
    · exact ⟨rfl, id⟩) (fun _ => rfl)

theorem Fed.step0 {A : Nat → Bytes} {s : St} (hi : Inv [] s) (h : Fed A s) (e : Ev) (he : ∀ k d, e ≠ .data k d) :
    Fed A (step s e) := by
  cases e with
  | ctlMade p =>
    simp only [step]; split
    · exact h
    · exact h.same rfl rfl (Nat.le_refl _) (fun _ _ => ⟨rfl, id⟩) (fun _ => rfl)
  | ctlLost p =>
    simp only [step]; split
    · unfold Vnic.ctlLost
      dsimp only
      have h1 : Fed A { s with dumps := s.dumps.erase p } := h.same rfl rfl (Nat.le_refl _) (fun _ _ => ⟨rfl, id⟩) (fun _ => rfl)
      exact (h1.closes (closeAll_closes (s.ids p).vals _)).same rfl rfl (Nat.le_refl _) (fun _ _ => ⟨rfl, id⟩) (fun _ => rfl)
    · exact h
  | openSocket p i r =>
    simp only [step]; split
    · exact h.openSocket p i r
    · exact h
  | closeSocket p i =>
    simp only [step]; split
    · unfold closeId
      split
      · exact h
      · next c _ => exact (h.closes (close_good s c)).same rfl rfl (Nat.le_refl _) (fun _ _ => ⟨rfl, id⟩) (fun _ => rfl)
    · exact h
  | startDump p =>
    simp only [step]; split
    · exact h.same rfl rfl (Nat.le_refl _) (fun _ _ => ⟨rfl, id⟩) (fun _ => rfl)
    · exact h
  | stopDump p => exact h.same rfl rfl (Nat.le_refl _) (fun _ _ => ⟨rfl, id⟩) (fun _ => rfl)
  | rawWire p k d =>
    simp only [step]; split
    · exact h.linkWrite k d
    · exact h
  | data k d => exact absurd rfl (he k d)
  | connected n =>
    simp only [step]; split
    · next hc => exact h.spawnSet n _ rfl (fun e => by rw [hc.2] at e; cases e)
    · exact h
  | failed n =>
    simp only [step]; split
    · exact (h.spawnSet n { s.spawn n with stage := .finished, lost := true } rfl (fun _ => rfl)).closes (close_good _ _)
    · exact h
  | finished n =>
    simp only [step]; split
    · next hc => exact h.finish hi n hc.1 hc.2
    · exact h
  | lost n =>
    simp only [step]; split
    · next hc =>
      have h1 := h.spawnSet n { s.spawn n with lost := true } rfl id
      unfold closeSpawned
      split
      · exact h1.closes (close_good.conn _ _)
      · exact h1.closes (close_good _ _)
    · exact h
  | reverse n d =>
    simp only [step]; split
    · exact h.linkWrite _ _
    · exact h
  | linkUp => exact h.same rfl rfl (Nat.le_refl _) (fun _ _ => ⟨rfl, id⟩) (fun _ => rfl)
  | linkDown => exact h.same rfl rfl (Nat.le_refl _) (fun _ _ => ⟨rfl, id⟩) (fun _ => rfl)

theorem Fed.step {A : Nat → Bytes} {s : St} (hi : Inv [] s) (h : Fed A s) (e : Ev) :
    Fed (fun i => A i ++ arrivedNow i s e) (step s e) := by
  by_cases he : ∃ k d, e = .data k d
  · obtain ⟨k, d, rfl⟩ := he
    exact h.demux hi k d
  · refine (h.step0 hi e (fun k d e' => he ⟨k, d, e'⟩)).congr ?_
    intro i
    cases e <;> first | exact (List.append_nil _).symm | exact absurd ⟨_, _, rfl⟩ he

theorem Fed.exec : ∀ (h : List Ev) {A : Nat → Bytes} {s : St}, Inv [] s → Fed A s →
    Fed (fun i => A i ++ arrived i s h) (exec s h)
  | [], A, s, _, hf => hf.congr (fun i => (List.append_nil _).symm)
  | e :: h, A, s, hi, hf => by
    have h1 := hf.step hi e
    have h2 := Fed.exec h (hi.step e) h1
    refine h2.congr ?_
    intro i
    rw [arrived_cons, List.append_assoc]

theorem Fed.reachable (a : Str) (h : List Ev) : Fed (fun i => arrived i (.init a) h) (Vnic.exec (.init a) h) :=
  (Fed.exec h (Inv.init a) (Fed.init a)).congr (fun i => List.nil_append _)

/-- C32. At every moment of every history, all data that arrived for a connection was written, in the order of arrival and
nothing else, to its callback connection if it is attached; otherwise it is all held back in this order. The callback
connection is the one opened for the key of the connection. -/
theorem C32_stream (a : Str) (h : List Ev) (i : Nat) (hi : i < (exec (.init a) h).nConn) :
    let s := exec (.init a) h
    ((s.conn i).writer = .buf (arrived i (.init a) h)) ∨
    ∃ t, (s.conn i).writer = .tr t ∧ written s.out t = arrived i (.init a) h ∧ (s.spawn t).key = (s.conn i).key := by
  intro s
  have hf := Fed.reachable a h
  cases hw : (s.conn i).writer with
  | buf b => left; rw [← hf.buf i b hi hw]
  | tr t =>
    right
    obtain ⟨_, _, h3, h4⟩ := hf.tr i t hi hw
    exact ⟨t, rfl, h4, h3⟩

/-- C32. Two connections never share a callback connection, and nothing is written to a callback connection that is not
attached to a connection. -/
theorem C32_own (a : Str) (h : List Ev) :
    let s := exec (.init a) h
    (∀ i j t, i < s.nConn → j < s.nConn → (s.conn i).writer = .tr t → (s.conn j).writer = .tr t → i = j) ∧
    ∀ t, (∀ i, i < s.nConn → (s.conn i).writer ≠ .tr t) → written s.out t = [] :=
  ⟨(Fed.reachable a h).inj, (Fed.reachable a h).quiet⟩

/-- C32. Data for a connection with an attached callback connection is written to it at once, and apart from the copies for the
dumping control connections nothing else is done. -/
theorem C32_now (a : Str) (h : List Ev) (k : Key) (d : Bytes) (i t : Nat)
    (hk : (exec (.init a) h).conns.get k.inverse = some i) (ht : ((exec (.init a) h).conn i).writer = .tr t) :
    let s := exec (.init a) h
    step s (.data k d) = { s with out := s.out ++ (s.dumps.map fun p => .dump p k d) ++ [.write t d] } := by
  intro s
  show demux s k d = _
  unfold demux demuxLocal
  rw [show (dumpAll s k d).conns = s.conns from rfl, hk]
  dsimp only
  unfold writeConn
  rw [show ((dumpAll s k d).conn i).writer = .tr t from ht]
  rfl

/-- C32. When the callback connection is made and its connection is still there, unattached, everything held back is written at
once, before the connection is announced. -/
theorem C32_attach (a : Str) (h : List Ev) (n i : Nat) (b : Bytes)
    (hn : n < (exec (.init a) h).nSpawn) (hst : ((exec (.init a) h).spawn n).stage = .connected)
    (hk : (exec (.init a) h).conns.get ((exec (.init a) h).spawn n).key = some i)
    (hw : ((exec (.init a) h).conn i).writer = .buf b) :
    let s := exec (.init a) h
    let s' := step s (.finished n)
    let c := (s.spawn n).control
    (s'.conn i).writer = .tr n ∧ s'.conns = s.conns ∧
    s'.out = s.out ++ (if b = [] then [] else [.write n b]) ++
      [if (s.ctl c).proto ∈ s.up then .announce (s.ctl c).proto (s.ctl c).connectionId n (s.spawn n).key else .raised] := by
  intro s s' c
  have hs' : s' = spawnFinished s n := by
    show step s _ = _
    simp only [step]; rw [if_pos ⟨hn, hst⟩]
  rw [hs']
  unfold spawnFinished
  dsimp only [St.setCtl]
  rw [hk]
  dsimp only
  rw [hw]
  unfold attach
  dsimp only
  by_cases hp : (s.ctl c).proto ∈ s.up
  · by_cases hb : b = []
    · simp [announce, St.emit, hb, c, upd_self, show (s.ctl (s.spawn n).control).proto ∈ s.up from hp]
    · simp [announce, St.emit, hb, c, upd_self, show (s.ctl (s.spawn n).control).proto ∈ s.up from hp]
  · by_cases hb : b = []
    · simp [announce, St.emit, hb, c, upd_self, show ¬ (s.ctl (s.spawn n).control).proto ∈ s.up from hp]
    · simp [announce, St.emit, hb, c, upd_self, show ¬ (s.ctl (s.spawn n).control).proto ∈ s.up from hp]

/-- A case of it: two connections, data before and after their callback connections are there. -/
example :
    let k2 : Key := ⟨"3.3.3.3".toList, 7, "1.1.1.1".toList, 80⟩
    let h := Ex.h1 ++ [.data k2 [9], .data Ex.k [2], .data k2 [8], .connected 1, .data k2 [7], .finished 1, .data k2 [6], .data Ex.k [3]]
    let s := exec (.init Ex.addr) h
    written s.out 0 = [1, 2, 3] ∧ written s.out 1 = [9, 8, 7, 6] ∧ arrived 1 (.init Ex.addr) h = [9, 8, 7, 6] ∧
    s.nConn = 2 ∧ (s.conn 1).writer = .tr 1 ∧ (s.conn 0).writer = .tr 0 := by decide +kernel

end Verif.Vnic
