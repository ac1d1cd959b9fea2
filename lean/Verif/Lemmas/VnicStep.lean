import Verif.Lemmas.VnicInv
/-! # Every event preserves the invariant of the VNIC -/
namespace Verif.Vnic

/-! ## Closing does not look at the tasks -/

def St.withSpawn (s : St) (f : Nat → Spawn) : St := { s with spawn := f }

def Blind (cl : St → Nat → St) : Prop := ∀ s c f, cl (s.withSpawn f) c = (cl s c).withSpawn f

theorem Blind.conn {cl} (h : Blind cl) (s : St) (k : Key) (f : Nat → Spawn) :
    closeConnWith cl (s.withSpawn f) k = (closeConnWith cl s k).withSpawn f := by
  unfold closeConnWith
  rw [show (s.withSpawn f).conns = s.conns from rfl]
  cases hg : s.conns.get k with
  | none => rfl
  | some i =>
    dsimp only
    change spawnedClosed cl (closeWriter { s with conns := s.conns.del k, spawn := f } (s.conn i).writer)
      (s.conn i).control (s.conn i).key = _
    have e : closeWriter { s with conns := s.conns.del k, spawn := f } (s.conn i).writer
        = (closeWriter { s with conns := s.conns.del k } (s.conn i).writer).withSpawn f := by
      cases (s.conn i).writer <;> rfl
    rw [e]
    generalize closeWriter { s with conns := s.conns.del k } (s.conn i).writer = s1
    unfold spawnedClosed
    dsimp only
    rw [show (s1.withSpawn f).ctl = s1.ctl from rfl]
    split
    · rw [← h]; rfl
    · rfl

theorem Blind.conns {cl} (h : Blind cl) : ∀ (ks : List Key) (s : St) (f : Nat → Spawn),
    closeConnsWith cl (s.withSpawn f) ks = (closeConnsWith cl s ks).withSpawn f
  | [], _, _ => rfl
  | k :: ks, s, f => by
    rw [closeConnsWith, closeConnsWith, h.conn, h.conns ks]

theorem Blind.own {cl} (h : Blind cl) (s : St) (p : Option Nat) (f : Nat → Spawn) :
    closeOwnPort cl (s.withSpawn f) p = (closeOwnPort cl s p).withSpawn f := by
  cases p with
  | none => rfl
  | some p =>
    unfold closeOwnPort closePortWith
    dsimp only
    rw [show (s.withSpawn f).ports = s.ports from rfl]
    cases s.ports.get p with
    | none => rfl
    | some c => exact h { s with ports := s.ports.del p } c f

theorem closeFuel_blind : ∀ n, Blind (closeFuel n)
  | 0, _, _, _ => rfl
  | n + 1, s, c, f => by
    rw [closeFuel, closeFuel, show (s.withSpawn f).ctl = s.ctl from rfl]
    split
    · rfl
    · dsimp only
      have ih := closeFuel_blind n
      rw [← ih.own, ← ih.conns]
      rfl

theorem close_blind : Blind close := fun s c f => closeFuel_blind _ s c f

/-! ## Small changes -/

theorem Inv.sameButOut {X : List Nat} {s s' : St} (h : Inv X s) (e1 : s'.ports = s.ports) (e2 : s'.conns = s.conns)
    (e3 : s'.ids = s.ids) (e4 : s'.nCtl = s.nCtl) (e5 : s'.ctl = s.ctl) (e6 : s'.nConn = s.nConn)
    (e7 : ∀ i, (s'.conn i).key = (s.conn i).key ∧ (s'.conn i).control = (s.conn i).control)
    (e8 : s'.nSpawn = s.nSpawn) (e9 : s'.spawn = s.spawn) (e10 : s'.cursor = s.cursor) : Inv X s' where
  wfp := by rw [e1]; exact h.wfp
  wfc := by rw [e2]; exact h.wfc
  wfi := by rw [e3]; exact h.wfi
  fresh := by unfold Fresh; rw [e4, e5]; exact h.fresh
  port1 := by rw [e1, e4, e5]; exact h.port1
  port2 := by rw [e1, e5]; exact h.port2
  conn1 := by
    intro k i hg; rw [e2] at hg
    rw [e6, (e7 i).1]; exact h.conn1 k i hg
  connc := by
    intro i hi; rw [e6] at hi
    rw [(e7 i).2, e4]; exact h.connc i hi
  spc := by rw [e8, e9, e4]; exact h.spc
  pend := by
    intro k i hg ho
    rw [e2] at hg; rw [(e7 i).2, e5] at ho ⊢
    unfold Pending
    rw [e8, e9]
    exact h.pend k i hg ho
  ids := by rw [e3, e4, e5]; exact h.ids
  cur := by rw [e10]; exact h.cur

theorem Inv.emit {X : List Nat} {s : St} (h : Inv X s) (e : Eff) : Inv X (s.emit e) :=
  h.sameButOut rfl rfl rfl rfl rfl rfl (fun _ => ⟨rfl, rfl⟩) rfl rfl rfl

theorem Inv.newCtl {s : St} (h : Inv [] s) (proto id : Nat) (l : Bool) : Inv [] (newCtl s proto id l) where
  wfp := h.wfp
  wfc := h.wfc
  wfi := fun p => by
    simp only [Vnic.newCtl, upd]
    split
    · exact (h.wfi proto).set _ _
    · exact h.wfi p
  fresh := fun c hc => by
    simp only [Vnic.newCtl] at hc
    simp only [Vnic.newCtl, upd]
    rw [if_neg (by omega)]
    exact h.fresh c (by omega)
  port1 := fun p c hg => by
    have := h.port1 p c hg
    simp only [Vnic.newCtl, upd]
    rw [if_neg (by omega)]
    exact ⟨by omega, this.2⟩
  port2 := fun p c hcl hp => by
    simp only [Vnic.newCtl, upd] at hcl hp
    split at hp
    · cases hp
    · next hn => rw [if_neg hn] at hcl; exact h.port2 p c hcl hp
  conn1 := h.conn1
  connc := fun i hi => by
    have := h.connc i hi
    show (s.conn i).control < s.nCtl + 1
    omega
  spc := fun n hn => by
    have := h.spc n hn
    show (s.spawn n).control < s.nCtl + 1
    omega
  pend := fun k i hg ho => by
    have hlt := h.connc i (h.conn1 k i hg).1
    simp only [Vnic.newCtl, upd] at ho ⊢
    rw [if_neg (by omega)] at ho ⊢
    exact h.pend k i hg ho
  ids := fun p i c hg => by
    simp only [Vnic.newCtl, upd] at hg ⊢
    split at hg
    · next hp =>
      rw [Dict.get_set] at hg
      split at hg
      · next hi => cases hg; simp [hp, hi]
      · have := h.ids proto i c hg
        rw [if_neg (by omega), hp]
        exact ⟨by omega, this.2⟩
    · have := h.ids p i c hg
      rw [if_neg (by omega)]
      exact ⟨by omega, this.2⟩
  cur := h.cur

/-- A new control object gets a free port. -/
theorem Inv.newPort {s : St} (h : Inv [] s) (proto id : Nat) (l : Bool) (p cur : Nat) (hp : s.ports.get p = none)
    (hcur : 2000 ≤ cur) :
    Inv [] (setPort { Vnic.newCtl s proto id l with cursor := cur, ports := s.ports.set p s.nCtl } s.nCtl p) := by
  have h1 := h.newCtl proto id l
  refine { h1 with wfp := h.wfp.set _ _, fresh := ?_, port1 := ?_, port2 := ?_, pend := ?_, ids := ?_, cur := hcur, .. }
  · intro c hc
    simp only [setPort, St.setCtl, Vnic.newCtl, upd] at hc ⊢
    rw [if_neg (by omega), if_neg (by omega)]
    exact h.fresh c (by omega)
  · intro q c hg
    simp only [setPort, St.setCtl, Vnic.newCtl] at hg
    rw [Dict.get_set] at hg
    split at hg
    · next e => cases hg; subst e; simp [setPort, St.setCtl, Vnic.newCtl, upd]
    · have := h.port1 q c hg
      simp only [setPort, St.setCtl, Vnic.newCtl, upd]
      rw [if_neg (by omega), if_neg (by omega)]
      exact ⟨by omega, this.2⟩
  · intro q c hcl hq
    simp only [setPort, St.setCtl, Vnic.newCtl, upd] at hcl hq
    show (s.ports.set p s.nCtl).get q = some c
    rw [Dict.get_set]
    by_cases hc : c = s.nCtl
    · subst hc
      rw [if_pos rfl] at hq
      cases hq; simp
    · rw [if_neg hc, if_neg hc] at hcl hq
      have := h.port2 q c hcl hq
      rw [if_neg]
      · exact this
      · rintro rfl; rw [hp] at this; cases this
  · intro k i hg ho
    have hlt := h.connc i (h.conn1 k i hg).1
    simp only [setPort, St.setCtl, Vnic.newCtl, upd] at ho ⊢
    rw [if_neg (by omega), if_neg (by omega)] at ho ⊢
    exact h.pend k i hg ho
  · intro q i c hg
    have := h1.ids q i c hg
    simp only [setPort, St.setCtl, Vnic.newCtl, upd] at this ⊢
    by_cases hc : c = s.nCtl
    · subst hc; simpa using this
    · rw [if_neg hc] at this; rw [if_neg hc, if_neg hc]; exact this

/-- A new connection with its task. -/
theorem Inv.newConn {s : St} (h : Inv [] s) (c : Nat) (k : Key) (d : Bytes) (hc : c < s.nCtl) :
    Inv [] (startSpawn (Vnic.newConn s c k d) c k) where
  wfp := h.wfp
  wfc := h.wfc.set _ _
  wfi := h.wfi
  fresh := h.fresh
  port1 := h.port1
  port2 := h.port2
  conn1 := fun k' i hg => by
    simp only [startSpawn, Vnic.newConn, upd] at hg ⊢
    rw [Dict.get_set] at hg
    split at hg
    · next e => cases hg; simp [e]
    · have := h.conn1 k' i hg
      rw [if_neg (by omega)]
      exact ⟨by omega, this.2⟩
  connc := fun i hi => by
    simp only [startSpawn, Vnic.newConn, upd] at hi ⊢
    split
    · exact hc
    · exact h.connc i (by omega)
  spc := fun n hn => by
    simp only [startSpawn, Vnic.newConn, upd] at hn ⊢
    split
    · exact hc
    · exact h.spc n (by omega)
  pend := fun k' i hg ho => by
    simp only [startSpawn, Vnic.newConn, upd, Pending] at hg ho ⊢
    rw [Dict.get_set] at hg
    split at hg
    · next e =>
      cases hg
      right
      refine ⟨s.nSpawn, by omega, ?_⟩
      simp [e]
    · have hlt := (h.conn1 k' i hg).1
      rw [if_neg (by omega)] at ho ⊢
      rcases h.pend k' i hg ho with h1 | ⟨n, h1, h2⟩
      · exact .inl h1
      · refine .inr ⟨n, by omega, ?_⟩
        rw [if_neg (by omega)]
        exact h2
  ids := h.ids
  cur := h.cur

theorem firstFree_spec {ports : Dict Nat Nat} {lo p : Nat} (h : firstFree ports lo = some p) :
    lo ≤ p ∧ p < 65535 ∧ ports.get p = none := by
  unfold firstFree at h
  have h1 := List.mem_of_find?_eq_some h
  have h2 := List.find?_some h
  rw [List.mem_range'_1] at h1
  refine ⟨h1.1, by omega, ?_⟩
  simp [Dict.has] at h2
  exact h2

theorem nextPort_spec {s : St} (hcur : 2000 ≤ s.cursor) {p : Nat} (h : nextPort s = some p) :
    2000 ≤ p ∧ p < 65535 ∧ s.ports.get p = none := by
  unfold nextPort at h
  split at h
  · next q hq =>
    cases h
    have := firstFree_spec hq
    exact ⟨by omega, this.2⟩
  · exact firstFree_spec h

/-- The generator loops for ever exactly when every port is taken. -/
theorem nextPort_none {s : St} (hcur : 2000 ≤ s.cursor) :
    nextPort s = none ↔ ∀ p, 2000 ≤ p → p < 65535 → s.ports.get p ≠ none := by
  constructor
  · intro h p h1 h2 hp
    unfold nextPort at h
    split at h
    · cases h
    · unfold firstFree at h
      rw [List.find?_eq_none] at h
      exact h p (List.mem_range'_1.mpr ⟨h1, by omega⟩) (by simp [Dict.has, hp])
  · intro h
    cases hn : nextPort s with
    | none => rfl
    | some p =>
      have := nextPort_spec hcur hn
      exact absurd this.2.2 (h p this.1 this.2.1)

theorem Inv.openConnect {s : St} (h : Inv [] s) (proto id : Nat) (dst : Str) (dport : Nat) :
    Inv [] (openConnect s proto id dst dport) := by
  unfold Vnic.openConnect
  split
  · exact (h.newCtl _ _ _).emit _
  · next p hp =>
    have hs := nextPort_spec h.cur hp
    have h1 := h.newPort proto id false p (p + 1) hs.2.2 (by omega)
    have h2 := h1.newConn s.nCtl ⟨s.address, p, dst, dport⟩ [] (by simp [setPort, St.setCtl, Vnic.newCtl])
    exact Inv.emit (s := startSpawn (Vnic.newConn _ s.nCtl ⟨s.address, p, dst, dport⟩ []) s.nCtl _) h2 _

theorem Inv.openListen {s : St} (h : Inv [] s) (proto id p : Nat) : Inv [] (openListen s proto id p) := by
  unfold Vnic.openListen
  split
  · exact (h.newCtl _ _ _).emit _
  · next hp =>
    have h1 := h.newPort proto id true p s.cursor (by simpa [Dict.has] using hp) h.cur
    exact h1.emit _

theorem Inv.openSocket {s : St} (h : Inv [] s) (proto id : Nat) (r : Req) : Inv [] (openSocket s proto id r) := by
  unfold Vnic.openSocket
  split
  · exact h.emit _
  · cases r with
    | connect dst dport => exact h.openConnect ..
    | listen p => exact h.openListen ..
    | other => exact h.emit _

theorem Inv.setIds {s : St} (h : Inv [] s) (p : Nat) (d : Dict Nat Nat) (hw : Dict.WF d)
    (hd : ∀ i c, d.get i = some c → (s.ids p).get i = some c) : Inv [] { s with ids := upd s.ids p d } := by
  refine { h with wfi := ?_, ids := ?_, .. }
  · intro q
    simp only [upd]
    split
    · exact hw
    · exact h.wfi q
  · intro q i c hg
    simp only [upd] at hg
    split at hg
    · next e => subst e; exact h.ids q i c (hd i c hg)
    · exact h.ids q i c hg

theorem Inv.closeId {s : St} (h : Inv [] s) (p i : Nat) : Inv [] (closeId s p i) := by
  unfold Vnic.closeId
  split
  · exact h
  · next c hc =>
    have h1 := close_inv.2 [] s c h
    dsimp only
    refine h1.setIds p _ ((h1.wfi p).del i) ?_
    intro j x hx
    rw [Dict.get_del (h1.wfi p)] at hx
    split at hx
    · cases hx
    · exact hx

theorem Inv.closeAll : ∀ (cs : List Nat) {s : St}, Inv [] s → Inv [] (closeAll s cs)
  | [], _, h => h
  | c :: cs, s, h => Inv.closeAll cs (close_inv.2 [] s c h)

theorem closeAll_closes : ∀ (cs : List Nat) (s : St), Closes s (closeAll s cs)
  | [], s => .refl s
  | c :: cs, s => (close_good s c).trans (closeAll_closes cs _)

theorem Inv.ctlLost {s : St} (h : Inv [] s) (p : Nat) : Inv [] (ctlLost s p) := by
  unfold Vnic.ctlLost
  have h0 : Inv [] { s with dumps := s.dumps.erase p } :=
    h.sameButOut rfl rfl rfl rfl rfl rfl (fun _ => ⟨rfl, rfl⟩) rfl rfl rfl
  have h1 := h0.closeAll (s.ids p).vals
  have h2 := h1.setIds p [] Dict.WF.nil (by intro i c hg; cases hg)
  exact h2.sameButOut rfl rfl rfl rfl rfl rfl (fun _ => ⟨rfl, rfl⟩) rfl rfl rfl

theorem Inv.demux {s : St} (h : Inv [] s) (k : Key) (d : Bytes) : Inv [] (demux s k d) := by
  unfold Vnic.demux
  have h1 : Inv [] (dumpAll s k d) := h.sameButOut rfl rfl rfl rfl rfl rfl (fun _ => ⟨rfl, rfl⟩) rfl rfl rfl
  generalize dumpAll s k d = s1 at h1
  unfold demuxLocal
  split
  · next i hi =>
    unfold writeConn
    split
    · next b hb =>
      refine h1.sameButOut rfl rfl rfl rfl rfl rfl ?_ rfl rfl rfl
      intro j
      simp only [upd]
      split
      · next e => subst e; exact ⟨rfl, rfl⟩
      · exact ⟨rfl, rfl⟩
    · exact h1.emit _
  · split
    · exact h1
    · next c hc =>
      split
      · exact h1.newConn c _ d (h1.port1 _ _ hc).1
      · exact h1

theorem Inv.spawnSame {s : St} (h : Inv [] s) (n : Nat) (x : Spawn) (h1 : x.control = (s.spawn n).control)
    (h2 : x.key = (s.spawn n).key) (h3 : (s.spawn n).stage ≠ .finished → x.stage ≠ .finished) :
    Inv [] { s with spawn := upd s.spawn n x } := by
  refine { h with spc := ?_, pend := ?_, .. }
  · intro m hm
    simp only [upd]
    split
    · next e => subst e; rw [h1]; exact h.spc m hm
    · exact h.spc m hm
  · intro k i hg ho
    rcases h.pend k i hg ho with h4 | ⟨m, a1, a2, a3, a4⟩
    · exact .inl h4
    · refine .inr ⟨m, a1, ?_⟩
      simp only [upd]
      split
      · next e => subst e; exact ⟨h1.trans a2, h2.trans a3, h3 a4⟩
      · exact ⟨a2, a3, a4⟩

/-- A task ends without success: fine once the control object is closed. -/
theorem Inv.spawnDone {s : St} (h : Inv [] s) (n : Nat) (x : Spawn) (h1 : x.control = (s.spawn n).control)
    (hc : (s.ctl (s.spawn n).control).closed = true ∨ (s.spawn n).key ∈ (s.ctl (s.spawn n).control).spawned) :
    Inv [] { s with spawn := upd s.spawn n x } := by
  refine { h with spc := ?_, pend := ?_, .. }
  · intro m hm
    simp only [upd]
    split
    · next e => subst e; rw [h1]; exact h.spc m hm
    · exact h.spc m hm
  · intro k i hg ho
    rcases h.pend k i hg ho with h4 | ⟨m, a1, a2, a3, a4⟩
    · exact .inl h4
    · by_cases e : m = n
      · subst e
        rcases hc with hc | hc
        · have hcl : (s.ctl (s.conn i).control).closed = false := ho
          rw [a2, hcl] at hc; cases hc
        · left; rw [a2, a3] at hc; exact hc
      · refine .inr ⟨m, a1, ?_⟩
        simp only [upd]
        rw [if_neg e]
        exact ⟨a2, a3, a4⟩

theorem close_closed (s : St) (c : Nat) : ((close s c).ctl c).closed = true := by
  unfold close
  rw [closeFuel]
  split
  · assumption
  · dsimp only
    have h1 := (closeFuel_good s.nCtl).conns (s.ctl c).spawned (s.setCtl c { s.ctl c with closed := true, spawned := [] })
    have h2 := (closeFuel_good s.nCtl).own (closeConnsWith (closeFuel s.nCtl) (s.setCtl c { s.ctl c with closed := true, spawned := [] })
      (s.ctl c).spawned) (s.ctl c).port
    exact ((h1.trans h2).ctl c).2.2.2.2.1 (by simp [St.setCtl])

theorem Inv.addKey {s : St} (h : Inv [] s) (c : Nat) (k : Key) : Inv [] (s.setCtl c { s.ctl c with
    spawned := if k ∈ (s.ctl c).spawned then (s.ctl c).spawned else (s.ctl c).spawned ++ [k] }) := by
  generalize hsp : (if k ∈ (s.ctl c).spawned then (s.ctl c).spawned else (s.ctl c).spawned ++ [k]) = sp
  have hsub : ∀ x ∈ (s.ctl c).spawned, x ∈ sp := by
    intro x hx; rw [← hsp]; split
    · exact hx
    · exact List.mem_append_left _ hx
  have e : ∀ x, ((s.setCtl c { s.ctl c with spawned := sp }).ctl x).closed = (s.ctl x).closed ∧
      ((s.setCtl c { s.ctl c with spawned := sp }).ctl x).port = (s.ctl x).port ∧
      ((s.setCtl c { s.ctl c with spawned := sp }).ctl x).proto = (s.ctl x).proto ∧
      ((s.setCtl c { s.ctl c with spawned := sp }).ctl x).connectionId = (s.ctl x).connectionId ∧
      (∀ y ∈ (s.ctl x).spawned, y ∈ ((s.setCtl c { s.ctl c with spawned := sp }).ctl x).spawned) := by
    intro x
    simp only [St.setCtl, upd]
    split
    · next e => subst e; exact ⟨rfl, rfl, rfl, rfl, hsub⟩
    · exact ⟨rfl, rfl, rfl, rfl, fun _ h => h⟩
  refine { h with fresh := ?_, port1 := ?_, port2 := ?_, pend := ?_, ids := ?_, .. }
  · intro x hx; rw [(e x).1]; exact h.fresh x hx
  · intro p x hg; rw [(e x).1, (e x).2.1]; exact h.port1 p x hg
  · intro p x hcl hp; rw [(e x).1] at hcl; rw [(e x).2.1] at hp; exact h.port2 p x hcl hp
  · intro k' i hg ho
    have e' := e (s.conn i).control
    change ((s.setCtl c { s.ctl c with spawned := sp }).ctl (s.conn i).control).closed = false at ho
    rw [e'.1] at ho
    rcases h.pend k' i hg ho with h1 | h1
    · exact .inl (e'.2.2.2.2 k' h1)
    · exact .inr h1
  · intro p i x hg
    rw [(e x).2.2.1, (e x).2.2.2.1]; exact h.ids p i x hg

theorem Inv.finish {s : St} (h : Inv [] s) (n : Nat) : Inv [] (spawnFinished s n) := by
  unfold spawnFinished
  dsimp only
  have h1 := h.addKey (s.spawn n).control (s.spawn n).key
  have h2 := h1.spawnDone n { s.spawn n with stage := .finished } rfl (.inr (by
    simp only [St.setCtl, upd_self]
    split
    · assumption
    · simp))
  have e : (St.setCtl { s with spawn := upd s.spawn n { s.spawn n with stage := .finished } } (s.spawn n).control
      { s.ctl (s.spawn n).control with spawned := if (s.spawn n).key ∈ (s.ctl (s.spawn n).control).spawned then
        (s.ctl (s.spawn n).control).spawned else (s.ctl (s.spawn n).control).spawned ++ [(s.spawn n).key] })
    = { s.setCtl (s.spawn n).control
      { s.ctl (s.spawn n).control with spawned := if (s.spawn n).key ∈ (s.ctl (s.spawn n).control).spawned then
        (s.ctl (s.spawn n).control).spawned else (s.ctl (s.spawn n).control).spawned ++ [(s.spawn n).key] } with
        spawn := upd s.spawn n { s.spawn n with stage := .finished } } := rfl
  rw [e]
  change Inv [] { s.setCtl (s.spawn n).control
      { s.ctl (s.spawn n).control with spawned := if (s.spawn n).key ∈ (s.ctl (s.spawn n).control).spawned then
        (s.ctl (s.spawn n).control).spawned else (s.ctl (s.spawn n).control).spawned ++ [(s.spawn n).key] } with
        spawn := upd s.spawn n { s.spawn n with stage := .finished } } at h2
  generalize (({ s.setCtl (s.spawn n).control
      { s.ctl (s.spawn n).control with spawned := if (s.spawn n).key ∈ (s.ctl (s.spawn n).control).spawned then
        (s.ctl (s.spawn n).control).spawned else (s.ctl (s.spawn n).control).spawned ++ [(s.spawn n).key] } with
        spawn := upd s.spawn n { s.spawn n with stage := .finished } }) : St) = s2 at h2
  split
  · exact h2.emit _
  · next i hi =>
    unfold attach
    split
    · exact h2.emit _
    · next b hb =>
      have h3 : Inv [] (if b = [] then s2 else s2.emit (.write n b)) := by
        split
        · exact h2
        · exact h2.emit _
      generalize (if b = [] then s2 else s2.emit (.write n b)) = s3 at h3
      have h4 : Inv [] { s3 with conn := upd s3.conn i { s3.conn i with writer := .tr n } } := by
        refine h3.sameButOut rfl rfl rfl rfl rfl rfl ?_ rfl rfl rfl
        intro j
        simp only [upd]
        split
        · next e => subst e; exact ⟨rfl, rfl⟩
        · exact ⟨rfl, rfl⟩
      dsimp only
      unfold announce
      split
      · exact h4.emit _
      · exact h4.emit _

theorem Inv.step {s : St} (h : Inv [] s) (e : Ev) : Inv [] (step s e) := by
  cases e with
  | ctlMade p =>
    simp only [Vnic.step]; split
    · exact h
    · exact h.sameButOut rfl rfl rfl rfl rfl rfl (fun _ => ⟨rfl, rfl⟩) rfl rfl rfl
  | ctlLost p => simp only [Vnic.step]; split <;> first | exact h.ctlLost p | exact h
  | openSocket p i r => simp only [Vnic.step]; split <;> first | exact h.openSocket .. | exact h
  | closeSocket p i => simp only [Vnic.step]; split <;> first | exact h.closeId .. | exact h
  | startDump p =>
    simp only [Vnic.step]; split
    · exact h.sameButOut rfl rfl rfl rfl rfl rfl (fun _ => ⟨rfl, rfl⟩) rfl rfl rfl
    · exact h
  | stopDump p => exact h.sameButOut rfl rfl rfl rfl rfl rfl (fun _ => ⟨rfl, rfl⟩) rfl rfl rfl
  | rawWire p k d =>
    simp only [Vnic.step, linkWrite]; split
    · split
      · exact h.emit _
      · exact h
    · exact h
  | data k d => exact h.demux k d
  | connected n =>
    simp only [Vnic.step]; split
    · exact h.spawnSame n _ rfl rfl (by simp)
    · exact h
  | failed n =>
    simp only [Vnic.step]; split
    · have h1 := close_inv.2 [] s (s.spawn n).control h
      have hc := close_good s (s.spawn n).control
      have h2 := h1.spawnDone n { s.spawn n with stage := .finished, lost := true } (by rw [hc.spawn])
        (.inl (by rw [hc.spawn]; exact close_closed _ _))
      rw [hc.spawn] at h2
      have := close_blind s (s.spawn n).control (upd s.spawn n { s.spawn n with stage := .finished, lost := true })
      unfold St.withSpawn at this
      rw [this]; exact h2
    · exact h
  | finished n => simp only [Vnic.step]; split <;> first | exact h.finish n | exact h
  | lost n =>
    simp only [Vnic.step]; split
    · have h1 := h.spawnSame n { s.spawn n with lost := true } rfl rfl id
      unfold closeSpawned
      split
      · exact (close_inv.conn h1 _).1
      · exact close_inv.2 _ _ _ h1
    · exact h
  | reverse n d =>
    simp only [Vnic.step, linkWrite]; split
    · split
      · exact h.emit _
      · exact h
    · exact h
  | linkUp => exact h.sameButOut rfl rfl rfl rfl rfl rfl (fun _ => ⟨rfl, rfl⟩) rfl rfl rfl
  | linkDown => exact h.sameButOut rfl rfl rfl rfl rfl rfl (fun _ => ⟨rfl, rfl⟩) rfl rfl rfl

theorem Inv.exec : ∀ (h : List Ev) {s : St}, Inv [] s → Inv [] (exec s h)
  | [], _, hs => hs
  | e :: h, _, hs => Inv.exec h (hs.step e)

theorem exec_append (s : St) (a b : List Ev) : exec s (a ++ b) = exec (exec s a) b := by
  induction a generalizing s with
  | nil => rfl
  | cons e a ih => exact ih _

/-- All states that can be reached from a new VNIC. -/
theorem Inv.reachable (a : Str) (h : List Ev) : Inv [] (Vnic.exec (.init a) h) := Inv.exec h (Inv.init a)

end Verif.Vnic
