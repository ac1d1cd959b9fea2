import Verif.Lemmas.VnicStep
import Verif.Spec.Vnic
/-! # C31, C33, C34, C35: ports, listening, closing, responses -/
namespace Verif.Vnic

/-! ## C31 -/

theorem inUse_iff {s : St} (h : Inv [] s) (p : Nat) : s.ports.get p ≠ none ↔ ∃ c, OpenOn s c p := by
  constructor
  · intro hp
    cases hg : s.ports.get p with
    | none => exact absurd hg hp
    | some c =>
      have := h.port1 p c hg
      refine ⟨c, ?_, this.2.1⟩
      cases hc : (s.ctl c).closed with
      | false => rfl
      | true => cases this.2.2 hc
  · rintro ⟨c, h1, h2⟩ hn
    rw [h.port2 p c h1 h2] at hn; cases hn

/-- C31. Whatever happened, no two open sockets are on the same port. -/
theorem C31_unique (a : Str) (h : List Ev) {c c' p : Nat} (h1 : OpenOn (exec (.init a) h) c p)
    (h2 : OpenOn (exec (.init a) h) c' p) : c = c' := by
  have hi := Inv.reachable a h
  have e1 := hi.port2 p c h1.1 h1.2
  have e2 := hi.port2 p c' h2.1 h2.2
  rw [e1] at e2; exact Option.some.inj e2

/-- C31. A connect request is answered with a port in 2000..65534 that no open socket has, the socket is then open on this
port — provided some port is free. -/
theorem C31_outbound (a : Str) (h : List Ev) (proto id dport : Nat) (dst : Str)
    (hup : proto ∈ (exec (.init a) h).up) (hid : ((exec (.init a) h).ids proto).has id = false)
    (hfree : ∃ p, 2000 ≤ p ∧ p ≤ 65534 ∧ ∀ c, ¬ OpenOn (exec (.init a) h) c p) :
    let s := exec (.init a) h
    let s' := exec (.init a) (h ++ [.openSocket proto id (.connect dst dport)])
    ∃ p, s'.out = s.out ++ [.respond proto id (.port p)] ∧ 2000 ≤ p ∧ p ≤ 65534 ∧ (∀ c, ¬ OpenOn s c p) ∧
      OpenOn s' s.nCtl p ∧ (s'.ctl s.nCtl).listener = false := by
  intro s s'
  have hi : Inv [] s := Inv.reachable a h
  have hs' : s' = openConnect s proto id dst dport := by
    show exec _ _ = _
    rw [exec_append]
    show (if proto ∈ s.up then openSocket s proto id _ else s) = _
    rw [if_pos hup, openSocket, if_neg (by rw [hid]; simp)]
  cases hn : nextPort s with
  | none =>
    obtain ⟨p, h1, h2, h3⟩ := hfree
    have := (nextPort_none hi.cur).mp hn p h1 (by omega)
    obtain ⟨c, hc⟩ := (inUse_iff hi p).mp this
    exact absurd hc (h3 c)
  | some p =>
    have hsp := nextPort_spec hi.cur hn
    rw [hs']
    unfold openConnect
    rw [hn]
    refine ⟨p, rfl, hsp.1, by omega, ?_, ?_, ?_⟩
    · intro c hc
      exact (inUse_iff hi p).mpr ⟨c, hc⟩ hsp.2.2
    · simp [OpenOn, St.emit, setPort, St.setCtl, startSpawn, newConn, newCtl]
    · simp [St.emit, setPort, St.setCtl, startSpawn, newConn, newCtl]

/-- C31. A connect request makes the VNIC loop for ever exactly when all ports are in use. -/
theorem C31_exhausted (a : Str) (h : List Ev) (proto id dport : Nat) (dst : Str)
    (hup : proto ∈ (exec (.init a) h).up) (hid : ((exec (.init a) h).ids proto).has id = false) :
    (exec (.init a) (h ++ [.openSocket proto id (.connect dst dport)])).out = (exec (.init a) h).out ++ [.hang] ↔
      ∀ p, 2000 ≤ p → p ≤ 65534 → ∃ c, OpenOn (exec (.init a) h) c p := by
  have hi := Inv.reachable a h
  rw [exec_append]
  generalize exec (.init a) h = s at *
  have hs' : exec s [.openSocket proto id (.connect dst dport)] = openConnect s proto id dst dport := by
    simp only [exec, step]
    rw [if_pos hup, openSocket, if_neg (by rw [hid]; simp)]
  rw [hs']
  unfold openConnect
  constructor
  · intro ho
    have hn : nextPort s = none := by
      cases hn : nextPort s with
      | none => rfl
      | some p => rw [hn] at ho; simp [St.emit, setPort, St.setCtl, startSpawn, newConn, newCtl] at ho
    intro p h1 h2
    exact (inUse_iff hi p).mp ((nextPort_none hi.cur).mp hn p h1 (by omega))
  · intro hall
    have hn : nextPort s = none := (nextPort_none hi.cur).mpr fun p h1 h2 => (inUse_iff hi p).mpr (hall p h1 (by omega))
    rw [hn]; rfl

/-- C31. A listen request is granted exactly when no open socket has the port; it is then open on it. -/
theorem C31_listen (a : Str) (h : List Ev) (proto id p : Nat)
    (hup : proto ∈ (exec (.init a) h).up) (hid : ((exec (.init a) h).ids proto).has id = false) :
    let s := exec (.init a) h
    let s' := exec (.init a) (h ++ [.openSocket proto id (.listen p)])
    ((∃ c, OpenOn s c p) → s'.out = s.out ++ [.respond proto id .busy] ∧ s'.ports = s.ports) ∧
    ((∀ c, ¬ OpenOn s c p) → s'.out = s.out ++ [.respond proto id (.port p)] ∧ OpenOn s' s.nCtl p ∧
      (s'.ctl s.nCtl).listener = true) := by
  intro s s'
  have hi : Inv [] s := Inv.reachable a h
  have hs' : s' = openListen s proto id p := by
    show exec _ _ = _
    rw [exec_append]
    show (if proto ∈ s.up then openSocket s proto id _ else s) = _
    rw [if_pos hup, openSocket, if_neg (by rw [hid]; simp)]
  rw [hs']
  unfold openListen
  constructor
  · intro hc
    have := (inUse_iff hi p).mpr hc
    rw [if_pos (by simpa [Dict.has, Option.isSome_iff_ne_none] using this)]
    exact ⟨rfl, rfl⟩
  · intro hc
    have : s.ports.get p = none := by
      cases hg : s.ports.get p with
      | none => rfl
      | some x =>
        obtain ⟨c, hcc⟩ := (inUse_iff hi p).mp (by rw [hg]; simp)
        exact absurd hcc (hc c)
    rw [if_neg (by simp [Dict.has, this])]
    simp [OpenOn, St.emit, setPort, St.setCtl, newCtl]

/-! ## C33 -/

theorem dumpAll_same (s : St) (k : Key) (d : Bytes) : (dumpAll s k d).conns = s.conns ∧ (dumpAll s k d).ports = s.ports ∧
    (dumpAll s k d).ctl = s.ctl ∧ (dumpAll s k d).conn = s.conn := ⟨rfl, rfl, rfl, rfl⟩

/-- C33. Data for an unknown connection whose destination port is listened on creates exactly that connection, holding the data,
and starts opening its callback connection. -/
theorem C33_accepts (a : Str) (h : List Ev) (k : Key) (d : Bytes) (hk : (exec (.init a) h).conns.get k.inverse = none)
    (hl : Listening (exec (.init a) h) k.destinationPort) :
    let s := exec (.init a) h
    let s' := step s (.data k d)
    ∃ c, OpenOn s c k.destinationPort ∧ (s.ctl c).listener = true ∧
      s'.conns = s.conns.set k.inverse s.nConn ∧ s'.conn s.nConn = ⟨k.inverse, c, .buf d⟩ ∧
      s'.nSpawn = s.nSpawn + 1 ∧ s'.spawn s.nSpawn = ⟨c, k.inverse, .connecting, false⟩ := by
  intro s s'
  have hi : Inv [] s := Inv.reachable a h
  obtain ⟨c, hc, hlc⟩ := hl
  refine ⟨c, hc, hlc, ?_⟩
  have hp : s.ports.get k.destinationPort = some c := hi.port2 _ _ hc.1 hc.2
  have : s' = startSpawn (newConn (dumpAll s k d) c k.inverse d) c k.inverse := by
    show demux s k d = _
    unfold demux demuxLocal
    rw [show (dumpAll s k d).conns = s.conns from rfl, hk]
    dsimp only
    rw [show (dumpAll s k d).ports = s.ports from rfl, show k.inverse.sourcePort = k.destinationPort from rfl, hp]
    dsimp only
    rw [if_pos (show ((dumpAll s k d).ctl c).listener = true from hlc)]
  rw [this]
  refine ⟨rfl, ?_, rfl, ?_⟩
  · simp [startSpawn, newConn, dumpAll]
  · simp [startSpawn, newConn, dumpAll]

/-- C33. Otherwise it is dropped: nothing changes, except that the dumping control connections get their copies. -/
theorem C33_dropped (a : Str) (h : List Ev) (k : Key) (d : Bytes) (hk : (exec (.init a) h).conns.get k.inverse = none)
    (hl : ¬ Listening (exec (.init a) h) k.destinationPort) :
    let s := exec (.init a) h
    step s (.data k d) = { s with out := s.out ++ s.dumps.map fun p => .dump p k d } := by
  intro s
  have hi : Inv [] s := Inv.reachable a h
  show demux s k d = _
  unfold demux demuxLocal
  rw [show (dumpAll s k d).conns = s.conns from rfl, hk]
  dsimp only
  rw [show (dumpAll s k d).ports = s.ports from rfl, show k.inverse.sourcePort = k.destinationPort from rfl]
  cases hp : s.ports.get k.destinationPort with
  | none => rfl
  | some c =>
    dsimp only
    rw [if_neg]
    · rfl
    · intro hlc
      apply hl
      have := hi.port1 _ _ hp
      refine ⟨c, ⟨?_, this.2.1⟩, hlc⟩
      cases hc : (s.ctl c).closed with
      | false => rfl
      | true => cases this.2.2 hc

/-! ## C34 -/

/-- The keys of a socket: either still there with the socket open, or the connection is gone. -/
def Kept (s s' : St) : Prop := ∀ x k, (s.ctl x).closed = false → k ∈ (s.ctl x).spawned →
  ((s'.ctl x).closed = false ∧ k ∈ (s'.ctl x).spawned) ∨ s'.conns.get k = none

theorem Kept.refl (s : St) : Kept s s := fun _ _ h1 h2 => .inl ⟨h1, h2⟩

theorem Kept.trans {a b c : St} (h1 : Kept a b) (h2 : Kept b c) (hw : Dict.WF b.conns) (hc : Closes b c) : Kept a c := by
  intro x k ho hk
  rcases h1 x k ho hk with ⟨e1, e2⟩ | e
  · exact h2 x k e1 e2
  · exact .inr (get_none_sublist hw hc.conns e)

def GoodKept (cl : St → Nat → St) : Prop := GoodInv cl ∧ ∀ X s c, Inv X s → Kept s (cl s c)

theorem GoodKept.conn {cl} (h : GoodKept cl) {X : List Nat} {s : St} (hs : Inv X s) (k : Key) : Kept s (closeConnWith cl s k) := by
  unfold closeConnWith
  split
  · exact .refl s
  · next i hi =>
    have h1 := hs.drop k i hi
    have hkey := (hs.conn1 k i hi).2
    rw [hkey]
    have hk1 : Kept s (closeWriter { s with conns := s.conns.del k } (s.conn i).writer) := by
      intro x k' ho hm
      left
      cases (s.conn i).writer <;> exact ⟨ho, hm⟩
    generalize closeWriter { s with conns := s.conns.del k } (s.conn i).writer = s1 at *
    unfold spawnedClosed
    dsimp only
    have h2 := h1.1.erase (s.conn i).control k h1.2
    have hk2 : Kept s1 (s1.setCtl (s.conn i).control { s1.ctl (s.conn i).control with
        spawned := (s1.ctl (s.conn i).control).spawned.erase k }) := by
      intro x k' ho hm
      by_cases hkk : k' = k
      · right; rw [hkk]; exact h1.2
      · left
        simp only [St.setCtl, upd]
        split
        · next e => subst e; exact ⟨ho, (List.mem_erase_of_ne hkk).mpr hm⟩
        · exact ⟨ho, hm⟩
    have hc2 := Closes.setCtl s1 (s.conn i).control { s1.ctl (s.conn i).control with
        spawned := (s1.ctl (s.conn i).control).spawned.erase k } rfl rfl rfl rfl id (fun _ hk => List.mem_of_mem_erase hk)
    have hk12 := hk1.trans hk2 h1.1.wfc hc2
    split
    · exact hk12.trans (h.2 X _ _ h2) h2.wfc (h.1.1 _ _)
    · exact hk12

theorem GoodKept.conns {cl} (h : GoodKept cl) {X : List Nat} : ∀ (ks : List Key) {s : St}, Inv X s →
    Kept s (closeConnsWith cl s ks)
  | [], s, _ => .refl s
  | k :: ks, s, hs => by
    have h1 := (h.1.conn hs k).1
    exact (h.conn hs k).trans (h.conns ks h1) h1.wfc (h.1.1.conns ks _)

theorem Kept.delPort (s : St) (p : Nat) : Kept s { s with ports := s.ports.del p } := fun _ _ h1 h2 => .inl ⟨h1, h2⟩

/-- The closing of the own port, when it is the own one or nothing is there. -/
theorem kept_own {f : Nat} {s : St} (c : Nat) (hc : (s.ctl c).closed = true) (p : Option Nat)
    (hp : ∀ q x, p = some q → s.ports.get q = some x → x = c) : Kept s (closeOwnPort (closeFuel f) s p) := by
  cases p with
  | none => exact .refl s
  | some q =>
    unfold closeOwnPort closePortWith
    dsimp only
    split
    · exact .refl s
    · next x hx =>
      have := hp q x rfl hx
      subst this
      rw [closeFuel_closed f { s with ports := s.ports.del q } x hc]
      exact Kept.delPort s q

theorem closeFuel_kept : ∀ f, GoodKept (closeFuel f)
  | 0 => ⟨closeFuel_inv 0, fun _ s _ _ => .refl s⟩
  | f + 1 => by
    refine ⟨closeFuel_inv (f + 1), ?_⟩
    intro X s c hs
    rw [closeFuel]
    by_cases hcl : (s.ctl c).closed = true
    · rw [if_pos hcl]; exact .refl s
    · rw [if_neg hcl]
      dsimp only
      have ih := closeFuel_kept f
      have h1 := hs.mark c
      have hc1 := Closes.mark s c
      have h2 := ih.1.conns (s.ctl c).spawned h1
      have hc2 := ih.1.1.conns (s.ctl c).spawned (s.setCtl c { s.ctl c with closed := true, spawned := [] })
      have hk2 := ih.conns (s.ctl c).spawned h1
      have hm2 := (hc2.ctl c).2.2.2.2.1 (by simp [St.setCtl])
      have hkm : ∀ x k, x ≠ c → (s.ctl x).closed = false → k ∈ (s.ctl x).spawned →
          ((s.setCtl c { s.ctl c with closed := true, spawned := [] }).ctl x).closed = false ∧
          k ∈ ((s.setCtl c { s.ctl c with closed := true, spawned := [] }).ctl x).spawned := by
        intro x k hx ho hm
        simp only [St.setCtl, upd, if_neg hx]
        exact ⟨ho, hm⟩
      have hk3 := kept_own (f := f) (s := closeConnsWith (closeFuel f) (s.setCtl c { s.ctl c with closed := true, spawned := [] })
          (s.ctl c).spawned) c hm2 (s.ctl c).port (by
        intro q x hq hx
        have := Dict.get_sublist hs.wfp (hc1.trans hc2).ports hx
        rw [hs.port2 q c (by simpa using hcl) hq] at this
        exact (Option.some.inj this).symm)
      have hc3 := ih.1.1.own (closeConnsWith (closeFuel f) (s.setCtl c { s.ctl c with closed := true, spawned := [] })
          (s.ctl c).spawned) (s.ctl c).port
      have hk23 := hk2.trans hk3 h2.1.wfc hc3
      intro x k ho hm
      by_cases hx : x = c
      · subst hx
        exact .inr (get_none_sublist h2.1.wfc hc3.conns (h2.2 k hm))
      · obtain ⟨e1, e2⟩ := hkm x k hx ho hm
        exact hk23 x k e1 e2

theorem close_kept : GoodKept close := ⟨close_inv, fun X s c h => (closeFuel_kept _).2 X s c h⟩

theorem closeAll_kept : ∀ (cs : List Nat) {s : St}, Inv [] s → Kept s (closeAll s cs)
  | [], s, _ => .refl s
  | c :: cs, s, h =>
    (close_kept.2 [] s c h).trans (closeAll_kept cs (close_inv.2 [] s c h)) (close_inv.2 [] s c h).wfc (closeAll_closes cs _)

theorem closeAll_closed : ∀ (cs : List Nat) (s : St) (c : Nat), c ∈ cs → ((closeAll s cs).ctl c).closed = true
  | c' :: cs, s, c, h => by
    rw [closeAll]
    rcases List.mem_cons.mp h with rfl | h
    · exact ((closeAll_closes cs _).ctl c).2.2.2.2.1 (close_closed s c)
    · exact closeAll_closed cs _ c h

/-- What being closed means for a socket `c` that was open in `s` and is closed in `s'`: its port is free, the connections
whose callback connection was there are gone and their transports were told to close; and if no callback connection was
still being opened, no connection of the socket is left. -/
structure ShutDown (s s' : St) (c : Nat) : Prop where
  closed : (s'.ctl c).closed = true
  port : ∀ p, (s.ctl c).port = some p → ∀ c', ¬ OpenOn s' c' p
  keys : ∀ k ∈ (s.ctl c).spawned, s'.conns.get k = none
  transports : ∀ k ∈ (s.ctl c).spawned, ∀ i t, s.conns.get k = some i → (s.conn i).writer = .tr t → Eff.close t ∈ s'.out
  none_left : ¬ Opening s c → ∀ k i, s'.conns.get k = some i → (s'.conn i).control ≠ c

theorem shutDown {s s' : St} (hi : Inv [] s) (hi' : Inv [] s') (hc : Closes s s') (hk : Kept s s') (c : Nat)
    (ho : (s.ctl c).closed = false) (hcl : (s'.ctl c).closed = true) : ShutDown s s' c where
  closed := hcl
  port := by
    intro p hp c' hop
    have h1 := hi'.port2 p c' hop.1 hop.2
    have h2 := Dict.get_sublist hi.wfp hc.ports h1
    rw [hi.port2 p c ho hp] at h2
    cases h2
    rw [hop.1] at hcl; cases hcl
  keys := by
    intro k hm
    rcases hk c k ho hm with h | h
    · rw [hcl] at h; cases h.1
    · exact h
  transports := by
    intro k hm i t hg ht
    refine hc.gone hi.wfc k i t hg ht ?_
    rcases hk c k ho hm with h | h
    · rw [hcl] at h; cases h.1
    · exact h
  none_left := by
    intro hn k i hg he
    rw [hc.conn] at he
    have hgs := Dict.get_sublist hi.wfc hc.conns hg
    rcases hi.pend k i hgs (by rw [he]; exact ho) with h | ⟨n, h1, h2, _, h4⟩
    · rw [he] at h
      rcases hk c k ho h with h | h
      · rw [hcl] at h; cases h.1
      · rw [hg] at h; cases h
    · exact hn ⟨n, h1, h2.trans he, h4⟩

/-- C34. A close packet for an open socket shuts it down, and its connection id is free again. -/
theorem C34_close_packet_partial (a : Str) (h : List Ev) (p i c : Nat) (hup : p ∈ (exec (.init a) h).up)
    (hid : ((exec (.init a) h).ids p).get i = some c) (ho : ((exec (.init a) h).ctl c).closed = false) :
    ShutDown (exec (.init a) h) (step (exec (.init a) h) (.closeSocket p i)) c ∧
    ((step (exec (.init a) h) (.closeSocket p i)).ids p).get i = none := by
  have hi := Inv.reachable a h
  generalize exec (.init a) h = s at *
  have hs : step s (.closeSocket p i) = closeId s p i := by simp only [step]; rw [if_pos hup]
  rw [hs]
  have hi' := hi.closeId p i
  have e : closeId s p i = { close s c with ids := upd (close s c).ids p (((close s c).ids p).del i) } := by
    unfold closeId; rw [hid]
  constructor
  · have h1 := shutDown hi (close_inv.2 [] s c hi) (close_good s c) (close_kept.2 [] s c hi) c ho (close_closed s c)
    rw [e]
    exact ⟨h1.closed, h1.port, h1.keys, h1.transports, h1.none_left⟩
  · rw [e]
    show (upd (close s c).ids p (((close s c).ids p).del i) p).get i = none
    rw [upd_self, Dict.get_del ((close_inv.2 [] s c hi).wfi p), if_pos rfl]

/-- C34. The loss of the control connection shuts all its sockets down. -/
theorem C34_control_lost_partial (a : Str) (h : List Ev) (p i c : Nat) (hup : p ∈ (exec (.init a) h).up)
    (hid : ((exec (.init a) h).ids p).get i = some c) (ho : ((exec (.init a) h).ctl c).closed = false) :
    ShutDown (exec (.init a) h) (step (exec (.init a) h) (.ctlLost p)) c ∧
    (step (exec (.init a) h) (.ctlLost p)).ids p = [] := by
  have hi := Inv.reachable a h
  generalize exec (.init a) h = s at *
  have hs : step s (.ctlLost p) = ctlLost s p := by simp only [step]; rw [if_pos hup]
  rw [hs]
  have hi' := hi.ctlLost p
  have h0 : Inv [] { s with dumps := s.dumps.erase p } :=
    hi.sameButOut rfl rfl rfl rfl rfl rfl (fun _ => ⟨rfl, rfl⟩) rfl rfl rfl
  have hmem : c ∈ (s.ids p).vals := by
    have := Dict.mem_of_get hid
    exact List.mem_map.mpr ⟨(i, c), this, rfl⟩
  have h1 := shutDown h0 (h0.closeAll (s.ids p).vals) (closeAll_closes _ _) (closeAll_kept _ h0) c ho
    (closeAll_closed _ _ c hmem)
  refine ⟨⟨h1.closed, h1.port, h1.keys, h1.transports, h1.none_left⟩, ?_⟩
  unfold ctlLost
  simp [upd]

/-- C34. Closing again has no effect. -/
theorem C34_idempotent (a : Str) (h : List Ev) (p i : Nat) :
    step (step (exec (.init a) h) (.closeSocket p i)) (.closeSocket p i) = step (exec (.init a) h) (.closeSocket p i) := by
  have hi := Inv.reachable a h
  generalize exec (.init a) h = s at *
  by_cases hup : p ∈ s.up
  · have hs : step s (.closeSocket p i) = closeId s p i := by simp only [step]; rw [if_pos hup]
    rw [hs]
    have hg : ((closeId s p i).ids p).get i = none := by
      unfold closeId
      split
      · next hn => exact hn
      · next c hc =>
        dsimp only
        rw [upd_self, Dict.get_del ((close_inv.2 [] s c hi).wfi p), if_pos rfl]
    generalize closeId s p i = s' at *
    simp only [step]
    split
    · unfold closeId; rw [hg]
    · rfl
  · have hs : step s (.closeSocket p i) = s := by simp only [step]; rw [if_neg hup]
    rw [hs, hs]

/-! ### Examples and the counterexample -/

namespace Ex
def k : Key := ⟨"2.2.2.2".toList, 100, "1.1.1.1".toList, 80⟩
def addr : Str := "1.1.1.1".toList
/-- A listening socket with one complete connection. -/
def h1 : List Ev := [.ctlMade 1, .openSocket 1 5 (.listen 80), .data k [1], .connected 0, .finished 0]
end Ex

example : ((exec (.init Ex.addr) Ex.h1).ids 1).get 5 = some 0 ∧ ((exec (.init Ex.addr) Ex.h1).ctl 0).closed = false ∧
    ((exec (.init Ex.addr) Ex.h1).ctl 0).spawned = [Ex.k.inverse] ∧ 1 ∈ (exec (.init Ex.addr) Ex.h1).up ∧
    (step (exec (.init Ex.addr) Ex.h1) (.closeSocket 1 5)).out =
      [.respond 1 5 (.port 80), .write 0 [1], .announce 1 5 0 Ex.k.inverse, .close 0] := by
  decide +kernel

example : Listening (exec (.init Ex.addr) Ex.h1) 80 := ⟨0, ⟨by decide +kernel, by decide +kernel⟩, by decide +kernel⟩

/-- C34 is false for a connection whose callback connection is still being opened: it survives the closing of its socket, is
announced later and still receives data; and a new socket listening on the port does not get this connection. -/
theorem C34_false_opening :
    let s := exec (.init Ex.addr) [.ctlMade 1, .openSocket 1 5 (.listen 80), .data Ex.k [1], .closeSocket 1 5,
      .openSocket 1 6 (.listen 80), .data Ex.k [2], .connected 0, .finished 0, .data Ex.k [3]]
    s.out = [.respond 1 5 (.port 80), .respond 1 6 (.port 80), .write 0 [1, 2], .announce 1 5 0 Ex.k.inverse, .write 0 [3]] ∧
    (s.ctl 0).closed = true ∧ (s.conn 0).control = 0 ∧ s.conns.get Ex.k.inverse = some 0 := by
  decide +kernel

end Verif.Vnic
