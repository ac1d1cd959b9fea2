import Verif.Lemmas.E2E
/-! # Lemmas: the keys in VNICs on a switch -/
namespace Verif.Vnic

/-- The keys of the callback connections have the property. -/
def Keys (P : Key → Prop) (s : St) : Prop := ∀ n, n < s.nSpawn → P (s.spawn n).key

theorem Keys.same {P : Key → Prop} {s s' : St} (h : Keys P s) (e1 : s'.nSpawn = s.nSpawn) (e2 : ∀ n, (s'.spawn n).key = (s.spawn n).key) : Keys P s' := by
  intro n hn
  rw [e2]; exact h n (by omega)

theorem Keys.closes {P : Key → Prop} {s s' : St} (h : Keys P s) (hc : Closes s s') : Keys P s' := h.same hc.nSpawn (fun n => by rw [hc.spawn])

theorem Keys.start {P : Key → Prop} {s : St} (h : Keys P s) (c : Nat) {k : Key} (hk : P k) : Keys P (startSpawn s c k) := by
  intro n hn
  simp only [startSpawn, upd] at hn ⊢
  split
  · exact hk
  · exact h n (by omega)

theorem upd_key {s : St} {n : Nat} {x : Spawn} (h : x.key = (s.spawn n).key) (m : Nat) : (upd s.spawn n x m).key = (s.spawn m).key := by
  unfold upd
  split
  · next e => subst e; exact h
  · rfl

theorem Keys.attach {P : Key → Prop} {s : St} (h : Keys P s) (i n : Nat) (w : Writer) : Keys P (attach s i n w) := by
  cases w with
  | tr t => exact h
  | buf b =>
    unfold Vnic.attach Vnic.announce
    dsimp only
    split
    · split <;> exact h
    · split <;> exact h

theorem Keys.step {P : Key → Prop} {s : St} (h : Keys P s) (hi : Inv [] s) (e : Ev)
    (hconn : ∀ p i dst dport q, e = .openSocket p i (.connect dst dport) → q < 65535 → P ⟨s.address, q, dst, dport⟩)
    (hdata : ∀ k d, e = .data k d → P k.inverse) : Keys P (step s e) := by
  cases e with
  | ctlMade p => simp only [Vnic.step]; split <;> exact h
  | ctlLost p =>
    simp only [Vnic.step]; split
    · unfold Vnic.ctlLost
      exact (Keys.closes (s := { s with dumps := s.dumps.erase p }) h (closeAll_closes (s.ids p).vals _)).same rfl (fun _ => rfl)
    · exact h
  | openSocket p i r =>
    simp only [Vnic.step]; split
    · unfold Vnic.openSocket
      split
      · exact h
      · split
        · next dst dport =>
          unfold openConnect
          split
          · exact h
          · next q hq =>
            have hq' := nextPort_spec hi.cur hq
            refine Keys.same (s := startSpawn (newConn { newCtl s p i false with cursor := q + 1, ports := s.ports.set q s.nCtl } s.nCtl ⟨s.address, q, dst, dport⟩ []) s.nCtl
              ⟨s.address, q, dst, dport⟩) ?_ rfl (fun _ => rfl)
            refine Keys.start ?_ _ (hconn _ _ _ _ q rfl hq'.2.1)
            exact h.same rfl (fun _ => rfl)
        · unfold openListen; split <;> exact h
        · exact h
    · exact h
  | closeSocket p i =>
    simp only [Vnic.step]; split
    · unfold closeId
      split
      · exact h
      · next c _ => exact (h.closes (close_good s c)).same rfl (fun _ => rfl)
    · exact h
  | startDump p => simp only [Vnic.step]; split <;> exact h
  | stopDump p => exact h
  | rawWire p k d => simp only [Vnic.step]; split; (unfold Vnic.linkWrite; split <;> exact h); exact h
  | data k d =>
    show Keys P (demux s k d)
    have h0 : Keys P (dumpAll s k d) := h
    rcases demux_eq s k d with ⟨j, _, e⟩ | ⟨_, e⟩ | ⟨_, c, e⟩
    · rw [e]; unfold writeConn; split <;> exact h
    · rw [e]; exact h0
    · rw [e]
      refine Keys.start ?_ _ (hdata k d rfl)
      exact h0
  | connected n =>
    simp only [Vnic.step]; split
    · exact Keys.same (s' := { s with spawn := upd s.spawn n { s.spawn n with stage := .connected } }) h rfl (upd_key rfl)
    · exact h
  | failed n =>
    simp only [Vnic.step]; split
    · exact Keys.closes (s := { s with spawn := upd s.spawn n { s.spawn n with stage := .finished, lost := true } }) (h.same rfl (upd_key rfl)) (close_good _ _)
    · exact h
  | finished n =>
    simp only [Vnic.step]; split
    · unfold spawnFinished
      dsimp only
      have h1 : Keys P ({ s with spawn := upd s.spawn n { s.spawn n with stage := .finished } }.setCtl (s.spawn n).control
          { s.ctl (s.spawn n).control with spawned := if (s.spawn n).key ∈ (s.ctl (s.spawn n).control).spawned then (s.ctl (s.spawn n).control).spawned
            else (s.ctl (s.spawn n).control).spawned ++ [(s.spawn n).key] }) := h.same rfl (upd_key rfl)
      split
      · exact h1
      · exact h1.attach _ _ _
    · exact h
  | lost n =>
    simp only [Vnic.step]; split
    · have h1 : Keys P { s with spawn := upd s.spawn n { s.spawn n with lost := true } } := h.same rfl (upd_key rfl)
      unfold closeSpawned
      split
      · exact h1.closes (close_good.conn _ _)
      · exact h1.closes (close_good _ _)
    · exact h
  | reverse n d => simp only [Vnic.step]; split; (unfold Vnic.linkWrite; split <;> exact h); exact h
  | linkUp => exact h
  | linkDown => exact h

end Verif.Vnic

namespace Verif.Frag

theorem loop_mem : ∀ (ws : List Wire) (st : State) (v : Option Bytes), ∀ d ∈ (loop st v ws).2, d.1 ∈ ws
  | [], _, _, d, h => by simp [loop] at h
  | w :: ws, st, v, d, h => by
    simp only [loop, List.mem_append] at h
    rcases h with h | h
    · cases hk : keep v (absorb st w).2 with
      | none => rw [hk] at h; cases h
      | some x => rw [hk] at h; rw [List.mem_singleton.mp h]; simp
    · simp [loop_mem ws _ _ d h]

theorem exec_mem : ∀ (h : List Ev) (st : State), ∀ d ∈ (exec st h).2, d.1 ∈ packets h
  | [], _, d, hd => by simp [exec] at hd
  | e :: h, st, d, hd => by
    simp only [exec, List.mem_append] at hd
    cases e with
    | data ws =>
      simp only [packets, List.mem_append]
      rcases hd with hd | hd
      · exact .inl (loop_mem ws _ _ d hd)
      · exact .inr (exec_mem h _ d hd)
    | timeout i =>
      simp only [packets]
      rcases hd with hd | hd
      · cases hd
      · exact exec_mem h _ d hd

end Verif.Frag

namespace Verif.Link

theorem routed_mem {l : Nat} {log : List Act} {ws : List Frag.Wire} (hr : Routed l log ws) :
    ∀ w ∈ ws, ∃ before s after, log = before ++ .handled s (.wire w) :: after ∧ Receives before l w := by
  induction hr with
  | nil => intro w hw; cases hw
  | gets h1 h2 ih =>
    intro w hw
    rcases List.mem_append.mp hw with hw | hw
    · obtain ⟨b, s, a, rfl, hx⟩ := ih w hw; exact ⟨b, s, a ++ [_], by rw [List.append_assoc]; rfl, hx⟩
    · cases List.mem_singleton.mp hw; exact ⟨_, _, [], rfl, h2⟩
  | ignored h1 h2 ih => intro w hw; obtain ⟨b, s, a, rfl, hx⟩ := ih w hw; exact ⟨b, s, a ++ [_], by rw [List.append_assoc]; rfl, hx⟩
  | announce h1 ih => intro w hw; obtain ⟨b, s, a, rfl, hx⟩ := ih w hw; exact ⟨b, s, a ++ [_], by rw [List.append_assoc]; rfl, hx⟩
  | lost h1 ih => intro w hw; obtain ⟨b, s, a, rfl, hx⟩ := ih w hw; exact ⟨b, s, a ++ [_], by rw [List.append_assoc]; rfl, hx⟩

theorem register_mem {a : Str} {l : Nat} : ∀ {log : List Act}, .register a l ∈ ops log → .handled l (.announce a) ∈ log
  | [], h => by cases h
  | .lost k :: log, h => by
    simp only [ops, List.mem_cons] at h
    rcases h with h | h
    · cases h
    · exact List.mem_cons_of_mem _ (register_mem h)
  | .handled k (.announce b) :: log, h => by
    simp only [ops, List.mem_cons] at h
    rcases h with h | h
    · cases h; simp
    · exact List.mem_cons_of_mem _ (register_mem h)
  | .handled k (.wire w) :: log, h => List.mem_cons_of_mem _ (register_mem (log := log) h)

/-- Every call of `demux` is for a packet that was written, to a destination that reaches an address announced on the connection. -/
theorem got_from {c : Classes} (hc : c.Ok) (h : List Ev) (hf : ∀ e ∈ h, Fits e) (l : Nat) {d : Frag.Delivery} (hd : d ∈ ((Net.init.exec c h).tx l).got) :
    (∃ s id data, .write s d.1.header id data ∈ h) ∧ ∃ a, Reaches d.1.header.destination a ∧ .announce a ∈ sent false l h := by
  obtain ⟨log, _, W, _, E, _, x, _, _⟩ := C58_network hc h [] (by simpa using hf)
  rw [x.got l] at hd
  have hw := (x.taken l).subset (Frag.exec_mem _ _ d hd)
  obtain ⟨before, s, after, hlog, a, hreg, hre⟩ := routed_mem (x.routed l) _ hw
  constructor
  · have hs : .wire d.1 ∈ sent false s h := (x.handled s).subset (mem_handledFrom.mpr (by rw [hlog]; simp))
    obtain ⟨hd', id, data, g1, g2⟩ := wire_mem_sent hs
    have : d.1.header = hd' := E2E.write_header g2
    exact ⟨s, id, data, this ▸ g1⟩
  · refine ⟨a, hre, (x.handled l).subset (mem_handledFrom.mpr ?_)⟩
    obtain ⟨_, b, a', e, _⟩ := hreg
    have : .register a l ∈ ops before := by rw [e]; simp
    rw [hlog]
    exact List.mem_append_left _ (register_mem this)

end Verif.Link

namespace Verif.E2E
open Verif.Link (sent upAfter wires lossesIn)

/-- The keys of the VNICs after a few events. -/
theorem keys_exec {P : Vnic.Key → Prop} : ∀ (es : List Vnic.Ev) {s : Vnic.St}, Vnic.Inv [] s → Vnic.Keys P s →
    (∀ p i dst dport q, .openSocket p i (.connect dst dport) ∈ es → q < 65535 → P ⟨s.address, q, dst, dport⟩) → (∀ k d, .data k d ∈ es → P k.inverse) →
    Vnic.Keys P (Vnic.exec s es)
  | [], _, _, h, _, _ => h
  | e :: es, s, hi, h, h1, h2 => by
    refine keys_exec es (hi.step e) (h.step hi e (fun p i dst dport q he hq => h1 p i dst dport q (by simp [he]) hq) (fun k d he => h2 k d (by simp [he]))) ?_ (fun k d hm => h2 k d (by simp [hm]))
    intro p i dst dport q hm hq
    rw [(Vnic.Grows.step hi e).address]
    exact h1 p i dst dport q (by simp [hm]) hq

theorem linkNow_mem {s : Vnic.St} {e : Vnic.Ev} {x : Vnic.Key × Bytes} (h : x ∈ Vnic.linkNow s e) :
    (∃ n, n < s.nSpawn ∧ e = .reverse n x.2 ∧ x.1 = (s.spawn n).key) ∨ ∃ p, e = .rawWire p x.1 x.2 := by
  cases e with
  | reverse n d =>
    simp only [Vnic.linkNow] at h
    split at h
    · next hl => rw [List.mem_singleton.mp h]; exact .inl ⟨n, hl.2.1, rfl, rfl⟩
    · cases h
  | rawWire p k d =>
    simp only [Vnic.linkNow] at h
    split at h
    · rw [List.mem_singleton.mp h]; exact .inr ⟨p, rfl⟩
    · cases h
  | _ => cases h

theorem demuxed_mem {c : Link.Classes} {n : Link.Net} {l : Nat} {es : List Link.Ev} {e : Vnic.Ev} (h : e ∈ demuxed c n l es) :
    ∃ d, d ∈ ((n.exec c es).tx l).got ∧ e = .data (key d.1.header) d.2 := by
  obtain ⟨d, hd, rfl⟩ := List.mem_map.mp h
  exact ⟨d, List.mem_of_mem_drop hd, rfl⟩

/-- One more event keeps a property of the keys of a VNIC. -/
theorem keys_step {c : Link.Classes} {addr : Nat → Str} {P : Vnic.Key → Prop} (h : List Ev) (e : Ev) (v : Nat)
    (hk : Vnic.Keys P (((World.init addr).exec c h).vnic v))
    (hconn : ∀ p i dst dport q id, e = .own v (.openSocket p i (.connect dst dport)) id → q < 65535 → P ⟨addr v, q, dst, dport⟩)
    (hdata : ∀ l k d, ((World.init addr).exec c h).link v = some l → e = .toHost v k →
      d ∈ ((Link.Net.init.exec c (netHist c (.init addr) h ++ [.toHost l k])).tx l).got → P (key d.1.header).inverse) :
    Vnic.Keys P (((World.init addr).exec c (h ++ [e])).vnic v) := by
  have hi := Inv.reachable addr c h
  have hn1 : ((World.init addr).exec c h).net = Link.Net.init.exec c (netHist c (.init addr) h) := net_exec c h _
  rw [exec_append]
  show Vnic.Keys P (Vnic.exec (((World.init addr).exec c h).vnic v) (vnicEv c ((World.init addr).exec c h) v e))
  generalize (World.init addr).exec c h = w at *
  refine keys_exec _ (hi.vnics v) hk ?_ ?_
  · intro p i dst dport q hm hq
    rw [hi.address]
    cases e with
    | own u e id =>
      simp only [vnicEv] at hm
      split at hm
      · next hx => cases List.mem_singleton.mp hm; exact hconn p i dst dport q id (by rw [hx.1]) hq
      · cases hm
    | toHost u k =>
      simp only [vnicEv] at hm
      split at hm
      · split at hm
        · cases hm
        · obtain ⟨_, _, he⟩ := demuxed_mem hm; cases he
      · cases hm
    | attach u m => simp only [vnicEv] at hm; split at hm; exact nomatch List.mem_singleton.mp hm; cases hm
    | detach u => simp only [vnicEv] at hm; split at hm; exact nomatch List.mem_singleton.mp hm; cases hm
    | accept m => cases hm
    | announce u a => cases hm
    | toSwitch m k => cases hm
    | timeout m k => cases hm
    | lostSwitch m => cases hm
  · intro k d hm
    cases e with
    | own u e id =>
      simp only [vnicEv] at hm
      split at hm
      · next hx => cases List.mem_singleton.mp hm; exact nomatch hx.2
      · cases hm
    | toHost u j =>
      simp only [vnicEv] at hm
      split at hm
      · next hx =>
        subst hx
        split at hm
        · cases hm
        · next l hl =>
          obtain ⟨d', hd', he⟩ := demuxed_mem hm
          cases he
          refine hdata l j d' hl rfl ?_
          rw [Link.exec_append, ← hn1]; exact hd'
      · cases hm
    | attach u m => simp only [vnicEv] at hm; split at hm; exact nomatch List.mem_singleton.mp hm; cases hm
    | detach u => simp only [vnicEv] at hm; split at hm; exact nomatch List.mem_singleton.mp hm; cases hm
    | accept m => cases hm
    | announce u a => cases hm
    | toSwitch m k => cases hm
    | timeout m k => cases hm
    | lostSwitch m => cases hm

theorem netEv_fits {addr : Nat → Str} (haddr : ∀ v, Plain (addr v)) {w : World} (hi : Inv addr w) (hk : ∀ v, Vnic.Keys GoodKey (w.vnic v)) {e : Ev} (he : Proper e) :
    (∀ x ∈ netEv w e, Link.Fits x) ∧ ∀ s hd id d, .write s hd id d ∈ netEv w e → GoodKey (key hd) := by
  have one : ∀ {x : Link.Ev}, Link.Fits x → (∀ s hd id d, x ≠ .write s hd id d) → (∀ y ∈ [x], Link.Fits y) ∧ ∀ s hd id d, .write s hd id d ∈ [x] → GoodKey (key hd) := by
    intro x h1 h2
    refine ⟨fun y hy => ?_, fun s hd id d hm => absurd (List.mem_singleton.mp hm).symm (h2 s hd id d)⟩
    rw [List.mem_singleton.mp hy]; exact h1
  have nil : (∀ y ∈ ([] : List Link.Ev), Link.Fits y) ∧ ∀ s hd id d, .write s hd id d ∈ ([] : List Link.Ev) → GoodKey (key hd) := ⟨nofun, nofun⟩
  cases e with
  | own v e id =>
    have hgood : ∀ x ∈ Vnic.linkNow (w.vnic v) e, GoodKey x.1 ∧ x.2.length < 2 ^ 64 := by
      intro x hx
      rcases linkNow_mem hx with ⟨n, g1, g2, g3⟩ | ⟨p, g⟩
      · have h1 := he.1
        rw [g2] at h1
        rw [g3]
        exact ⟨hk v n g1, h1⟩
      · have h1 := he.1
        rw [g] at h1
        exact h1
    rw [netEv_own]
    split
    · exact nil
    · split
      · constructor
        · intro x hx
          obtain ⟨y, hy, rfl⟩ := List.mem_map.mp hx
          obtain ⟨⟨g1, g2, g3, g4⟩, g5⟩ := hgood y hy
          exact ⟨g1.1, g3.1, g2, g4, he.2, g5⟩
        · intro s hd id' d hm
          obtain ⟨y, hy, hx⟩ := List.mem_map.mp hm
          cases hx
          exact (hgood y hy).1
      · exact nil
  | attach v m =>
    simp only [netEv]
    split
    · refine one ?_ nofun
      show Link.Text _
      rw [hi.address]; exact (haddr v).1
    · exact nil
  | detach v => simp only [netEv]; split; exact nil; exact one trivial nofun
  | announce v a => simp only [netEv]; split; exact nil; exact one (show Link.Text a from he) nofun
  | toHost v k => simp only [netEv]; split; exact nil; exact one trivial nofun
  | accept m => exact one trivial nofun
  | toSwitch m k => exact one trivial nofun
  | timeout m k => exact one trivial nofun
  | lostSwitch m => exact one trivial nofun

theorem good_inverse {k : Vnic.Key} (h : GoodKey k) : GoodKey k.inverse := ⟨h.2.2.1, h.2.2.2, h.1, h.2.1⟩

/-- If what comes from outside fits, everything does. -/
theorem proper_all {c : Link.Classes} (hc : c.Ok) (addr : Nat → Str) (haddr : ∀ v, Plain (addr v)) (h : List Ev) (hp : ∀ e ∈ h, Proper e) :
    Sound c addr h ∧ (∀ s hd id d, .write s hd id d ∈ netHist c (.init addr) h → GoodKey (key hd)) ∧ ∀ v, Vnic.Keys GoodKey (((World.init addr).exec c h).vnic v) := by
  induction h using snoc_induct with
  | h0 => exact ⟨nofun, nofun, fun v n hn => by cases hn⟩
  | hs h e ih =>
    obtain ⟨i1, i2, i3⟩ := ih (fun x hx => hp x (by simp [hx]))
    have hi := Inv.reachable addr c h
    have hN : netHist c (.init addr) (h ++ [e]) = netHist c (.init addr) h ++ netEv ((World.init addr).exec c h) e := by
      rw [netHist_append]; show _ ++ (_ ++ []) = _; rw [List.append_nil]
    obtain ⟨f1, f2⟩ := netEv_fits haddr hi i3 (hp e (by simp))
    refine ⟨?_, ?_, fun v => keys_step h e v (i3 v) ?_ ?_⟩
    · intro x hx
      rw [hN] at hx
      rcases List.mem_append.mp hx with hx | hx
      · exact i1 x hx
      · exact f1 x hx
    · intro s hd id d hm
      rw [hN] at hm
      rcases List.mem_append.mp hm with hm | hm
      · exact i2 s hd id d hm
      · exact f2 s hd id d hm
    · intro p i dst dport q id he hq
      have := hp e (by simp)
      rw [he] at this
      exact ⟨haddr v, by show q < 2 ^ 16; omega, this.1.1, this.1.2⟩
    · intro l k d hl he hd
      obtain ⟨⟨s, id, data, hm⟩, _⟩ := Link.got_from hc _ (by
        intro x hx
        rcases List.mem_append.mp hx with hx | hx
        · exact i1 x hx
        · rw [List.mem_singleton.mp hx]; trivial) l hd
      rcases List.mem_append.mp hm with hm | hm
      · exact good_inverse (i2 _ _ _ _ hm)
      · exact nomatch List.mem_singleton.mp hm

theorem calm_of_good {N : List Link.Ev} (h : ∀ s hd id d, .write s hd id d ∈ N → GoodKey (key hd)) : Link.Calm N := by
  intro s p hp
  cases p with
  | announce a => trivial
  | wire w =>
    obtain ⟨hd, id, d, g1, g2⟩ := Link.wire_mem_sent hp
    have := write_header g2
    show (∃ a, Addr.blockFromString w.header.destination = .ok a) ∨ ¬ BlockText w.header.destination
    rw [this]
    exact (h s hd id d g1).2.2.1.2

/-- Without raw packets and promiscuous VNICs, the callback connections of a VNIC have its address as source. -/
theorem source_all {c : Link.Classes} (hc : c.Ok) (addr : Nat → Str) (haddr : ∀ v, Plain (addr v)) (hself : ∀ v, Link.Reaches (addr v) (addr v)) (h : List Ev)
    (hp : ∀ e ∈ h, Proper e) (hann : ∀ v a, .announce v a ∉ h) (v : Nat) :
    Vnic.Keys (fun k => Link.Reaches k.source (addr v)) (((World.init addr).exec c h).vnic v) := by
  induction h using snoc_induct with
  | h0 => exact fun n hn => by cases hn
  | hs h e ih =>
    have i3 := ih (fun x hx => hp x (by simp [hx])) (fun v a hm => hann v a (by simp [hm]))
    have i1 := (proper_all hc addr haddr h (fun x hx => hp x (by simp [hx]))).1
    refine keys_step h e v i3 ?_ ?_
    · intro p i dst dport q id he hq
      exact hself v
    · intro l k d hl he hd
      obtain ⟨_, a, hr, hm⟩ := Link.got_from hc _ (by
        intro x hx
        rcases List.mem_append.mp hx with hx | hx
        · exact i1 x hx
        · rw [List.mem_singleton.mp hx]; trivial) l hd
      rw [Link.sent_append] at hm
      have hm : .announce a ∈ sent false l (netHist c (.init addr) h) := by
        rcases List.mem_append.mp hm with hm | hm
        · exact hm
        · simp [sent] at hm
      obtain ⟨ws, hs⟩ := ((sent_reachable c addr h).2 v l hl).2 (fun a hm => hann v a (by simp [hm]))
      rw [hs] at hm
      rcases List.mem_cons.mp hm with hm | hm
      · cases hm; exact hr
      · obtain ⟨_, _, hx⟩ := List.mem_map.mp hm; cases hx

end Verif.E2E
