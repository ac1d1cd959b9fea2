import Verif.Props.Apps
/-! # C65: whatever was written can still arrive at the other application -/
namespace Verif.Apps

section
variable {c : Link.Classes} {want : Nat → Nat → Str × Nat} {addr : Nat → Str}

/-- Bytes that were written on callback connection `n` at VNIC `a` arrive: at the VNIC, at the switch, at VNIC `b`, and at the process at `b` on its callback
connection `m`. Nothing else happens. -/
def Delivery (a n b m : Nat) : Ev → Prop
  | .host v (.toSock n' k) id => v = a ∧ n' = n ∧ k ≤ 2 ^ 16 ∧ id < 2 ^ 32
  | .net (.toSwitch _ _) => True
  | .net (.toHost v _) => v = b
  | .host v (.toApp m' _) id => v = b ∧ m' = m ∧ id < 2 ^ 32
  | _ => False

theorem Delivery.ok {a n b m : Nat} {e : Ev} (h : Delivery a n b m e) : Ok e := by
  cases e with
  | net e => cases e <;> first | trivial | exact h.elim
  | host v e id => cases e <;> first | exact h.elim | exact ⟨h.2.2.1, h.2.2.2⟩ | exact h.2.2

/-! ## The first way: from the process to its VNIC -/

/-- The worlds differ in what is on the way, and in what the VNIC `a` has handed to its link and its process to the VNIC. -/
structure Kept (a : Nat) (w w' : World) : Prop where
  side : ∃ g, w'.side a = { w.side a with given := g }
  sides : ∀ u, u ≠ a → w'.side u = w.side u
  vnic : ∃ o, w'.net.vnic a = { w.net.vnic a with out := o }
  vnics : ∀ u, u ≠ a → w'.net.vnic u = w.net.vnic u
  link : w'.net.link = w.net.link
  swUp : w'.net.net.swUp = w.net.net.swUp
  toSwitch : ∀ l, w.net.link a ≠ some l → w'.net.net.toSwitch l = w.net.net.toSwitch l

theorem Kept.refl (a : Nat) (w : World) : Kept a w w := ⟨⟨_, rfl⟩, fun _ _ => rfl, ⟨_, rfl⟩, fun _ _ => rfl, rfl, rfl, fun _ _ => rfl⟩

theorem Kept.trans {a : Nat} {w w' w'' : World} (h : Kept a w w') (h' : Kept a w' w'') : Kept a w w'' := by
  obtain ⟨g, hg⟩ := h.side
  obtain ⟨g', hg'⟩ := h'.side
  obtain ⟨o, ho⟩ := h.vnic
  obtain ⟨o', ho'⟩ := h'.vnic
  exact ⟨⟨g', by rw [hg', hg]⟩, fun u hu => (h'.sides u hu).trans (h.sides u hu), ⟨o', by rw [ho', ho]⟩, fun u hu => (h'.vnics u hu).trans (h.vnics u hu),
    h'.link.trans h.link, h'.swUp.trans h.swUp, fun l hl => (h'.toSwitch l (by rw [h.link]; exact hl)).trans (h.toSwitch l hl)⟩

theorem send_frame (c : Link.Classes) (l : Nat) : ∀ (ps : List Link.Pkt) (n : Link.Net), (n.send c l ps).swUp = n.swUp ∧
    ∀ j, j ≠ l → (n.send c l ps).toSwitch j = n.toSwitch j
  | [], _ => ⟨rfl, fun _ _ => rfl⟩
  | p :: ps, n => by
    unfold Link.Net.send
    split
    · exact ⟨rfl, fun _ _ => rfl⟩
    · obtain ⟨h1, h2⟩ := send_frame c l ps { n with toSwitch := Link.upd n.toSwitch l (n.toSwitch l ++ _) }
      refine ⟨h1, fun j hj => (h2 j hj).trans ?_⟩
      simp [Link.upd, hj]

theorem writes_frame (c : Link.Classes) (l : Nat) : ∀ (es : List Link.Ev), (∀ e ∈ es, ∃ h i d, e = .write l h i d) → ∀ (n : Link.Net),
    (n.exec c es).swUp = n.swUp ∧ ∀ j, j ≠ l → (n.exec c es).toSwitch j = n.toSwitch j
  | [], _, _ => ⟨rfl, fun _ _ => rfl⟩
  | e :: es, he, n => by
    obtain ⟨h, i, d, rfl⟩ := he e List.mem_cons_self
    obtain ⟨g1, g2⟩ := writes_frame c l es (fun x hx => he x (List.mem_cons_of_mem _ hx)) (n.step c (.write l h i d))
    have hs : (n.step c (.write l h i d)).swUp = n.swUp ∧ ∀ j, j ≠ l → (n.step c (.write l h i d)).toSwitch j = n.toSwitch j := by
      unfold Link.Net.step
      dsimp only
      split
      · exact send_frame c l _ n
      · exact ⟨rfl, fun _ _ => rfl⟩
    exact ⟨g1.trans hs.1, fun j hj => (g2 j hj).trans (hs.2 j hj)⟩

theorem reverse_out (s : Vnic.St) (n : Nat) (d : Bytes) : ∃ o, Vnic.step s (.reverse n d) = { s with out := o } := by
  simp only [Vnic.step]
  split
  · unfold Vnic.linkWrite
    split
    · exact ⟨_, rfl⟩
    · exact ⟨_, rfl⟩
  · exact ⟨_, rfl⟩

theorem kept_piece (w : World) (a n k id : Nat) : Kept a w (w.step c want (.host a (.toSock n k) id)) := by
  have hnet : (w.step c want (.host a (.toSock n k) id)).net = w.net.exec c (netEv w (.host a (.toSock n k) id)) := rfl
  have hev : netEv w (.host a (.toSock n k) id) = [] ∨ ∃ d, netEv w (.host a (.toSock n k) id) = [.own a (.reverse n d) id] := by
    unfold netEv
    dsimp only
    rw [if_pos (show inner (.toSock n k) = true from rfl)]
    simp only [Host.vnicEv]
    split
    · exact .inr ⟨_, rfl⟩
    · exact .inl rfl
  have hside : (w.step c want (.host a (.toSock n k) id)).side = fun u => sideEv want w u (.host a (.toSock n k) id) := rfl
  have hs : ∃ g, sideEv want w a (.host a (.toSock n k) id) = { w.side a with given := g } := by
    unfold sideEv
    dsimp only
    rw [if_pos ⟨rfl, rfl⟩]
    simp only [Host.sideStep]
    split
    · exact ⟨_, rfl⟩
    · exact ⟨_, rfl⟩
  have hs' : ∀ u, u ≠ a → sideEv want w u (.host a (.toSock n k) id) = w.side u := by
    intro u hu
    unfold sideEv
    dsimp only
    rw [if_neg (fun h => hu h.1)]
  refine ⟨by rw [hside]; exact hs, by rw [hside]; exact hs', ?_, ?_, ?_, ?_, ?_⟩ <;> rw [hnet] <;> rcases hev with h | ⟨d, h⟩ <;> rw [h]
  · exact ⟨_, rfl⟩
  · show ∃ o, Vnic.exec (w.net.vnic a) (E2E.vnicEv c w.net a (.own a (.reverse n d) id)) = _
    simp only [E2E.vnicEv]
    rw [if_pos ⟨trivial, rfl⟩]
    exact reverse_out _ _ _
  · exact fun _ _ => rfl
  · intro u hu
    show Vnic.exec (w.net.vnic u) (E2E.vnicEv c w.net u (.own a (.reverse n d) id)) = _
    simp only [E2E.vnicEv]
    rw [if_neg (fun h => hu h.1)]
    rfl
  · rfl
  · rfl
  · rfl
  · show (w.net.net.exec c (E2E.netEv w.net (.own a (.reverse n d) id))).swUp = _
    cases hl : w.net.link a with
    | none => simp only [E2E.netEv, hl]; rfl
    | some l =>
      refine (writes_frame c l _ ?_ _).1
      intro e he
      simp only [E2E.netEv, hl] at he
      split at he
      · obtain ⟨x, _, rfl⟩ := List.mem_map.mp he
        exact ⟨_, _, _, rfl⟩
      · cases he
  · exact fun _ _ => rfl
  · intro l' hl'
    show (w.net.net.exec c (E2E.netEv w.net (.own a (.reverse n d) id))).toSwitch l' = _
    cases hl : w.net.link a with
    | none => simp only [E2E.netEv, hl]; rfl
    | some l =>
      refine (writes_frame c l _ ?_ _).2 l' (fun e => hl' (by rw [hl, e]))
      intro e he
      simp only [E2E.netEv, hl] at he
      split at he
      · obtain ⟨x, _, rfl⟩ := List.mem_map.mp he
        exact ⟨_, _, _, rfl⟩
      · cases he

theorem Kept.live {a : Nat} {w w' : World} (h : Kept a w w') (n : Nat) : Host.live (w'.net.vnic a) n = Host.live (w.net.vnic a) n := by
  obtain ⟨o, ho⟩ := h.vnic
  rw [ho]; rfl

theorem Kept.mine {a : Nat} {w w' : World} (h : Kept a w w') (n : Nat) : Host.mine (w'.net.vnic a) n = Host.mine (w.net.vnic a) n := by
  obtain ⟨o, ho⟩ := h.vnic
  rw [ho]; rfl

theorem pieces (a n : Nat) : ∀ (r : Nat) (w : World), Host.mine (w.net.vnic a) n = true → Host.live (w.net.vnic a) n = true →
    Kept a w (w.exec c want (List.replicate r (.host a (.toSock n 1) 0))) ∧
    (((w.side a).given n ≤ ((w.side a).wrote n).length) → ((w.side a).wrote n).length ≤ (w.side a).given n + r →
      ((w.exec c want (List.replicate r (.host a (.toSock n 1) 0))).side a).given n = ((w.side a).wrote n).length)
  | 0, w, _, _ => ⟨.refl a w, fun h1 h2 => by show (w.side a).given n = _; omega⟩
  | r + 1, w, hm, hl => by
    have k1 : Kept a w (w.step c want (.host a (.toSock n 1) 0)) := kept_piece w a n 1 0
    obtain ⟨g1, g2⟩ := pieces a n r (w.step c want (.host a (.toSock n 1) 0)) (by rw [k1.mine]; exact hm) (by rw [k1.live]; exact hl)
    rw [List.replicate_succ]
    refine ⟨k1.trans g1, fun h1 h2 => ?_⟩
    show ((World.exec c want (w.step c want (.host a (.toSock n 1) 0)) _).side a).given n = _
    have hw : ((w.step c want (.host a (.toSock n 1) 0)).side a).wrote = (w.side a).wrote := by
      obtain ⟨g, hg⟩ := k1.side
      rw [hg]
    have hg : ((w.step c want (.host a (.toSock n 1) 0)).side a).given n = (w.side a).given n + (Host.chunk ((w.side a).wrote n) ((w.side a).given n) 1).length := by
      show (sideEv want w a (.host a (.toSock n 1) 0)).given n = _
      unfold sideEv
      dsimp only
      rw [if_pos ⟨rfl, rfl⟩]
      simp only [Host.sideStep]
      rw [if_pos ⟨hm, hl⟩]
      simp [Host.upd]
    have hch : (Host.chunk ((w.side a).wrote n) ((w.side a).given n) 1).length = min 1 (((w.side a).wrote n).length - (w.side a).given n) := by
      unfold Host.chunk
      rw [List.length_take, List.length_drop]
    rw [hg, hw, hch] at g2
    exact g2 (by omega) (by omega)

/-! ## The second way: over the switch -/

theorem outside_writer : ∀ (es : List Vnic.Ev) {s : Vnic.St} {i t : Nat}, (∀ e ∈ es, E2E.Outside e) → i < s.nConn → (s.conn i).writer = .tr t →
    ((Vnic.exec s es).conn i).writer = .tr t
  | [], _, _, _, _, _, h => h
  | e :: es, s, i, t, he, hi, h => by
    have hes := fun x hx => he x (List.mem_cons_of_mem _ hx)
    cases e with
    | linkUp => exact outside_writer es (s := { s with linkUp := true }) hes hi h
    | linkDown => exact outside_writer es (s := { s with linkUp := false }) hes hi h
    | data k d =>
      rcases Vnic.demux_eq s k d with ⟨j, _, e⟩ | ⟨_, e⟩ | ⟨hn, c, e⟩
      · have hs : Vnic.step s (.data k d) = _ := e
        simp only [Vnic.exec, hs]
        unfold Vnic.writeConn
        split
        · next b hb =>
          refine outside_writer es hes hi ?_
          show (Vnic.upd s.conn j _ i).writer = _
          have : i ≠ j := by
            rintro rfl
            have hb' : (s.conn i).writer = .buf b := hb
            rw [h] at hb'
            cases hb'
          simp only [Vnic.upd]
          rw [if_neg this]
          exact h
        · exact outside_writer es (s := (Vnic.dumpAll s k d).emit _) hes hi h
      · have hs : Vnic.step s (.data k d) = _ := e
        simp only [Vnic.exec, hs]
        exact outside_writer es (s := Vnic.dumpAll s k d) hes hi h
      · have hs : Vnic.step s (.data k d) = _ := e
        simp only [Vnic.exec, hs]
        refine outside_writer es (s := Vnic.startSpawn (Vnic.newConn (Vnic.dumpAll s k d) c k.inverse d) c k.inverse) hes (Nat.lt_succ_of_lt hi) ?_
        show (Vnic.upd s.conn s.nConn _ i).writer = _
        simp only [Vnic.upd]
        rw [if_neg (by omega)]
        exact h
    | _ => exact (he _ List.mem_cons_self).elim

/-- Bytes that arrive are for the network alone. -/
theorem arrive_exec {b : Nat} : ∀ (h : List E2E.Ev) (w : World), (∀ e ∈ h, E2E.Arrive b e) →
    w.exec c want (h.map .net) = ⟨w.net.exec c h, w.side⟩
  | [], _, _ => rfl
  | e :: h, w, he => by
    have h1 := he e List.mem_cons_self
    have ho : outer e = true := by cases e <;> first | rfl | exact h1.elim
    show World.exec c want (w.step c want (.net e)) (h.map .net) = _
    rw [arrive_exec h _ (fun x hx => he x (List.mem_cons_of_mem _ hx))]
    simp only [World.step, netEv, if_pos ho, sideEv]
    rfl

/-- The setting lasts. -/
theorem Setting.more {h1 h2 : List Ev} {a n b m : Nat} {k : Vnic.Key} (hs : Setting c want addr h1 h2 a n b m k) (h3 : List Ev) (hd : ∀ e ∈ h3, Delivery a n b m e)
    (ht : Talks ((World.init addr).exec c want h1) ((World.init addr).exec c want (h1 ++ (h2 ++ h3))) a n k)
    (hl : Listens ((World.init addr).exec c want h1) ((World.init addr).exec c want (h1 ++ (h2 ++ h3))) b m k.inverse) :
    Setting c want addr h1 (h2 ++ h3) a n b m k := by
  have hat : ∀ {v l}, Attached c want addr h1 h2 v l → Attached c want addr h1 (h2 ++ h3) v l := by
    intro v l h
    refine ⟨h.up, fun hx => ?_, fun hx => ?_⟩
    · rcases List.mem_append.mp hx with hx | hx
      · exact h.stays hx
      · exact hd _ hx
    · rw [← List.append_assoc] at hx
      rcases List.mem_append.mp hx with hx | hx
      · exact h.kept hx
      · exact hd _ hx
  refine ⟨hs.classes, hs.addresses, ?_, hs.sane, ?_, ?_, ?_, ht, hl⟩
  · intro v l x hx
    rw [← List.append_assoc] at hx
    rcases List.mem_append.mp hx with hx | hx
    · exact hs.unique v l x hx
    · exact (hd _ hx).elim
  · intro e he
    rw [← List.append_assoc] at he
    rcases List.mem_append.mp he with he | he
    · exact hs.ok e he
    · exact (hd e he).ok
  · obtain ⟨l, h⟩ := hs.a_on
    exact ⟨l, hat h⟩
  · obtain ⟨l, h, h'⟩ := hs.b_on
    exact ⟨l, hat h, h'⟩

theorem link_stays {h1 h2 : List Ev} (hw : Sane want) (hok : ∀ e ∈ h2, Ok e) {v l : Nat} (hl : ((World.init addr).exec c want h1).net.link v = some l) (hd : .net (.detach v) ∉ h2) :
    ((World.init addr).exec c want (h1 ++ h2)).net.link v = some l := by
  rw [exec_append, net_exec]
  refine E2E.link_stays_exec c _ _ hl (fun hx => hd ?_)
  exact (netHist_ok hw h2 h1 hok _ hx).2.2.2.2 (fun _ _ _ => nofun)

/-- **C65**: whatever the application at `a` wrote can still arrive at the application at `b`: if both callback connections are there, the call that the application
at `b` was made for has ended, and the switch has accepted the connection of VNIC `a` and all others on which bytes are on their way, there is a continuation, in
which bytes only arrive, after which the application at `b` has got all of it. -/
theorem C65_can {h1 h2 : List Ev} {a n b m q f : Nat} {k : Vnic.Key} (hs : Setting c want addr h1 h2 a n b m k) (hbt : Between addr a b k) (hab : a ≠ b)
    (hq : (((World.init addr).exec c want (h1 ++ h2)).side b).peer m = some q)
    (hr : Connect.RunsFor (((World.init addr).exec c want (h1 ++ h2)).side b).con q f)
    (hrun : Host.running (((World.init addr).exec c want (h1 ++ h2)).side b) q = true)
    (hlive : Host.live (((World.init addr).exec c want (h1 ++ h2)).net.vnic a) n = true)
    (hacc : ∀ l, ((World.init addr).exec c want (h1 ++ h2)).net.link a = some l ∨ ((World.init addr).exec c want (h1 ++ h2)).net.net.toSwitch l ≠ [] →
      l ∈ ((World.init addr).exec c want (h1 ++ h2)).net.net.swUp) :
    ∃ h3, (∀ e ∈ h3, Delivery a n b m e) ∧
      appGot ((World.init addr).exec c want (h1 ++ (h2 ++ h3))) b q = (((World.init addr).exec c want (h1 ++ h2)).side a).wrote n := by
  generalize hw : (World.init addr).exec c want (h1 ++ h2) = w at *
  obtain ⟨lb, hlb, _⟩ := hs.b_on
  have hok2 : ∀ e ∈ h2, Ok e := fun e he => hs.ok e (List.mem_append_right _ he)
  have hlink : w.net.link b = some lb := by rw [← hw]; exact link_stays hs.sane hok2 hlb.up hlb.stays
  -- at the process at `a`
  obtain ⟨hc, hi⟩ := hostInv c want addr (h1 ++ h2) a
  rw [hw] at hi
  have ht := hs.talks
  rw [hw] at ht
  obtain ⟨m', hm'⟩ := Option.ne_none_iff_exists'.mp ht.peer
  have hmine : Host.mine (w.net.vnic a) n = true := (hi.peer n m' hm').2.1
  have hgiven : (w.side a).given n ≤ ((w.side a).wrote n).length := (hi.given n (fun _ => hmine)).2
  obtain ⟨kA, gA⟩ := pieces (c := c) (want := want) a n ((w.side a).wrote n).length w hmine hlive
  generalize hhA : List.replicate ((w.side a).wrote n).length (Ev.host a (.toSock n 1) 0) = hA at kA gA
  have dA : ∀ e ∈ hA, Delivery a n b m e := by
    intro e he
    rw [← hhA] at he
    rw [(List.mem_replicate.mp he).2]
    exact ⟨rfl, rfl, by decide, by decide⟩
  have gA := gA hgiven (by omega)
  have hwA : (World.init addr).exec c want (h1 ++ (h2 ++ hA)) = w.exec c want hA := by rw [← List.append_assoc, exec_append, hw]
  generalize hwAe : w.exec c want hA = wA at *
  -- over the switch
  have hnetA : wA.net = (E2E.World.init addr).exec c (netHist c want (.init addr) (h1 ++ (h2 ++ hA))) := by rw [← hwA]; exact net_world _
  have hlA : ((E2E.World.init addr).exec c (netHist c want (.init addr) (h1 ++ (h2 ++ hA)))).link b = some lb := by
    rw [← hnetA, kA.link]; exact hlink
  obtain ⟨hN, aN, qN⟩ := E2E.can_arrive c addr _ hlA (by
    rw [← hnetA]
    intro s hse
    rw [kA.swUp]
    by_cases hx : w.net.link a = some s
    · exact hacc s (.inl hx)
    · rw [kA.toSwitch s hx] at hse
      exact hacc s (.inr hse))
  rw [E2E.exec_append, ← hnetA] at qN
  have dN : ∀ e ∈ hN.map Ev.net, Delivery a n b m e := by
    intro e he
    obtain ⟨x, hx, rfl⟩ := List.mem_map.mp he
    have := aN x hx
    cases x <;> first | exact this | exact this.elim
  have eN := arrive_exec (c := c) (want := want) hN wA aN
  -- to the application
  generalize hwN : wA.exec c want (hN.map .net) = wN at *
  have hwNe : (World.init addr).exec c want (h1 ++ (h2 ++ (hA ++ hN.map .net))) = wN := by
    rw [← List.append_assoc h2, ← List.append_assoc h1, exec_append, hwA]; exact hwN
  have hsideb : wN.side b = w.side b := by rw [eN]; exact kA.sides b (Ne.symm hab)
  have hsidea : ∃ g, wN.side a = { w.side a with given := g } := by rw [eN]; exact kA.side
  have hgN : (wN.side a).given n = ((w.side a).wrote n).length := by rw [eN]; exact gA
  have hvb : wN.net.vnic b = Vnic.exec (w.net.vnic b) (E2E.vnicHist c b wA.net hN) := by
    rw [eN, ← kA.vnics b (Ne.symm hab)]; exact E2E.vnic_exec c b hN wA.net
  have hout : ∀ x ∈ E2E.vnicHist c b wA.net hN, E2E.Outside x := E2E.vnicHist_outside c b hN _ (fun e id hm => aN _ hm)
  have hva : ∃ o, wN.net.vnic a = { w.net.vnic a with out := o } := by
    obtain ⟨o, ho⟩ := kA.vnic
    refine ⟨o, ?_⟩
    rw [eN, ← ho]
    show (wA.net.exec c hN).vnic a = _
    rw [E2E.vnic_exec]
    have : ∀ (h : List E2E.Ev) (x : E2E.World), (∀ e ∈ h, E2E.Arrive b e) → E2E.vnicHist c a x h = [] := by
      intro h
      induction h with
      | nil => intro _ _; rfl
      | cons e h ih =>
        intro x hx
        have h0 := hx e List.mem_cons_self
        show E2E.vnicEv c x a e ++ E2E.vnicHist c a (x.step c e) h = []
        rw [ih _ (fun y hy => hx y (List.mem_cons_of_mem _ hy)), List.append_nil]
        cases e with
        | toSwitch => rfl
        | toHost v j =>
          have hv : v = b := h0
          simp only [E2E.vnicEv]
          rw [if_neg (fun e => hab (e.trans hv))]
        | _ => exact h0.elim
    rw [this hN _ aN]
    rfl
  generalize hT : Ev.host b (.toApp m (Vnic.written (wN.net.vnic b).out m).length) 0 = T
  have dT : Delivery a n b m T := by rw [← hT]; exact ⟨rfl, rfl, by decide⟩
  generalize hwT : wN.step c want T = wT
  have hwTe : (World.init addr).exec c want (h1 ++ (h2 ++ (hA ++ (hN.map .net ++ [T])))) = wT := by
    have : h1 ++ (h2 ++ (hA ++ (hN.map Ev.net ++ [T]))) = (h1 ++ (h2 ++ (hA ++ hN.map .net))) ++ [T] := by simp
    rw [this, exec_append, hwNe]
    exact hwT
  have hnT : wT.net = wN.net := by
    rw [← hwT, ← hT]
    rfl
  have hsT : wT.side = fun u => if u = b then Host.sideStep (want b) (wN.net.vnic b) (wN.side b) (.toApp m (Vnic.written (wN.net.vnic b).out m).length) else wN.side u := by
    rw [← hwT, ← hT]
    funext u
    show sideEv want wN u (Ev.host b (.toApp m (Vnic.written (wN.net.vnic b).out m).length) 0) = _
    unfold sideEv
    dsimp only
    by_cases hu : u = b
    · rw [if_pos ⟨hu, rfl⟩, if_pos hu, hu]
    · rw [if_neg (fun h => hu h.1), if_neg hu]
  have hsTa : wT.side a = wN.side a := by rw [hsT]; exact if_neg hab
  have hsTb : wT.side b = Host.take (want b) (wN.side b) m ((Vnic.written (wN.net.vnic b).out m).drop ((wN.side b).got m)) (some q) := by
    rw [hsT]
    show (if b = b then _ else _) = _
    rw [if_pos rfl]
    simp only [Host.sideStep]
    rw [hsideb, hq, Host.written_eq]
    congr 1
    unfold Host.chunk
    exact List.take_of_length_le (by simp)
  obtain ⟨i, hh, hwr, hrc⟩ := hs.listens.conn
  rw [hw] at hh hwr
  have hin : i < (w.net.vnic b).nConn := by
    obtain ⟨_, hib⟩ := hostInv c want addr (h1 ++ h2) b
    rw [hw] at hib
    exact (hib.vi.conn1 _ _ hh.now).1
  obtain ⟨hcb, hib⟩ := hostInv c want addr (h1 ++ (h2 ++ (hA ++ hN.map .net))) b
  rw [hwNe] at hib
  have hqN : (wN.side b).peer m = some q := by rw [hsideb]; exact hq
  obtain ⟨ds, g1, g2, g3⟩ := hib.got m q hqN
  have hfin : (wT.side b).peer m = some q ∧ Connect.RunsFor (wT.side b).con q f ∧ (wT.side b).got m = (Vnic.written (wN.net.vnic b).out m).length := by
    rw [hsTb]
    unfold Host.take
    dsimp only
    split
    · refine ⟨hqN, ?_, ?_⟩
      · exact (Connect.Core.step hib.co.core (.data q _)).2.runsFor (by show Connect.RunsFor (wN.side b).con q f; rw [hsideb]; exact hr)
      · have g2' : (wN.side b).got m ≤ (Vnic.written (wN.net.vnic b).out m).length := by
          first | exact g2 | exact g1 | exact g3 | skip
        simp [Host.upd]; omega
    · next hx =>
      have he : (Vnic.written (wN.net.vnic b).out m).drop ((wN.side b).got m) = [] :=
        Decidable.byContradiction fun y => hx ⟨by rw [hsideb]; exact hrun, y⟩
      have := List.drop_eq_nil_iff.mp he
      refine ⟨hqN, by rw [hsideb]; exact hr, ?_⟩
      have g2' : (wN.side b).got m ≤ (Vnic.written (wN.net.vnic b).out m).length := by
          first | exact g2 | exact g1 | exact g3 | skip
      omega
  have hwrote : (wT.side a).wrote n = (w.side a).wrote n := by
    obtain ⟨g, hg⟩ := hsidea
    rw [hsTa, hg]
  refine ⟨hA ++ (hN.map .net ++ [T]), ?_, ?_⟩
  · intro e he
    rcases List.mem_append.mp he with he | he
    · exact dA e he
    · rcases List.mem_append.mp he with he | he
      · exact dN e he
      · rw [List.mem_singleton.mp he]; exact dT
  · have hset : Setting c want addr h1 (h2 ++ (hA ++ (hN.map .net ++ [T]))) a n b m k := by
      refine hs.more _ ?_ ?_ ?_
      · intro e he
        rcases List.mem_append.mp he with he | he
        · exact dA e he
        · rcases List.mem_append.mp he with he | he
          · exact dN e he
          · rw [List.mem_singleton.mp he]; exact dT
      · rw [hwTe]
        obtain ⟨o, ho⟩ := hva
        obtain ⟨g, hg⟩ := hsidea
        refine ⟨?_, ?_, ?_, ht.fresh⟩
        · rw [hsTa, hg]; exact ht.peer
        · rw [hnT, ho]; exact ht.key
        · rw [hnT, ho]; exact ht.only
      · rw [hwTe]
        refine ⟨i, ?_, ?_, hrc⟩
        · rw [hnT, hvb]; exact hh.later _ hout
        · rw [hnT, hvb]; exact outside_writer _ hout hin hwr
    rw [← hwrote, hwTe]
    have := C65_all (q := q) (l := lb) (f := f) hset hbt
    rw [hwTe] at this
    refine this hfin.1 hfin.2.1 hlb.up ?_ ?_ ?_
    · rw [hnT, eN]; exact qN
    · rw [hsTa, hgN, ← hsTa, hwrote]
    · rw [hnT]; exact hfin.2.2

end
end Verif.Apps
