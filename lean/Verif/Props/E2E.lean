import Verif.Lemmas.E2EKeys
import Verif.Props.LinkNetEx
/-! # C60: sockets between VNICs on a switch -/
namespace Verif.E2E

/-- What arrives with the key, given what the demuxer of the connection was called with. -/
theorem bytes_arrived {c : Link.Classes} {addr : Nat → Str} {h1 h2 : List Ev} {a la : Nat} {k : Vnic.Key} {T : List (Nat × Frag.Wire)}
    (hla : ((World.init addr).exec c h1).link a = some la) (hda : .detach a ∉ h2)
    (honly : ∀ v, v ≠ a → ∀ x ∈ sentBy c v ((World.init addr).exec c h1) h2, x.1 ≠ k)
    (hT : ∀ t ∈ T, t.2 ∈ Link.written (netHist c (.init addr) h1) (netHist c ((World.init addr).exec c h1) h2) t.1) :
    bytesTo k.inverse (T.map fun t => (t.2, t.2.data)) = bytesWith k ((T.filter fun t => t.1 = la).map (·.2)) := by
  have h : ∀ t ∈ T, t.2.header = header k → t.1 = la := by
    intro t ht he
    obtain ⟨hd, id, d, g1, g2⟩ := Link.wire_mem_sent (Link.mem_wires.mp (hT t ht))
    rw [write_header g2] at he
    obtain ⟨u, k', e1, e2, e3⟩ := write_netHist c h2 (Inv.reachable addr c h1) g1
    have hk : k' = k := header_inj (by rw [← e1, he])
    by_cases hu : u = a
    · subst hu; exact e3 la hla hda
    · exact absurd hk (honly u hu _ e2)
  clear hT
  unfold bytesTo bytesWith
  induction T with
  | nil => rfl
  | cons t T ih =>
    have ih := ih (fun x hx => h x (by simp [hx]))
    simp only [List.map_cons, List.filter_cons, decide_eq_true_eq]
    by_cases he : t.2.header = header k
    · have h1 := h t (by simp) he
      rw [if_pos ((key_inverse _ _).mpr he), if_pos h1]
      simp only [List.map_cons, List.filter_cons, decide_eq_true_eq]
      rw [if_pos he]
      simp only [List.flatMap_cons, ih]
    · rw [if_neg (fun hx => he ((key_inverse _ _).mp hx)), ih]
      split
      · simp only [List.map_cons, List.filter_cons, decide_eq_true_eq]
        rw [if_neg he]
      · rfl

theorem reach_filter (k : Vnic.Key) (x : Str) (hr : Link.Reaches k.destination x) (ws : List Frag.Wire) :
    bytesWith k (ws.filter fun w => Link.Reaches w.header.destination x) = bytesWith k ws := by
  unfold bytesWith
  rw [List.filter_filter]
  congr 1
  refine List.filter_congr fun w _ => ?_
  by_cases he : w.header = header k
  · have : Link.Reaches w.header.destination x := by rw [he]; exact hr
    simp [he, this]
    exact hr
  · simp [he]

theorem bytesWith_prefix (k : Vnic.Key) {a b : List Frag.Wire} (h : a <+: b) : bytesWith k a <+: bytesWith k b := by
  obtain ⟨t, rfl⟩ := h
  rw [bytesWith_append]
  exact List.prefix_append _ _

/-- For any history of packets that fit. -/
theorem stream_sofar {c : Link.Classes} (hc : c.Ok) (addr : Nat → Str) (h1 h2 : List Ev) (hf : Sound c addr (h1 ++ h2)) (hcalm : Calm c addr h1)
    (a b la lb : Nat) (hla : ((World.init addr).exec c h1).link a = some la) (hda : .detach a ∉ h2) (hb : OnSwitch c addr h1 h2 b lb)
    (k : Vnic.Key) (hr : Link.Reaches k.destination (addr b)) (d1 : Quiet ((World.init addr).exec c h1) lb)
    (hsmall : ∀ v, ∀ x ∈ sentBy c v ((World.init addr).exec c h1) h2, Link.Reaches x.1.destination (addr b) → x.2.length ≤ 2 ^ 16)
    (honly : ∀ v, v ≠ a → ∀ x ∈ sentBy c v ((World.init addr).exec c h1) h2, x.1 ≠ k)
    (i : Nat) (hh : Holds (((World.init addr).exec c h1).vnic b) (((World.init addr).exec c (h1 ++ h2)).vnic b) k.inverse i) :
    ∃ p, p <+: bytesOn k (sentBy c a ((World.init addr).exec c h1) h2) ∧
      received (((World.init addr).exec c (h1 ++ h2)).vnic b) i = received (((World.init addr).exec c h1).vnic b) i ++ p := by
  have hi := Inv.reachable addr c h1
  have hN : netHist c (.init addr) (h1 ++ h2) = _ := netHist_append c h1 h2 (.init addr)
  have hf' : ∀ e ∈ netHist c (.init addr) h1 ++ netHist c ((World.init addr).exec c h1) h2, Link.Fits e := by rw [← hN]; exact hf
  have hn1 : ((World.init addr).exec c h1).net = Link.Net.init.exec c (netHist c (.init addr) h1) := net_exec c h1 _
  have hn2 : (((World.init addr).exec c h1).exec c h2).net = Link.Net.init.exec c (netHist c (.init addr) h1 ++ netHist c ((World.init addr).exec c h1) h2) := by
    rw [net_exec, hn1, Link.exec_append]
  obtain ⟨T, g1, g2⟩ := Link.C58_delivered_sofar hc _ _ hf' hcalm lb (addr b) hb.registered (by rw [← hn1]; exact d1) (fun s hd id data hm hrd => by
    obtain ⟨u, k', e1, e2, _⟩ := write_netHist c h2 hi hm
    rw [e1] at hrd
    exact hsmall u _ e2 hrd)
  obtain ⟨D, e1, e2⟩ := got_netHist c k.inverse h2 hi hb.attached hb.stays
  rw [hn2, hn1] at e1
  have hD : D = T.map fun t => (t.2, t.2.data) := List.append_cancel_left (e1.symm.trans g2)
  have hup : Link.upAfter false la (netHist c (.init addr) h1) = true := ((sent_reachable c addr h1).2 a la hla).1
  have hbytes := bytes_netHist c k h2 hi hla hda
  refine ⟨bytesTo k.inverse D, ?_, ?_⟩
  · rw [hD, bytes_arrived hla hda honly (fun t ht => by
      have hm : t.2 ∈ (T.filter fun x => x.1 = t.1).map (·.2) := List.mem_map.mpr ⟨t, List.mem_filter.mpr ⟨ht, by simp⟩, rfl⟩
      exact (List.mem_filter.mp ((g1 _).subset hm)).1)]
    have := bytesWith_prefix k (g1 la)
    rw [reach_filter k _ hr, Link.written, hup, hbytes] at this
    exact this
  · rw [exec_append] at hh ⊢
    rw [← e2, vnic_exec c b h2]
    rw [vnic_exec c b h2] at hh
    rw [vnic_reach c addr h1 b] at hh ⊢
    rw [← vexec_append, Vnic.received_more _ _ _ _ _ hh]

/-- The same when all bytes have arrived. -/
theorem stream {c : Link.Classes} (hc : c.Ok) (addr : Nat → Str) (h1 h2 : List Ev) (hf : Sound c addr (h1 ++ h2)) (hcalm : Calm c addr (h1 ++ h2))
    (a b la lb : Nat) (hla : ((World.init addr).exec c h1).link a = some la) (hda : .detach a ∉ h2) (hb : OnSwitch c addr h1 h2 b lb)
    (k : Vnic.Key) (hr : Link.Reaches k.destination (addr b)) (d1 : Quiet ((World.init addr).exec c h1) lb) (d2 : Quiet ((World.init addr).exec c (h1 ++ h2)) lb)
    (hsmall : ∀ v, ∀ x ∈ sentBy c v ((World.init addr).exec c h1) h2, Link.Reaches x.1.destination (addr b) → x.2.length ≤ 2 ^ 16)
    (honly : ∀ v, v ≠ a → ∀ x ∈ sentBy c v ((World.init addr).exec c h1) h2, x.1 ≠ k)
    (i : Nat) (hh : Holds (((World.init addr).exec c h1).vnic b) (((World.init addr).exec c (h1 ++ h2)).vnic b) k.inverse i) :
    received (((World.init addr).exec c (h1 ++ h2)).vnic b) i =
      received (((World.init addr).exec c h1).vnic b) i ++ bytesOn k (sentBy c a ((World.init addr).exec c h1) h2) := by
  have hi := Inv.reachable addr c h1
  have hN : netHist c (.init addr) (h1 ++ h2) = _ := netHist_append c h1 h2 (.init addr)
  have hf' : ∀ e ∈ netHist c (.init addr) h1 ++ netHist c ((World.init addr).exec c h1) h2, Link.Fits e := by rw [← hN]; exact hf
  have hc' : Link.Calm (netHist c (.init addr) h1 ++ netHist c ((World.init addr).exec c h1) h2) := by rw [← hN]; exact hcalm
  have hn1 : ((World.init addr).exec c h1).net = Link.Net.init.exec c (netHist c (.init addr) h1) := net_exec c h1 _
  have hn2 : (((World.init addr).exec c h1).exec c h2).net = Link.Net.init.exec c (netHist c (.init addr) h1 ++ netHist c ((World.init addr).exec c h1) h2) := by
    rw [net_exec, hn1, Link.exec_append]
  obtain ⟨T, g1, g2⟩ := Link.C58_delivered_small hc _ _ hf' hc' lb (addr b) hb.registered (by rw [← hn1]; exact d1)
    (by rw [← hn2, ← exec_append]; exact d2) (fun s hd id data hm hrd => by
    obtain ⟨u, k', e1, e2, _⟩ := write_netHist c h2 hi hm
    rw [e1] at hrd
    exact hsmall u _ e2 hrd)
  obtain ⟨D, e1, e2⟩ := got_netHist c k.inverse h2 hi hb.attached hb.stays
  rw [hn2, hn1] at e1
  have hD : D = T.map fun t => (t.2, t.2.data) := List.append_cancel_left (e1.symm.trans g2)
  have hup : Link.upAfter false la (netHist c (.init addr) h1) = true := ((sent_reachable c addr h1).2 a la hla).1
  have hbytes := bytes_netHist c k h2 hi hla hda
  have hfin : bytesTo k.inverse D = bytesOn k (sentBy c a ((World.init addr).exec c h1) h2) := by
    rw [hD, bytes_arrived hla hda honly (fun t ht => by
      have hm : t.2 ∈ (T.filter fun x => x.1 = t.1).map (·.2) := List.mem_map.mpr ⟨t, List.mem_filter.mpr ⟨ht, by simp⟩, rfl⟩
      rw [g1] at hm
      exact (List.mem_filter.mp hm).1), g1, reach_filter k _ hr, Link.written, hup, hbytes]
  rw [exec_append] at hh ⊢
  rw [← hfin, ← e2, vnic_exec c b h2]
  rw [vnic_exec c b h2] at hh
  rw [vnic_reach c addr h1 b] at hh ⊢
  rw [← vexec_append, Vnic.received_more _ _ _ _ _ hh]


/-- What the applications give to the VNICs fits into packets, so everything does, and the switch never raises. -/
theorem fits {c : Link.Classes} (hc : c.Ok) (addr : Nat → Str) (haddr : ∀ v, Plain (addr v)) (h : List Ev) (hp : ∀ e ∈ h, Proper e) : Sound c addr h ∧ Calm c addr h :=
  have h1 := proper_all hc addr haddr h hp
  ⟨h1.1, calm_of_good h1.2.1⟩

/-- C60. Let VNICs `a` and `b` be attached to the switch, `b` registered with its address, and all bytes have arrived. Then let anything happen in any of
the VNICs; `a` and `b` stay attached, and only `a` sends with the key `k`, whose destination is the address of `b`. If `b` has the connection `i` with the
other end of `k` open, or accepts it in this time and it stays open, then at every moment its application has got on it, or will get once its callback
connection is there, what it had, and then the first bytes of what the applications at `a` sent with `k`: none lost, duplicated, reordered or altered. -/
theorem C60_stream_sofar {c : Link.Classes} (hc : c.Ok) (addr : Nat → Str) (haddr : ∀ v, Plain (addr v)) (h1 h2 : List Ev) (hp : ∀ e ∈ h1 ++ h2, Proper e)
    (a b la lb : Nat) (hla : ((World.init addr).exec c h1).link a = some la) (hda : .detach a ∉ h2) (hb : OnSwitch c addr h1 h2 b lb)
    (k : Vnic.Key) (hr : Link.Reaches k.destination (addr b)) (d1 : Quiet ((World.init addr).exec c h1) lb)
    (hsmall : ∀ v, ∀ x ∈ sentBy c v ((World.init addr).exec c h1) h2, Link.Reaches x.1.destination (addr b) → x.2.length ≤ 2 ^ 16)
    (honly : ∀ v, v ≠ a → ∀ x ∈ sentBy c v ((World.init addr).exec c h1) h2, x.1 ≠ k)
    (i : Nat) (hh : Holds (((World.init addr).exec c h1).vnic b) (((World.init addr).exec c (h1 ++ h2)).vnic b) k.inverse i) :
    ∃ p, p <+: bytesOn k (sentBy c a ((World.init addr).exec c h1) h2) ∧
      received (((World.init addr).exec c (h1 ++ h2)).vnic b) i = received (((World.init addr).exec c h1).vnic b) i ++ p :=
  stream_sofar hc addr h1 h2 (fits hc addr haddr _ hp).1 (fits hc addr haddr h1 (fun e he => hp e (by simp [he]))).2 a b la lb hla hda hb k hr d1 hsmall honly i hh

/-- C60. And when all bytes have arrived again, it is all of them. -/
theorem C60_stream {c : Link.Classes} (hc : c.Ok) (addr : Nat → Str) (haddr : ∀ v, Plain (addr v)) (h1 h2 : List Ev) (hp : ∀ e ∈ h1 ++ h2, Proper e)
    (a b la lb : Nat) (hla : ((World.init addr).exec c h1).link a = some la) (hda : .detach a ∉ h2) (hb : OnSwitch c addr h1 h2 b lb)
    (k : Vnic.Key) (hr : Link.Reaches k.destination (addr b)) (d1 : Quiet ((World.init addr).exec c h1) lb) (d2 : Quiet ((World.init addr).exec c (h1 ++ h2)) lb)
    (hsmall : ∀ v, ∀ x ∈ sentBy c v ((World.init addr).exec c h1) h2, Link.Reaches x.1.destination (addr b) → x.2.length ≤ 2 ^ 16)
    (honly : ∀ v, v ≠ a → ∀ x ∈ sentBy c v ((World.init addr).exec c h1) h2, x.1 ≠ k)
    (i : Nat) (hh : Holds (((World.init addr).exec c h1).vnic b) (((World.init addr).exec c (h1 ++ h2)).vnic b) k.inverse i) :
    received (((World.init addr).exec c (h1 ++ h2)).vnic b) i =
      received (((World.init addr).exec c h1).vnic b) i ++ bytesOn k (sentBy c a ((World.init addr).exec c h1) h2) :=
  stream hc addr h1 h2 (fits hc addr haddr _ hp).1 (fits hc addr haddr _ hp).2 a b la lb hla hda hb k hr d1 d2 hsmall honly i hh

/-! ## Who sends with which key -/

/-- C60. Without raw packets and without promiscuous VNICs, what VNIC `v` sends has its address as source. -/
theorem C60_source {c : Link.Classes} (hc : c.Ok) (addr : Nat → Str) (haddr : ∀ v, Plain (addr v)) (hself : ∀ v, Link.Reaches (addr v) (addr v)) (h1 h2 : List Ev)
    (hp : ∀ e ∈ h1 ++ h2, Proper e) (hann : ∀ v a, .announce v a ∉ h1 ++ h2) (hraw : ∀ e ∈ h2, ¬ IsRaw e) (v : Nat) :
    ∀ x ∈ sentBy c v ((World.init addr).exec c h1) h2, Link.Reaches x.1.source (addr v) := by
  induction h2 generalizing h1 with
  | nil => intro x hx; cases hx
  | cons e h2 ih =>
    intro x hx
    rcases List.mem_append.mp hx with hx | hx
    · have hk := source_all hc addr haddr hself h1 (fun y hy => hp y (by simp [hy])) (fun v a hm => hann v a (by simp [hm])) v
      have hr := hraw e (by simp)
      cases e with
      | own u e id =>
        cases e with
        | reverse n d =>
          simp only [sentNow] at hx
          split at hx
          · next hl => rw [List.mem_singleton.mp hx]; exact hk n hl.2.2.1
          · cases hx
        | rawWire p k d => exact absurd trivial hr
        | _ => cases hx
      | _ => cases hx
    · have := ih (h1 ++ [e]) (by simpa using hp) (by simpa using hann) (fun y hy => hraw y (by simp [hy]))
      rw [exec_append] at this
      exact this x hx

theorem link_attached (c : Link.Classes) (addr : Nat → Str) (h : List Ev) {v l : Nat} (hl : ((World.init addr).exec c h).link v = some l) : .attach v l ∈ h := by
  induction h using snoc_induct with
  | h0 => cases hl
  | hs h e ih =>
    rw [exec_append] at hl
    change linkEv ((World.init addr).exec c h) v e = some l at hl
    have old : ((World.init addr).exec c h).link v = some l → .attach v l ∈ h ++ [e] := fun hx => List.mem_append_left _ (ih hx)
    cases e with
    | attach u m =>
      simp only [linkEv] at hl
      split at hl
      · next hx => cases hl; rw [hx.1]; simp
      · exact old hl
    | detach u =>
      simp only [linkEv] at hl
      split at hl
      · cases hl
      · exact old hl
    | _ => exact old hl

theorem sentBy_attached (c : Link.Classes) (addr : Nat → Str) (v : Nat) : ∀ (h2 h1 : List Ev) {x : Vnic.Key × Bytes}, x ∈ sentBy c v ((World.init addr).exec c h1) h2 →
    ∃ l, .attach v l ∈ h1 ++ h2
  | [], _, _, hx => by cases hx
  | e :: h2, h1, x, hx => by
    rcases List.mem_append.mp hx with hx | hx
    · have hl : ((World.init addr).exec c h1).link v ≠ none := by
        cases e with
        | own u e id =>
          cases e with
          | reverse n d => simp only [sentNow] at hx; split at hx; (next h => exact h.2.1); cases hx
          | rawWire p k d => simp only [sentNow] at hx; split at hx; (next h => exact h.2.1); cases hx
          | _ => cases hx
        | _ => cases hx
      cases h : ((World.init addr).exec c h1).link v with
      | none => exact absurd h hl
      | some l => exact ⟨l, List.mem_append_left _ (link_attached c addr h1 h)⟩
    · have := sentBy_attached c addr v h2 (h1 ++ [e]) (x := x) (by rw [exec_append]; exact hx)
      simpa using this

/-- C60. If nothing reaches both `a` and another VNIC that was ever attached (see `C60_distinct`), then with sockets only (no raw packets, no promiscuous VNICs)
nobody else sends with the key of a connection of `a`. -/
theorem C60_sockets {c : Link.Classes} (hc : c.Ok) (addr : Nat → Str) (haddr : ∀ v, Plain (addr v)) (hself : ∀ v, Link.Reaches (addr v) (addr v))
    (h1 h2 : List Ev) (hp : ∀ e ∈ h1 ++ h2, Proper e)
    (a b la lb : Nat) (hdist : ∀ v l x, .attach v l ∈ h1 ++ h2 → Link.Reaches x (addr v) → Link.Reaches x (addr a) → v = a) (hla : ((World.init addr).exec c h1).link a = some la) (hda : .detach a ∉ h2) (hb : OnSwitch c addr h1 h2 b lb)
    (k : Vnic.Key) (hr : Link.Reaches k.destination (addr b)) (d1 : Quiet ((World.init addr).exec c h1) lb) (d2 : Quiet ((World.init addr).exec c (h1 ++ h2)) lb)
    (hsmall : ∀ v, ∀ x ∈ sentBy c v ((World.init addr).exec c h1) h2, Link.Reaches x.1.destination (addr b) → x.2.length ≤ 2 ^ 16)
    (hann : ∀ v a, .announce v a ∉ h1 ++ h2) (hraw : ∀ e ∈ h2, ¬ IsRaw e) (hsrc : Link.Reaches k.source (addr a))
    (i : Nat) (hh : Holds (((World.init addr).exec c h1).vnic b) (((World.init addr).exec c (h1 ++ h2)).vnic b) k.inverse i) :
    received (((World.init addr).exec c (h1 ++ h2)).vnic b) i =
      received (((World.init addr).exec c h1).vnic b) i ++ bytesOn k (sentBy c a ((World.init addr).exec c h1) h2) :=
  C60_stream hc addr haddr h1 h2 hp a b la lb hla hda hb k hr d1 d2 hsmall
    (fun v hv x hx he => by
      obtain ⟨l, hl⟩ := sentBy_attached c addr v h2 h1 hx
      exact hv (hdist v l x.1.source hl (C60_source hc addr haddr hself h1 h2 hp hann hraw v x hx) (by rw [he]; exact hsrc))) i hh

theorem ancestors_valid : ∀ (k : Nat) (a : Addr), a.Valid → ∀ b ∈ Addr.ancestors k a, b.Valid
  | 0, _, _, _, hb => by cases hb
  | k + 1, a, ha, b, hb => by
    unfold Addr.ancestors at hb
    rcases List.mem_cons.mp hb with rfl | hb
    · exact ha
    · split at hb
      · cases hb
      · next p hp => exact ancestors_valid k p ((C26_parent_is_parent a p hp).2.2 ha) b hb

theorem ancestors_less : ∀ (k : Nat) (a : Addr), ∀ b ∈ Addr.ancestors k a, b = a ∨ b.specified.length < a.specified.length
  | 0, _, _, hb => by cases hb
  | k + 1, a, b, hb => by
    unfold Addr.ancestors at hb
    rcases List.mem_cons.mp hb with rfl | hb
    · exact .inl rfl
    · split at hb
      · cases hb
      · next p hp =>
        have h1 := (C26_parent_is_parent a p hp).2.1
        rcases ancestors_less k p b hb with h | h
        · right; rw [h]; omega
        · right; omega

theorem full_valid (z n d i : Nat) : (Verif.addr z n d i).Valid := by
  intro p hp
  simp only [Verif.addr, Addr.parts, List.mem_cons, List.not_mem_nil, or_false] at hp
  rcases hp with rfl | rfl | rfl | rfl <;> exact .inr ⟨_, rfl⟩

theorem ancestors_full {k : Nat} {a : Addr} {z n d i : Nat} (h : Verif.addr z n d i ∈ Addr.ancestors k a) : a = Verif.addr z n d i := by
  rcases ancestors_less k a _ h with h | h
  · exact h.symm
  · have h1 : (Verif.addr z n d i).specified.length = 4 := rfl
    have h2 : a.specified.length ≤ 4 := by
      obtain ⟨a0, a1, a2, a3⟩ := a
      cases a0 <;> cases a1 <;> cases a2 <;> cases a3 <;> simp [Addr.specified, Addr.parts]
    omega

/-- Only the address itself reaches a full address. -/
theorem reaches_full {x : Str} {z n d i : Nat} (h : Link.Reaches x (Verif.addr z n d i).str) : Addr.blockFromString x = .ok (Verif.addr z n d i) := by
  obtain ⟨a, ha, hm⟩ := h
  obtain ⟨b, hb, hs⟩ := List.mem_map.mp hm
  have hva : a.Valid := by
    obtain ⟨_, _, _, _, _, h1, h2, h3, h4⟩ := (C25_block_accepts_iff x a).mp ha
    have one : ∀ {s : Str} {p : APart}, DenotesBlock s p → p = .star ∨ ∃ n : Nat, p = .num n := by
      intro s p hx
      rcases hx with hx | ⟨n, hx, _⟩
      · exact .inl hx.2
      · exact .inr ⟨n, hx⟩
    intro p hp
    simp only [Addr.parts, List.mem_cons, List.not_mem_nil, or_false] at hp
    rcases hp with rfl | rfl | rfl | rfl
    · exact one h1
    · exact one h2
    · exact one h3
    · exact one h4
  have hvb : b.Valid := ancestors_valid 5 a hva b hb
  have e1 := C25_block_roundtrip b hvb
  rw [hs, C25_block_roundtrip _ (full_valid z n d i)] at e1
  cases e1
  rw [ha]
  exact congrArg _ (ancestors_full hb)

/-- C60. Nothing reaches two VNICs with different addresses. -/
theorem C60_distinct {z n d i z' n' d' i' : Nat} {x : Str} (h : Link.Reaches x (Verif.addr z n d i).str) (h' : Link.Reaches x (Verif.addr z' n' d' i').str) :
    (z, n, d, i) = (z', n', d', i') := by
  have e := (reaches_full h).symm.trans (reaches_full h')
  simp only [Verif.addr, Except.ok.injEq, Addr.mk.injEq, APart.num.injEq, Int.natCast_inj] at e
  rw [e.1, e.2.1, e.2.2.1, e.2.2.2]

/-! ## All bytes can arrive -/

/-- Bytes arrive at the switch, or at the link side of VNIC `b`. -/
def Arrive (b : Nat) : Ev → Prop
  | .toSwitch _ _ => True
  | .toHost v _ => v = b
  | _ => False

theorem toSwitch_exec (c : Link.Classes) : ∀ (ks : List (Nat × Nat)) (w : World), w.exec c (ks.map fun x => .toSwitch x.1 x.2) =
    { w with net := w.net.exec c (ks.map fun x => .toSwitch x.1 x.2) }
  | [], _ => rfl
  | x :: ks, w => by
    show World.exec c (w.step c (.toSwitch x.1 x.2)) _ = _
    have : w.step c (.toSwitch x.1 x.2) = { w with net := w.net.step c (.toSwitch x.1 x.2) } := rfl
    rw [this, toSwitch_exec c ks]; rfl

theorem toHost_exec (c : Link.Classes) {b l : Nat} : ∀ (ms : List Nat) (w : World), w.link b = some l →
    (w.exec c (ms.map (.toHost b))).net = w.net.exec c (ms.map (.toHost l))
  | [], _, _ => rfl
  | m :: ms, w, h => by
    show (World.exec c (w.step c (.toHost b m)) _).net = _
    rw [toHost_exec c ms _ (show (w.step c (.toHost b m)).link b = some l from h)]
    show (w.net.exec c (netEv w (.toHost b m))).exec c _ = _
    simp only [netEv, h]; rfl

/-- From every state in which the connections that have bytes on their way are accepted, all bytes can arrive. -/
theorem can_arrive (c : Link.Classes) (addr : Nat → Str) (h : List Ev) {b l : Nat} (hl : ((World.init addr).exec c h).link b = some l)
    (hacc : ∀ s, ((World.init addr).exec c h).net.toSwitch s ≠ [] → s ∈ ((World.init addr).exec c h).net.swUp) :
    ∃ h3, (∀ e ∈ h3, Arrive b e) ∧ Quiet ((World.init addr).exec c (h ++ h3)) l := by
  have hup : l ∈ ((World.init addr).exec c h).net.hostUp := by
    have h1 := ((sent_reachable c addr h).2 b l hl).1
    have h2 := Link.exec_hostUp c l (netHist c (.init addr) h) .init
    rw [net_exec]
    exact of_decide_eq_true (h2.trans h1)
  obtain ⟨ks, ms, _, hd⟩ := Link.C58_can_drain c l true _ _ hacc (fun _ hs => hs) hup
  refine ⟨ks.map (fun x => .toSwitch x.1 x.2) ++ ms.map (.toHost b), ?_, ?_⟩
  · intro e he
    rcases List.mem_append.mp he with he | he <;> obtain ⟨x, _, rfl⟩ := List.mem_map.mp he
    · trivial
    · rfl
  · unfold Quiet
    rw [exec_append, exec_append, toSwitch_exec, toHost_exec c (b := b) (l := l) ms _ (by exact hl)]
    rw [Link.exec_append] at hd
    exact hd

/-- Nothing happens in the VNIC but `demux` and events of the link. -/
def Outside : Vnic.Ev → Prop
  | .data _ _ => True
  | .linkUp => True
  | .linkDown => True
  | _ => False

/-- An open connection stays open, and no other one with its key is made. -/
theorem outside_exec : ∀ (es : List Vnic.Ev) {s : Vnic.St} {k : Vnic.Key} {i : Nat}, (∀ e ∈ es, Outside e) → s.conns.get k = some i →
    (Vnic.exec s es).conns.get k = some i ∧ (∀ j, s.nConn ≤ j → j < (Vnic.exec s es).nConn → ((Vnic.exec s es).conn j).key ≠ k) ∧
    (∀ j, j < s.nConn → ((Vnic.exec s es).conn j).key = (s.conn j).key) ∧ s.nConn ≤ (Vnic.exec s es).nConn ∧
    ∀ c, ((Vnic.exec s es).ctl c).closed = (s.ctl c).closed
  | [], s, k, i, _, h => ⟨h, fun j h1 h2 => absurd h2 (Nat.not_lt.mpr h1), fun _ _ => rfl, Nat.le_refl _, fun _ => rfl⟩
  | e :: es, s, k, i, he, h => by
    have hes := fun x hx => he x (List.mem_cons_of_mem _ hx)
    cases e with
    | linkUp => exact outside_exec es (s := { s with linkUp := true }) hes h
    | linkDown => exact outside_exec es (s := { s with linkUp := false }) hes h
    | data k' d =>
      show _ ∧ _
      rcases Vnic.demux_eq s k' d with ⟨j, _, e⟩ | ⟨_, e⟩ | ⟨hn, c, e⟩
      · have hs : Vnic.step s (.data k' d) = _ := e
        simp only [Vnic.exec, hs]
        unfold Vnic.writeConn
        split
        · next b _ =>
          obtain ⟨g1, g2, g3, g4, g5⟩ := outside_exec es (s := { Vnic.dumpAll s k' d with conn := Vnic.upd (Vnic.dumpAll s k' d).conn j { (Vnic.dumpAll s k' d).conn j with writer := .buf (b ++ d) } }) hes h
          refine ⟨g1, g2, fun x hx => (g3 x hx).trans ?_, g4, g5⟩
          simp only [Vnic.upd]
          split
          · next e => subst e; rfl
          · rfl
        · exact outside_exec es (s := (Vnic.dumpAll s k' d).emit _) hes h
      · have hs : Vnic.step s (.data k' d) = _ := e
        simp only [Vnic.exec, hs]
        exact outside_exec es (s := Vnic.dumpAll s k' d) hes h
      · have hs : Vnic.step s (.data k' d) = _ := e
        simp only [Vnic.exec, hs]
        have hne : k'.inverse ≠ k := by intro e'; rw [e', h] at hn; cases hn
        obtain ⟨g1, g2, g3, g4, g5⟩ := outside_exec es (s := Vnic.startSpawn (Vnic.newConn (Vnic.dumpAll s k' d) c k'.inverse d) c k'.inverse) (k := k) (i := i) hes (by
          show Dict.get (Dict.set s.conns k'.inverse s.nConn) k = some i
          rw [Dict.get_set_ne _ _ hne]; exact h)
        refine ⟨g1, fun j h1 h2 => ?_, fun j hj => ?_, Nat.le_trans (Nat.le_succ _) g4, g5⟩
        · rcases Nat.lt_or_ge s.nConn j with hj | hj
          · exact g2 j hj h2
          · have : j = s.nConn := Nat.le_antisymm hj h1
            subst this
            rw [g3 s.nConn (Nat.lt_succ_self _)]
            simpa [Vnic.startSpawn, Vnic.newConn, Vnic.dumpAll, Vnic.upd] using hne
        · rw [g3 j (Nat.lt_succ_of_lt hj)]
          simp only [Vnic.startSpawn, Vnic.newConn, Vnic.dumpAll, Vnic.upd]
          rw [if_neg (Nat.ne_of_lt hj)]
    | _ => exact absurd (he _ List.mem_cons_self) id

theorem vnicHist_outside (c : Link.Classes) (b : Nat) : ∀ (h : List Ev) (w : World), (∀ e id, .own b e id ∉ h) → ∀ e ∈ vnicHist c b w h, Outside e
  | [], _, _, _, he => by cases he
  | e :: h, w, hh, x, hx => by
    rcases List.mem_append.mp hx with hx | hx
    · cases e with
      | own u e id =>
        simp only [vnicEv] at hx
        split at hx
        · next hu => rw [hu.1] at hh; exact absurd List.mem_cons_self (hh e id)
        · cases hx
      | toHost u j =>
        simp only [vnicEv] at hx
        split at hx
        · split at hx
          · cases hx
          · obtain ⟨_, _, he⟩ := demuxed_mem hx; rw [he]; trivial
        · cases hx
      | attach u m =>
        simp only [vnicEv] at hx
        split at hx
        · rw [List.mem_singleton.mp hx]; trivial
        · cases hx
      | detach u =>
        simp only [vnicEv] at hx
        split at hx
        · rw [List.mem_singleton.mp hx]; trivial
        · cases hx
      | accept m => cases hx
      | announce u a => cases hx
      | toSwitch m k => cases hx
      | timeout m k => cases hx
      | lostSwitch m => cases hx
    · exact vnicHist_outside c b h _ (fun e id hm => hh e id (List.mem_cons_of_mem _ hm)) x hx

theorem Holds.later {s1 s2 : Vnic.St} {k : Vnic.Key} {i : Nat} (h : Holds s1 s2 k i) (es : List Vnic.Ev) (he : ∀ e ∈ es, Outside e) : Holds s1 (Vnic.exec s2 es) k i := by
  obtain ⟨g1, g2, g3, g4, g5⟩ := outside_exec es he h.now
  refine ⟨g1, ?_⟩
  rcases h.before with hb | ⟨hb, ⟨c, h1, h2, h3⟩, h4⟩
  · exact .inl hb
  · refine .inr ⟨hb, ⟨c, h1, h2, by rw [g5]; exact h3⟩, fun j j1 j2 j3 => ?_⟩
    rcases Nat.lt_or_ge j s2.nConn with hj | hj
    · exact h4 j j1 hj (by rw [← g3 j hj]; exact j3)
    · exact absurd j3 (g2 j hj j2)

theorem arrive_sent (c : Link.Classes) (v b : Nat) : ∀ (h : List Ev) (w : World), (∀ e ∈ h, Arrive b e) → sentBy c v w h = []
  | [], _, _ => rfl
  | e :: h, w, he => by
    show sentNow w v e ++ sentBy c v (w.step c e) h = []
    rw [arrive_sent c v b h _ (fun x hx => he x (List.mem_cons_of_mem _ hx))]
    have := he e List.mem_cons_self
    cases e <;> first | rfl | exact this.elim

/-- C60. Whatever the applications at `a` sent with `k` can still arrive: with the hypotheses of `C60_stream_sofar`, and if the switch has accepted all connections
on which bytes are on their way, there is a continuation, in which bytes only arrive, after which the application at `b` has got (or will get when its callback
connection is there) all of it. -/
theorem C60_can_arrive {c : Link.Classes} (hc : c.Ok) (addr : Nat → Str) (haddr : ∀ v, Plain (addr v)) (h1 h2 : List Ev) (hp : ∀ e ∈ h1 ++ h2, Proper e)
    (a b la lb : Nat) (hla : ((World.init addr).exec c h1).link a = some la) (hda : .detach a ∉ h2) (hb : OnSwitch c addr h1 h2 b lb)
    (k : Vnic.Key) (hr : Link.Reaches k.destination (addr b)) (d1 : Quiet ((World.init addr).exec c h1) lb)
    (hsmall : ∀ v, ∀ x ∈ sentBy c v ((World.init addr).exec c h1) h2, Link.Reaches x.1.destination (addr b) → x.2.length ≤ 2 ^ 16)
    (honly : ∀ v, v ≠ a → ∀ x ∈ sentBy c v ((World.init addr).exec c h1) h2, x.1 ≠ k)
    (i : Nat) (hh : Holds (((World.init addr).exec c h1).vnic b) (((World.init addr).exec c (h1 ++ h2)).vnic b) k.inverse i)
    (hacc : ∀ s, ((World.init addr).exec c (h1 ++ h2)).net.toSwitch s ≠ [] → s ∈ ((World.init addr).exec c (h1 ++ h2)).net.swUp) :
    ∃ h3, (∀ e ∈ h3, Arrive b e) ∧
      received (((World.init addr).exec c (h1 ++ h2 ++ h3)).vnic b) i =
        received (((World.init addr).exec c h1).vnic b) i ++ bytesOn k (sentBy c a ((World.init addr).exec c h1) h2) := by
  have hlb : ((World.init addr).exec c (h1 ++ h2)).link b = some lb := by rw [exec_append]; exact link_stays_exec c h2 _ hb.attached hb.stays
  obtain ⟨h3, ha, hq⟩ := can_arrive c addr (h1 ++ h2) hlb hacc
  have hs : ∀ v, sentBy c v ((World.init addr).exec c h1) (h2 ++ h3) = sentBy c v ((World.init addr).exec c h1) h2 := by
    intro v; rw [sentBy_append, arrive_sent c v b h3 _ ha, List.append_nil]
  refine ⟨h3, ha, ?_⟩
  rw [List.append_assoc] at hq ⊢
  rw [C60_stream hc addr haddr h1 (h2 ++ h3) ?_ a b la lb hla ?_ ⟨hb.attached, ?_, ?_, ?_, hb.address⟩ k hr d1 hq ?_ ?_ i ?_, hs]
  · intro e he
    rw [← List.append_assoc] at he
    rcases List.mem_append.mp he with he | he
    · exact hp e he
    · have := ha e he
      cases e <;> first | trivial | exact this.elim
  · intro hm
    rcases List.mem_append.mp hm with hm | hm
    · exact hda hm
    · exact ha _ hm
  · intro hm
    rcases List.mem_append.mp hm with hm | hm
    · exact hb.stays hm
    · exact ha _ hm
  · rw [← List.append_assoc]
    intro hm
    rcases List.mem_append.mp hm with hm | hm
    · exact hb.kept hm
    · exact ha _ hm
  · intro x
    rw [← List.append_assoc]
    intro hm
    rcases List.mem_append.mp hm with hm | hm
    · exact hb.plain x hm
    · exact ha _ hm
  · intro v; rw [hs]; exact hsmall v
  · intro v; rw [hs]; exact honly v
  · have := hh.later (vnicHist c b ((World.init addr).exec c (h1 ++ h2)) h3) (vnicHist_outside c b h3 _ (fun e id hm => ha _ hm))
    rw [← vnic_exec, ← exec_append, List.append_assoc] at this
    exact this

/-! ## Nobody is told -/

/-- C60. What happens at VNIC `v`, except data sent and raw packets, is not seen outside: not by the network, not by any other VNIC. So a connect succeeds whether or not
there is anyone at the other side, and the other side is told neither that a connection was made nor that it was closed. -/
theorem C60_unseen (c : Link.Classes) (addr : Nat → Str) (h : List Ev) (v : Nat) (e : Vnic.Ev) (id : Nat) (h1 : ∀ n d, e ≠ .reverse n d) (h2 : ∀ p k d, e ≠ .rawWire p k d) :
    ((World.init addr).exec c (h ++ [.own v e id])).net = ((World.init addr).exec c h).net ∧
    ((World.init addr).exec c (h ++ [.own v e id])).link = ((World.init addr).exec c h).link ∧
    ∀ u, u ≠ v → ((World.init addr).exec c (h ++ [.own v e id])).vnic u = ((World.init addr).exec c h).vnic u := by
  rw [exec_append]
  have hi := Inv.reachable addr c h
  refine ⟨?_, rfl, fun u hu => ?_⟩
  · show ((World.init addr).exec c h).net.exec c (netEv _ (.own v e id)) = _
    rw [netEv_own]
    split
    · rfl
    · split
      · have : Vnic.linkNow (((World.init addr).exec c h).vnic v) e = [] := by
          cases e <;> first | rfl | exact absurd rfl (h1 _ _) | exact absurd rfl (h2 _ _ _)
        rw [this]; rfl
      · rfl
  · show Vnic.exec _ (vnicEv c _ u (.own v e id)) = _
    simp only [vnicEv, hu, false_and, if_false]; rfl

/-- C60. A connection at `b` stays open, whatever happens elsewhere: its other end may be closed, the other VNIC or the switch may vanish. -/
theorem C60_stays_open (c : Link.Classes) (addr : Nat → Str) (h1 h2 : List Ev) (b : Nat) (k : Vnic.Key) (i : Nat)
    (hk : (((World.init addr).exec c h1).vnic b).conns.get k = some i) (hown : ∀ e id, .own b e id ∉ h2) :
    (((World.init addr).exec c (h1 ++ h2)).vnic b).conns.get k = some i := by
  rw [exec_append, vnic_exec]
  exact (outside_exec _ (vnicHist_outside c b h2 _ hown) hk).1

end Verif.E2E
