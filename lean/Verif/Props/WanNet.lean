import Verif.Lemmas.WanSend
/-! # C56: devices in a WAN -/
namespace Verif.WanNet
open Verif.Switch

/-! ## Nothing goes wrong inside -/

/-- C56. After every history, no switch of the WAN and no router raises when a link is registered or unregistered. -/
theorem C56_no_key_error (c : Cfg) (h : List Ev) :
    (∀ p s, (exec c .new h).lans.get p = some s → ∀ a k, (∃ s', s.registerLink a k = .ok s') ∧ ∃ s', s.unregisterLink k = .ok s') ∧
    (∀ i r, (exec c .new h).routers.get i = some r → ∀ k, ∃ s', r.own.unregisterLink k = .ok s') := by
  have hr := (run c h).inv
  constructor
  · intro p s hs a k
    obtain ⟨s1, h1, _⟩ := register_spec (hr.d.good.inv p s hs) a k
    obtain ⟨s2, h2, _⟩ := unregister_spec (hr.d.good.inv p s hs) k
    exact ⟨⟨s1, h1⟩, s2, h2⟩
  · intro i r hi k
    have := hr.d.router i
    rw [hi] at this
    obtain ⟨s2, h2, _⟩ := unregister_spec (RouterIs.inv this) k
    exact ⟨s2, h2⟩

/-! ## Sending -/

/-- The next hop that the WAN reports after a history. -/
def hopOf (h : List Ev) (p z : Int) : Option Int := Wan.nextHop (Wan.exec [] (routeEvs h)) p z

/-- The links over which a located device sends. -/
structure Chosen (n : Net) (h : List Ev) (v : View) (p : Int) (z a b k : Nat) (ls : List Nat) : Prop where
  nodup : ls.Nodup
  mem : ∀ l, l ∈ ls ↔ (∃ m, l = dev m ∧ Hears v p z a b k m) ∨
    ∃ q : Nat, p ≠ z ∧ hopOf h p z = some (q : Int) ∧ q ≠ 0 ∧ ∃ y ∈ enclosing q 0 0 0, tab n.lans p l = some y

theorem hub_neg {q : Int} (hq : q < 0) (s : Switch) : s.getOutboundLinks (hub q) = .error .invalidAddress := by
  rw [C28_raises_iff]
  refine ⟨hub_text q, fun a ha => ?_⟩
  obtain ⟨s1, s2, s3, s4, he, d1, d2, d3, d4⟩ := (C25_block_accepts_iff _ _).mp ha
  have nodot : ∀ {s p}, DenotesBlock s p → '.' ∉ s := by
    rintro s p (⟨rfl, _⟩ | ⟨_, _, _, hn⟩)
    · decide
    · exact hn
  have hs := congrArg (splitOn '.') he
  rw [hub_dotted, Addr.split_dotted (intStr_no q '.' (.inl rfl)) zero_no zero_no zero_no, Addr.split_dotted (nodot d1) (nodot d2) (nodot d3) (nodot d4)] at hs
  simp only [List.cons.injEq, and_true] at hs
  rcases d1 with ⟨e1, _⟩ | ⟨m, _, hm, _⟩
  · have := pyInt_intStr q
    rw [hs.1, e1] at this
    exact absurd this (by intro hx; have : pyInt ['*'] = none := by decide
                          rw [this] at hx; cases hx)
  · have h1 := (pyInt_iff _ _).mpr hm
    rw [← hs.1, pyInt_intStr] at h1
    have := Option.some.inj h1
    omega

theorem send_links {c : Cfg} {h : List Ev} (r : Run c h) {i : Nat} {p : Int} (hp : ((view h).seat i).place = some p) {dst : Str} {z a b k : Nat}
    (hd : Denotes dst z a b k) (h0 : ¬ (a = 0 ∧ b = 0 ∧ k = 0)) (x : Nat) :
    (∃ ls, (exec c .new h).send c i dst x =
        Net.writeEach (fun n l => Net.write c c.depth n l (.wire dst x)) (exec c .new h) ls ∧
      Chosen (exec c .new h) h (view h) p z a b k ls) ∨
    (∃ q : Int, q < 0 ∧ p ≠ z ∧ hopOf h p z = some q ∧ (exec c .new h).send c i dst x = exec c .new h) := by
  have hi := r.inv
  have hup := (hi.d.place i p hp).2
  obtain ⟨ro, hro⟩ := up_router hi.d hup
  have hri := hi.d.router i
  rw [hro] at hri
  have hri : RouterIs i ro ((view h).seat i) := hri
  obtain ⟨hb, hv⟩ := denotes_block hd
  obtain ⟨ls, l1, l2, l3⟩ := lookup_plain hi p hd h0
  generalize hn : exec c .new h = n at *
  have hroutes : n.routes = Wan.exec [] (routeEvs h) := by rw [← hn]; exact r.routes
  have hout : n.outbound ro dst = if Net.foreign (some p) (.num z) then n.viaHop p (some p) (.num z) ls else .ok ls := by
    unfold Net.outbound
    rw [if_pos hv, hri.lan, hp]
    dsimp only
    rw [hb, l1, hri.loc p hp]
    rfl
  have hsend : ∀ ms, n.outbound ro dst = .ok ms → n.send c i dst x =
      Net.writeEach (fun n l => Net.write c c.depth n l (.wire dst x)) n ms := by
    intro ms hm
    unfold Net.send
    rw [if_pos ((hi.d.up i).mpr hup), hro]
    dsimp only
    rw [hm]
  by_cases hz : p = z
  · left
    refine ⟨ls, hsend ls ?_, l2, fun l => ?_⟩
    · rw [hout, if_neg]
      unfold Net.foreign
      simp [hz]
    · rw [l3]
      constructor
      · exact .inl
      · rintro (hx | ⟨_, hx, _⟩)
        · exact hx
        · exact absurd hz hx
  · have hf : Net.foreign (some p) (.num z) = true := by
      unfold Net.foreign
      simp [Ne.symm hz]
    rw [hf, if_pos rfl] at hout
    have hhop : n.hop (some p) (.num z) = match hopOf h p z with
        | some q => if q = 0 then none else some q
        | none => none := by
      unfold Net.hop hopOf
      rw [hroutes]
      rfl
    unfold Net.viaHop at hout
    rw [hhop] at hout
    cases hq : hopOf h p z with
    | none =>
      rw [hq] at hout
      left
      refine ⟨ls, hsend ls hout, l2, fun l => ?_⟩
      rw [l3]
      constructor
      · exact .inl
      · rintro (hx | ⟨_, _, hx, _⟩)
        · exact hx
        · rw [hq] at hx; cases hx
    | some q =>
      rw [hq] at hout
      dsimp only at hout
      by_cases hq0 : q = 0
      · rw [if_pos hq0] at hout
        left
        refine ⟨ls, hsend ls hout, l2, fun l => ?_⟩
        rw [l3]
        constructor
        · exact .inl
        · rintro (hx | ⟨q', _, hx, hne, _⟩)
          · exact hx
          · rw [hq] at hx
            have := Option.some.inj hx
            omega
      · rw [if_neg hq0] at hout
        dsimp only at hout
        by_cases hneg : q < 0
        · right
          refine ⟨q, hneg, hz, rfl, ?_⟩
          rw [hub_neg hneg] at hout
          unfold Net.send
          rw [if_pos ((hi.d.up i).mpr hup), hro]
          dsimp only
          rw [hout]
        · obtain ⟨q', rfl⟩ := Int.eq_ofNat_of_zero_le (by omega : 0 ≤ q)
          obtain ⟨ms, m1, m2, m3⟩ := lookup hi.d p (hub_denotes q')
          rw [m1] at hout
          left
          refine ⟨union ls ms, hsend _ hout, union_nodup l2 ms, fun l => ?_⟩
          rw [union_mem, l3, m3]
          constructor
          · rintro (hx | hx)
            · exact .inl hx
            · exact .inr ⟨q', hz, hq, by omega, hx⟩
          · rintro (hx | ⟨q2, _, he, _, hx⟩)
            · exact .inl hx
            · have : q' = q2 := by rw [hq] at he; have := Option.some.inj he; omega
              subst this
              exact .inr hx

theorem delivered_io (n : Net) (o' : List (Nat × SPkt)) (d : Nat) (m : Nat) :
    delivered (n.io (n.out ++ o') d) m = delivered n m ++ (wrote o' m).map (·.2) := by
  unfold delivered wrote Net.io
  simp

/-- What a device gets of a packet that a located device sends. -/
theorem sent {c : Cfg} {h : List Ev} {i : Nat} {p : Int} (hp : ((view h).seat i).place = some p) {dst : Str} {z a b k : Nat}
    (hd : Denotes dst z a b k) (h0 : ¬ (a = 0 ∧ b = 0 ∧ k = 0)) (x : Nat) :
    (∃ ls, Chosen (exec c .new h) h (view h) p z a b k ls ∧ ∀ m, ∃ cnt,
      delivered (exec c .new (h ++ [.send i dst x])) m = delivered (exec c .new h) m ++ List.replicate cnt (.wire dst x) ∧
      (dev m ∈ ls → 1 ≤ cnt) ∧
      ((∀ j q, lnk j ∈ ls → tab (exec c .new h).lans p (lnk j) = some (hub q) → ¬ Hears (view h) q z a b k m) →
        (dev m ∈ ls → cnt = 1) ∧ (dev m ∉ ls → cnt = 0)) ∧
      (Reliable c → ∀ j q, lnk j ∈ ls → tab (exec c .new h).lans p (lnk j) = some (hub q) → Hears (view h) q z a b k m → 1 ≤ cnt)) ∨
    (∃ q : Int, q < 0 ∧ p ≠ z ∧ hopOf h p z = some q ∧
      ∀ m, delivered (exec c .new (h ++ [.send i dst x])) m = delivered (exec c .new h) m) := by
  have r := run c h
  have he : exec c .new (h ++ [.send i dst x]) = (exec c .new h).send c i dst x := exec_append ..
  rw [he]
  rcases send_links r hp hd h0 x with ⟨ls, e1, e2⟩ | ⟨q, e1, e2, e3, e4⟩
  · left
    refine ⟨ls, e2, fun m => ?_⟩
    have hl : ∀ l ∈ ls, ∃ y, tab (exec c .new h).lans p l = some y := by
      intro l hl
      rcases (e2.mem l).mp hl with ⟨m, rfl, hm⟩ | ⟨_, _, _, _, y, _, hy⟩
      · obtain ⟨y, _, hy⟩ := (found_dev r.inv.d).mpr hm
        exact ⟨y, hy⟩
      · exact ⟨y, hy⟩
    obtain ⟨o', d', w1, w2, w3, w4, w5⟩ := writeEach_spec c r.inv hd h0 p x ls (exec c .new h).out (exec c .new h).draws hl
    rw [e1]
    rw [io_self] at w1
    rw [w1, delivered_io]
    have hrep : (wrote o' m).map (·.2) = List.replicate (wrote o' m).length (.wire dst x) := by
      rw [List.eq_replicate_iff]
      refine ⟨by simp, fun e he => ?_⟩
      obtain ⟨y, hy, rfl⟩ := List.mem_map.mp he
      exact w2 y (List.mem_filter.mp hy).1
    have hpos : (dev m, SPkt.wire dst x) ∈ o' → 1 ≤ (wrote o' m).length := by
      intro hm
      exact List.length_pos_of_mem (List.mem_filter.mpr ⟨hm, by simp⟩)
    refine ⟨(wrote o' m).length, by rw [hrep], fun hm => hpos (w3 m hm), fun hno => ?_, fun hc j q h1 h2 h3 => hpos (w5 hc j q m h1 h2 h3)⟩
    rw [w4 m hno, List.length_map]
    have hcount : (ls.filter fun l => decide (l = dev m)).length = ls.count (dev m) := by
      rw [List.count, List.countP_eq_length_filter]
      congr 1
    rw [hcount]
    rw [e2.nodup.count]
    exact ⟨fun hm => if_pos hm, fun hm => if_neg hm⟩
  · right
    exact ⟨q, e1, e2, e3, fun m => by rw [e4]⟩

theorem dev_chosen {n : Net} {h : List Ev} {v : View} {p : Int} {z a b k : Nat} {ls : List Nat} (hi : DevInv n v) (hc : Chosen n h v p z a b k ls) (m : Nat) :
    dev m ∈ ls ↔ Hears v p z a b k m ∨ ∃ q : Nat, p ≠ z ∧ hopOf h p z = some (q : Int) ∧ q ≠ 0 ∧ Hears v p q 0 0 0 m := by
  rw [hc.mem]
  constructor
  · rintro (⟨m', he, hm⟩ | ⟨q, h1, h2, h3, hy⟩)
    · have := dev_inj he
      subst this
      exact .inl hm
    · exact .inr ⟨q, h1, h2, h3, (found_dev hi).mp hy⟩
  · rintro (hm | ⟨q, h1, h2, h3, hy⟩)
    · exact .inl ⟨m, rfl, hm⟩
    · exact .inr ⟨q, h1, h2, h3, (found_dev hi).mpr hy⟩

theorem lnk_chosen {n : Net} {h : List Ev} {v : View} {p : Int} {z a b k : Nat} {ls : List Nat}
    (hc : Chosen n h v p z a b k ls) {j : Nat} (hj : lnk j ∈ ls) {q : Int} (ht : tab n.lans p (lnk j) = some (hub q)) :
    p ≠ z ∧ hopOf h p z = some q := by
  rcases (hc.mem _).mp hj with ⟨m, he, _⟩ | ⟨q', h1, h2, h3, y, hy, ht'⟩
  · exact absurd he (lnk_ne_dev j m)
  · rw [ht] at ht'
    have := Option.some.inj ht'
    subst this
    rw [(hub_enclosing hy).1]
    exact ⟨h1, h2⟩

/-- The next hop is a direct neighbour. -/
theorem hop_linked {h : List Ev} {p z q : Int} (hq : hopOf h p z = some q) : Linked h p q := by
  unfold hopOf Wan.nextHop at hq
  have hr := Wan.C39_real (routeEvs h) p z
  unfold Wan.getRoute at hr
  split at hq
  · next x l hx =>
    cases hq
    rw [hx] at hr
    exact (hr (by simp)).1
  · cases hq

/-- C56. A device located at prefix `z` sends to `z.a.b.k` (an address other than that of the hub): each device located at `z` that
announced `z.a.b.k` or a block around it gets exactly one copy; no other device gets anything. For every history, with any losses. -/
theorem C56_local (c : Cfg) (h : List Ev) (i : Nat) (dst : Str) (z a b k x : Nat) (hp : ((view h).seat i).place = some (z : Int))
    (hd : Denotes dst z a b k) (h0 : ¬ (a = 0 ∧ b = 0 ∧ k = 0)) (m : Nat) :
    (Hears (view h) z z a b k m →
      delivered (exec c .new (h ++ [.send i dst x])) m = delivered (exec c .new h) m ++ [.wire dst x]) ∧
    (¬ Hears (view h) z z a b k m → delivered (exec c .new (h ++ [.send i dst x])) m = delivered (exec c .new h) m) := by
  have r := run c h
  rcases sent (c := c) hp hd h0 x with ⟨ls, hc, hs⟩ | ⟨q, _, hne, _⟩
  · obtain ⟨cnt, h1, _, h3, _⟩ := hs m
    have h3 := h3 (fun j q hj ht => absurd rfl (lnk_chosen hc hj ht).1)
    have hm := dev_chosen r.inv.d hc m
    constructor
    · intro hh
      rw [h1, h3.1 (hm.mpr (.inl hh))]; rfl
    · intro hh
      rw [h1, h3.2 (fun hx => by
        rcases hm.mp hx with hx | ⟨_, hx, _⟩
        · exact hh hx
        · exact hx rfl)]
      simp
  · exact absurd rfl hne

/-- C56. A device located at `p` sends to an address with another zone `z`. Whatever the history and the losses: a device gets copies of
that packet and nothing else, and it gets one only if it is located at `p` and announced the destination, a block around it or the
address `q.0.0.0` of the next hop, or if it is located at the next hop `q`, a direct neighbour of `p`, and announced the destination or a
block around it. -/
theorem C56_only_neighbours (c : Cfg) (h : List Ev) (i : Nat) (p : Int) (dst : Str) (z a b k x : Nat) (hp : ((view h).seat i).place = some p)
    (hd : Denotes dst z a b k) (h0 : ¬ (a = 0 ∧ b = 0 ∧ k = 0)) (m : Nat) :
    ∃ cnt, delivered (exec c .new (h ++ [.send i dst x])) m = delivered (exec c .new h) m ++ List.replicate cnt (.wire dst x) ∧
      (cnt ≠ 0 → Hears (view h) p z a b k m ∨ ∃ q : Nat, p ≠ z ∧ hopOf h p z = some (q : Int) ∧ Linked h p q ∧
        (Hears (view h) q z a b k m ∨ Hears (view h) p q 0 0 0 m)) := by
  have r := run c h
  rcases sent (c := c) hp hd h0 x with ⟨ls, hc, hs⟩ | ⟨q, _, _, _, hs⟩
  · obtain ⟨cnt, h1, _, h3, _⟩ := hs m
    refine ⟨cnt, h1, fun hne => ?_⟩
    by_cases hx : ∃ j q, lnk j ∈ ls ∧ tab (exec c .new h).lans p (lnk j) = some (hub q) ∧ Hears (view h) q z a b k m
    · obtain ⟨j, q, hj, ht, hh⟩ := hx
      rcases (hc.mem _).mp hj with ⟨m', he, _⟩ | ⟨q', g1, g2, g3, y, hy, ht'⟩
      · exact absurd he (lnk_ne_dev j m')
      · rw [ht] at ht'
        have := Option.some.inj ht'
        subst this
        have := (hub_enclosing hy).1
        subst this
        exact .inr ⟨q', g1, g2, hop_linked g2, .inl hh⟩
    · have h3 := h3 (fun j q hj ht hh => hx ⟨j, q, hj, ht, hh⟩)
      have hm : dev m ∈ ls := by
        by_cases hm : dev m ∈ ls
        · exact hm
        · exact absurd (h3.2 hm) hne
      rcases (dev_chosen r.inv.d hc m).mp hm with hm | ⟨q, g1, g2, g3, hm⟩
      · exact .inl hm
      · exact .inr ⟨q, g1, g2, hop_linked g2, .inr hm⟩
  · exact ⟨0, by rw [hs m]; simp, fun hx => absurd rfl hx⟩

/-- C56 (a consequence). Packets do not travel further than one hop: when `p` and `z` are not directly connected, no device located at `z`
gets anything. -/
theorem C56_never_beyond_next_hop (c : Cfg) (h : List Ev) (i : Nat) (p : Int) (dst : Str) (z a b k x : Nat)
    (hp : ((view h).seat i).place = some p) (hd : Denotes dst z a b k) (h0 : ¬ (a = 0 ∧ b = 0 ∧ k = 0)) (hpz : p ≠ z)
    (hl : ¬ Linked h p z) (m : Nat) (hm : ((view h).seat m).place = some (z : Int)) :
    delivered (exec c .new (h ++ [.send i dst x])) m = delivered (exec c .new h) m := by
  obtain ⟨cnt, h1, h2⟩ := C56_only_neighbours c h i p dst z a b k x hp hd h0 m
  have : cnt = 0 := by
    by_cases hc : cnt = 0
    · exact hc
    · have at_p : ∀ {z a b k}, ¬ Hears (view h) p z a b k m := by
        intro z' a' b' k' hh
        have := hh.1
        rw [hm] at this
        exact hpz (Option.some.inj this).symm
      rcases h2 hc with hh | ⟨q, _, hq, hlq, hh | hh⟩
      · exact absurd hh at_p
      · have := hh.1
        rw [hm] at this
        have := Option.some.inj this
        rw [← this] at hlq
        exact absurd hlq hl
      · exact absurd hh at_p
  rw [h1, this]
  simp

/-- C56, in part: nothing is lost, every list of direct connections named registered prefixes only, and `p` and `z` (not 0) are directly
connected. Then each device located at `z` that announced the destination or a block around it gets the packet, possibly more than
once (`C56_false_once`). Missing: destinations further away (`C56_never_beyond_next_hop`), and the prefix 0 (`C56_false_zero`). -/
theorem C56_direct_partial (c : Cfg) (hc : Reliable c) (h : List Ev) (hok : (view h).ok) (i : Nat) (p : Int) (dst : Str) (z a b k x : Nat)
    (hp : ((view h).seat i).place = some p) (hd : Denotes dst z a b k) (h0 : ¬ (a = 0 ∧ b = 0 ∧ k = 0)) (hl : Linked h p z) (hz : z ≠ 0)
    (hpz : p ≠ z) (m : Nat) (hm : Hears (view h) z z a b k m) :
    ∃ cnt, 1 ≤ cnt ∧ delivered (exec c .new (h ++ [.send i dst x])) m = delivered (exec c .new h) m ++ List.replicate cnt (.wire dst x) := by
  have r := run c h
  have hop : hopOf h p z = some (z : Int) := by
    have := Wan.C39_direct _ _ _ hl
    unfold hopOf Wan.nextHop
    unfold Wan.getRoute at this
    cases hx : (Wan.row (Wan.exec [] (routeEvs h)) p).get (z : Int) with
    | none => rw [hx] at this; cases this
    | some w => rw [hx] at this; have this : w = [(z : Int)] := this; rw [this]
  obtain ⟨j, hj⟩ := r.served hc hok p z hl
  rcases sent (c := c) hp hd h0 x with ⟨ls, hch, hs⟩ | ⟨q, hq, _, hq', _⟩
  · obtain ⟨cnt, h1, _, _, h4⟩ := hs m
    refine ⟨cnt, h4 hc j z ((hch.mem _).mpr (.inr ⟨z, hpz, hop, hz, hub z, ?_, hj⟩)) hj hm, h1⟩
    unfold enclosing
    rw [hub_dotted]
    have e1 : intStr (z : Int) = dec z := by simp [intStr, dec]
    have e2 : dec 0 = ['0'] := by decide +kernel
    rw [e1, e2]
    exact List.mem_cons_self ..
  · rw [hop] at hq'
    have := Option.some.inj hq'
    omega

/-- C56. A device located where the sender is gets a packet for another zone exactly once if it announced the destination, a block around
it, or the address of the next hop or a block around that; else it gets nothing. Prefixes are not negative, and every list of direct
connections named registered prefixes only. -/
theorem C56_overheard (c : Cfg) (h : List Ev) (hok : (view h).ok) (hnn : ∀ q ∈ (view h).lans, 0 ≤ q) (i : Nat) (p : Int) (dst : Str)
    (z a b k x : Nat) (hp : ((view h).seat i).place = some p) (hd : Denotes dst z a b k) (h0 : ¬ (a = 0 ∧ b = 0 ∧ k = 0)) (hpz : p ≠ z)
    (m : Nat) (hm : ((view h).seat m).place = some p) :
    ((Hears (view h) p z a b k m ∨ ∃ q : Nat, hopOf h p z = some (q : Int) ∧ q ≠ 0 ∧ Hears (view h) p q 0 0 0 m) →
      delivered (exec c .new (h ++ [.send i dst x])) m = delivered (exec c .new h) m ++ [.wire dst x]) ∧
    (¬ (Hears (view h) p z a b k m ∨ ∃ q : Nat, hopOf h p z = some (q : Int) ∧ q ≠ 0 ∧ Hears (view h) p q 0 0 0 m) →
      delivered (exec c .new (h ++ [.send i dst x])) m = delivered (exec c .new h) m) := by
  have r := run c h
  rcases sent (c := c) hp hd h0 x with ⟨ls, hc, hs⟩ | ⟨q, hq, _, hq', _⟩
  · obtain ⟨cnt, h1, _, h3, _⟩ := hs m
    have h3 := h3 (fun j q hj ht hh => by
      have hq := (lnk_chosen hc hj ht).2
      have := hh.1
      rw [hm] at this
      have := Option.some.inj this
      subst this
      -- a route from `p` that begins with `p` is not a shortest one
      unfold hopOf Wan.nextHop at hq
      split at hq
      · next y l hy =>
        cases hq
        have hr := Wan.C39_real (routeEvs h) p z
        unfold Wan.getRoute at hr
        rw [hy] at hr
        have hw := (hr (by simp)).2
        have hs := (Wan.C40_shortest_partial (routeEvs h) (r.ok hok) p z hpz l hw).2
        unfold Wan.getRoute at hs
        rw [hy] at hs
        have hs : l.length + 1 ≤ l.length := hs
        omega
      · cases hq)
    have hmem := dev_chosen r.inv.d hc m
    constructor
    · intro hh
      rw [h1, h3.1 (hmem.mpr (hh.imp id fun ⟨q, g1, g2, g3⟩ => ⟨q, hpz, g1, g2, g3⟩))]; rfl
    · intro hh
      rw [h1, h3.2 (fun hx => hh ((hmem.mp hx).imp id fun ⟨q, _, g1, g2, g3⟩ => ⟨q, g1, g2, g3⟩))]
      simp
  · have := (Wan.inv (routeEvs h)).nodes p q (hop_linked hq')
    rw [r.nodes] at this
    have := hnn q this.2
    omega

/-! ## Devices without a location -/

/-- What is written goes to `l` or to links registered somewhere. -/
def Heard (n : Net) (ok : Nat → Prop) (n' : Net) : Prop :=
  ∃ o d, n' = n.io (n.out ++ o) d ∧ ∀ e ∈ o, ok e.1 ∨ ∃ p x, tab n.lans p e.1 = some x

theorem heard_each {n : Net} {wr : Net → Nat → Option Net}
    (hw : ∀ o d l n', wr (n.io o d) l = some n' → Heard (n.io o d) (· = l) n') : ∀ (ls : List Nat) (o : List (Nat × SPkt)) (d : Nat),
    (∀ l ∈ ls, ∃ p x, tab n.lans p l = some x) → Heard (n.io o d) (fun _ => False) (Net.writeEach wr (n.io o d) ls) := by
  intro ls
  induction ls with
  | nil => intro o d _; exact ⟨[], d, by simp [Net.writeEach, Net.io], by simp⟩
  | cons l ls ih =>
    intro o d hl
    unfold Net.writeEach
    cases hx : wr (n.io o d) l with
    | none => exact ⟨[], d, by simp [Net.io], by simp⟩
    | some n' =>
      obtain ⟨o1, d1, rfl, h1⟩ := hw o d l n' hx
      obtain ⟨o2, d2, h2, h3⟩ := ih (o ++ o1) d1 (fun l h' => hl l (List.mem_cons_of_mem _ h'))
      refine ⟨o1 ++ o2, d2, ?_, fun e he => ?_⟩
      · have h2 : Net.writeEach wr (n.io (o ++ o1) d1) ls = n.io ((o ++ o1) ++ o2) d2 := h2
        show Net.writeEach wr (n.io (o ++ o1) d1) ls = n.io (o ++ (o1 ++ o2)) d2
        rw [h2, List.append_assoc]
      · rcases List.mem_append.mp he with he | he
        · rcases h1 e he with h1 | h1
          · rw [h1]; exact .inr (hl l (List.mem_cons_self ..))
          · exact .inr h1
        · exact h3 e he

theorem heard_write (c : Cfg) {n : Net} {v : View} (h : Inv n v) (dst : Str) (x : Nat) : ∀ (f : Nat) (o : List (Nat × SPkt)) (d : Nat) (l : Nat) (n' : Net),
    Net.write c f (n.io o d) l (.wire dst x) = some n' → Heard (n.io o d) (· = l) n' := by
  intro f
  induction f with
  | zero =>
    intro o d l n' hw
    unfold Net.write at hw
    dsimp only at hw
    split at hw
    · split at hw
      · cases hw; exact ⟨[(l, .wire dst x)], d, rfl, by simp⟩
      · split at hw <;> (cases hw; exact ⟨[], d + 1, by simp [Net.io], by simp⟩)
    · cases hw
  | succ f ih =>
    intro o d l n' hw
    unfold Net.write at hw
    split at hw
    · split at hw
      · cases hw; exact ⟨[(l, .wire dst x)], d, rfl, by simp⟩
      · split at hw
        · cases hw; exact ⟨[], d + 1, by simp [Net.io], by simp⟩
        · cases hw
          have triv : Heard (n.io o d) (· = l) (n.io o (d + 1)) := ⟨[], d + 1, by simp [Net.io], by simp⟩
          unfold Net.receive
          split
          · exact triv
          · next q _ _ =>
            dsimp only
            split
            · exact triv
            · next ls hls =>
              obtain ⟨o', d', e1, e2⟩ := heard_each (n := n) (wr := fun n l => Net.write c f n l (.wire dst x)) (fun o d l n' => ih o d l n') ls o (d + 1)
                (fun l hl => ⟨q, (lookup_any h.d q hls).2 l hl⟩)
              exact ⟨o', d', e1, fun e he => (e2 e he).elim (fun hf => hf.elim) .inr⟩
    · cases hw

/-- C56. A device that has no location (it was never located, it announced an address since, it was sent to a prefix without a switch, or
it is disconnected) gets nothing, whoever sends to whatever destination; and what it sends reaches nobody. -/
theorem C56_unlocated (c : Cfg) (h : List Ev) (i : Nat) (dst : Str) (x m : Nat)
    (hm : ((view h).seat m).place = none ∨ ((view h).seat i).place = none) :
    delivered (exec c .new (h ++ [.send i dst x])) m = delivered (exec c .new h) m := by
  have r := run c h
  have he : exec c .new (h ++ [.send i dst x]) = (exec c .new h).send c i dst x := exec_append ..
  rw [he]
  have ri := r.inv
  generalize exec c .new h = n at *
  unfold Net.send
  split
  · split
    · rfl
    · next ro hro =>
      split
      · rfl
      · next ls hls =>
        have hri := ri.d.router i
        rw [hro] at hri
        have hri : RouterIs i ro ((view h).seat i) := hri
        unfold Net.outbound at hls
        split at hls
        · split at hls
          · cases hls; rfl
          · next p hp =>
            have hi : ((view h).seat i).place = some p := hri.lan.symm.trans hp
            have hm : ((view h).seat m).place = none := hm.elim id (fun hx => by rw [hi] at hx; cases hx)
            have hreg : ∀ l ∈ ls, ∃ y, tab n.lans p l = some y := by
              split at hls
              · cases hls
              · split at hls
                · cases hls
                · next ls0 hls0 =>
                  have h0 := (lookup_any ri.d p hls0).2
                  split at hls
                  · unfold Net.viaHop at hls
                    split at hls
                    · cases hls; exact h0
                    · split at hls
                      · cases hls
                      · next ms hms =>
                        cases hls
                        intro l hl
                        rw [union_mem] at hl
                        rcases hl with hl | hl
                        · exact h0 l hl
                        · exact (lookup_any ri.d p hms).2 l hl
                  · cases hls; exact h0
            obtain ⟨o', d', e1, e2⟩ := heard_each (n := n) (wr := fun n l => Net.write c c.depth n l (.wire dst x))
              (fun o d l n' => heard_write c ri dst x c.depth o d l n') ls n.out n.draws (fun l hl => ⟨p, hreg l hl⟩)
            have e1 : Net.writeEach (fun n l => Net.write c c.depth n l (.wire dst x)) n ls = n.io (n.out ++ o') d' := e1
            rw [e1, delivered_io]
            have : wrote o' m = [] := by
              unfold wrote
              rw [List.filter_eq_nil_iff]
              intro e he
              simp only [decide_eq_true_eq]
              intro hme
              obtain ⟨q, y, hy⟩ := (e2 e he).elim (fun hf => hf.elim) id
              have hy : tab n.lans q e.1 = some y := hy
              rw [hme, ri.d.tabs, hm] at hy
              cases hy
            rw [this]
            simp
        · cases hls; rfl
  · rfl

/-- No event of the history locates device `i` or connects it. -/
def NotLocated (i : Nat) (h : List Ev) : Prop := ∀ p, .locate i p ∉ h

theorem step_unlocated {v : View} {i : Nat} {e : Ev} (he : ∀ p, e ≠ .locate i p) (hv : (v.seat i).place = none) : ((v.step e).seat i).place = none := by
  cases e with
  | register p => unfold View.step; dsimp only; split <;> exact hv
  | connect r ds => exact hv
  | accept j =>
    unfold View.step; dsimp only; split
    · exact hv
    · rw [upd_seat]; split
      · rfl
      · exact hv
  | locate j p =>
    unfold View.step; dsimp only; split
    · rw [upd_seat, if_neg]
      · exact hv
      · rintro rfl; exact he p rfl
    · exact hv
  | announce j a =>
    unfold View.step; dsimp only; split
    · rw [upd_seat]; split
      · rfl
      · exact hv
    · exact hv
  | send j d x => exact hv
  | lost j =>
    unfold View.step; dsimp only; split
    · rw [upd_seat]; split
      · rfl
      · exact hv
    · exact hv

theorem after_unlocated {i : Nat} : ∀ (h : List Ev) {v : View}, NotLocated i h → (v.seat i).place = none → ((v.after h).seat i).place = none
  | [], _, _, hv => hv
  | e :: h, v, hn, hv => after_unlocated h (fun p hp => hn p (List.mem_cons_of_mem _ hp))
      (step_unlocated (fun p he => hn p (by rw [he]; exact List.mem_cons_self ..)) hv)

/-- C56 (a consequence). When a connected device announces an address, it loses its location, even when it announces the address it had:
until it is located again, it gets nothing and what it sends reaches nobody. -/
theorem C56_reannounce (c : Cfg) (h h' : List Ev) (i : Nat) (a : Str) (hu : ((view h).seat i).up = true)
    (ha : Addr.isValidBlockString a = true) (hn : NotLocated i h') (j : Nat) (dst : Str) (x : Nat) :
    let g := h ++ .announce i a :: h'
    delivered (exec c .new (g ++ [.send j dst x])) i = delivered (exec c .new g) i ∧
    ∀ m, delivered (exec c .new (g ++ [.send i dst x])) m = delivered (exec c .new g) m := by
  intro g
  have hv : ((view g).seat i).place = none := by
    show ((View.after {} (h ++ .announce i a :: h')).seat i).place = none
    rw [after_append]
    refine after_unlocated h' hn ?_
    show (((view h).step (.announce i a)).seat i).place = none
    unfold View.step
    dsimp only
    rw [if_pos ⟨hu, ha⟩, upd_seat, if_pos rfl]
  exact ⟨C56_unlocated c g j dst x i (.inl hv), fun m => C56_unlocated c g i dst x m (.inr hv)⟩

/-! ## Witnesses -/

/-- Nothing is lost. -/
def sure : Cfg := ⟨fun _ => false, 9⟩

/-- Three prefixes with a device at each. -/
def base : List Ev := [.register 1, .register 2, .register 3, .accept 0, .accept 1, .accept 2,
  .announce 0 "1.1.1.1".toList, .announce 1 "2.2.2.2".toList, .announce 2 "3.3.3.3".toList, .locate 0 1, .locate 1 2, .locate 2 3]

/-- 1 – 2 – 3. -/
def chain : List Ev := base ++ [.connect 2 [1, 3]]

theorem sure_reliable : Reliable sure := ⟨fun _ => rfl, by decide⟩

theorem chain_ok : (view chain).ok := by
  have h : (view base).lans = [1, 2, 3] := by decide +kernel
  have h' : (view base).ok := trivial
  refine ⟨h', fun _ d hd => ?_⟩
  show d ∈ (view base).lans
  rw [h]
  simp only [List.mem_cons, List.not_mem_nil, or_false] at hd ⊢
  omega

theorem chain_linked (p q : Int) (h : (p = 2 ∧ (q = 1 ∨ q = 3)) ∨ (q = 2 ∧ (p = 1 ∨ p = 3))) : Linked chain p q := by
  unfold Linked
  have e : routeEvs chain = [.register 1, .register 2, .register 3, .connect 2 [1, 3]] := rfl
  rw [e]
  simp [Wan.graph, Wan.Graph.after, Wan.Graph.step, Wan.Graph.empty, Wan.Graph.replace]
  omega

theorem chain_not : ¬ Linked chain 1 3 := by
  unfold Linked
  have e : routeEvs chain = [.register 1, .register 2, .register 3, .connect 2 [1, 3]] := rfl
  rw [e]
  simp [Wan.graph, Wan.Graph.after, Wan.Graph.step, Wan.Graph.empty, Wan.Graph.replace]

theorem denotes_plain (z a b k : Nat) : Denotes (dotted (dec z) (dec a) (dec b) (dec k)) z a b k := by
  have hn : ∀ n : Nat, DenotesNum (dec n) (.num n) := fun n => ⟨n, rfl, (pyInt_iff _ _).mp (pyInt_natStr n), dec_no n⟩
  exact ⟨_, _, _, _, rfl, hn z, hn a, hn b, hn k⟩

theorem denotes_2222 : Denotes "2.2.2.2".toList 2 2 2 2 := by
  have h := denotes_plain 2 2 2 2
  have e : dotted (dec 2) (dec 2) (dec 2) (dec 2) = "2.2.2.2".toList := by decide +kernel
  rw [e] at h
  exact h

/-- Hypotheses of the theorems above at a concrete network: a packet from 1 to 2.2.2.2 arrives, … -/
example : ∃ cnt, 1 ≤ cnt ∧ delivered (exec sure .new (chain ++ [.send 0 "2.2.2.2".toList 7])) 1 =
    delivered (exec sure .new chain) 1 ++ List.replicate cnt (.wire "2.2.2.2".toList 7) :=
  C56_direct_partial sure sure_reliable chain chain_ok 0 1 "2.2.2.2".toList 2 2 2 2 7 (by decide +kernel) denotes_2222 (by decide)
    (chain_linked 1 2 (.inr ⟨rfl, .inl rfl⟩)) (by decide) (by decide) 1 ⟨by decide +kernel, "2.2.2.2".toList, by decide +kernel, by decide +kernel⟩
example : delivered (exec sure .new (chain ++ [.send 0 "2.2.2.2".toList 7])) 1 = [.wire "2.2.2.2".toList 7] := by decide +kernel
/-- … and a packet to a neighbour in the same prefix arrives once. -/
example : delivered (exec sure .new (chain ++ [.accept 5, .announce 5 "1.1.*.*".toList, .locate 5 1, .send 0 "1.1.8.9".toList 7])) 5 =
    [.wire "1.1.8.9".toList 7] := by decide +kernel
example : ((view chain).seat 0).place = some 1 ∧ ((view chain).seat 0).addr = some "1.1.1.1".toList := by decide +kernel

theorem denotes_3333 : Denotes "3.3.3.3".toList 3 3 3 3 := by
  have h := denotes_plain 3 3 3 3
  have e : dotted (dec 3) (dec 3) (dec 3) (dec 3) = "3.3.3.3".toList := by decide +kernel
  rw [e] at h
  exact h

example (c : Cfg) : delivered (exec c .new (chain ++ [.send 0 "3.3.3.3".toList 7])) 2 = delivered (exec c .new chain) 2 :=
  C56_never_beyond_next_hop c chain 0 1 _ 3 3 3 3 7 (by decide +kernel) denotes_3333 (by decide) (by decide) chain_not 2 (by decide +kernel)

/-- The sender itself hears nothing of it. -/
example (c : Cfg) : delivered (exec c .new (chain ++ [.send 0 "3.3.3.3".toList 7])) 0 = delivered (exec c .new chain) 0 := by
  refine (C56_overheard c chain chain_ok ?_ 0 1 _ 3 3 3 3 7 (by decide +kernel) denotes_3333 (by decide) (by decide) 0 (by decide +kernel)).2 ?_
  · have h : (view chain).lans = [1, 2, 3] := by decide +kernel
    rw [h]; decide
  · have ha : ((view chain).seat 0).addr = some "1.1.1.1".toList := by decide +kernel
    rintro (⟨_, a, h1, h2⟩ | ⟨q, h1, _, _, a, h2, h3⟩)
    · rw [ha] at h2
      cases h2
      exact absurd h1 (by decide +kernel)
    · have : hopOf chain 1 3 = some 2 := by decide +kernel
      rw [show ((3 : Nat) : Int) = 3 from rfl, this] at h1
      have : q = 2 := by have := Option.some.inj h1; omega
      subst this
      rw [ha] at h3
      cases h3
      exact absurd h2 (by decide +kernel)

example (c : Cfg) (dst : Str) : delivered (exec c .new ((chain ++ [.announce 1 "2.2.2.2".toList]) ++ [.send 0 dst 7])) 1 =
    delivered (exec c .new (chain ++ [.announce 1 "2.2.2.2".toList])) 1 :=
  (C56_reannounce c chain [] 1 "2.2.2.2".toList (by decide +kernel) (by decide +kernel) (by simp [NotLocated]) 0 dst 7).1

/-- C56 is false for destinations that are two hops away, although there is a route: the packet does not arrive. -/
theorem C56_false_multihop : hopOf chain 1 3 = some 2 ∧ hopOf chain 2 3 = some 3 ∧ ((view chain).seat 0).place = some 1 ∧
    Hears (view chain) 3 3 3 3 3 2 ∧ delivered (exec sure .new (chain ++ [.send 0 "3.3.3.3".toList 7])) 2 = [] :=
  ⟨by decide +kernel, by decide +kernel, by decide +kernel, ⟨by decide +kernel, "3.3.3.3".toList, by decide +kernel, by decide +kernel⟩, by decide +kernel⟩

/-- The configuration of a connection from both sides: 1 to 2, then 2 to 1. -/
def both : List Ev := base ++ [.connect 1 [2], .connect 2 [1]]

/-- C56 is false as to one copy: with the connection configured from both sides a packet arrives twice, since the first link is closed
at one end only. -/
theorem C56_false_once : Hears (view both) 1 1 1 1 1 0 ∧
    delivered (exec sure .new (both ++ [.send 1 "1.1.1.1".toList 7])) 0 = [.wire "1.1.1.1".toList 7, .wire "1.1.1.1".toList 7] :=
  ⟨⟨by decide +kernel, "1.1.1.1".toList, by decide +kernel, by decide +kernel⟩, by decide +kernel⟩

/-- C56 is false for a connection that was removed: packets still travel on it, in the direction in which the end was not closed. -/
theorem C56_false_removed : let h := base ++ [.connect 1 [2], .connect 2 []]
    ¬ Linked h 1 2 ∧ ∃ j, ((exec sure .new h).lan 2).getOutboundLinks "1.0.0.0".toList = .ok [lnk j] := by
  refine ⟨?_, 1, by decide +kernel⟩
  unfold Linked
  have e : routeEvs (base ++ [.connect 1 [2], .connect 2 []]) = [.register 1, .register 2, .register 3, .connect 1 [2], .connect 2 []] := rfl
  rw [e]
  simp [Wan.graph, Wan.Graph.after, Wan.Graph.step, Wan.Graph.empty, Wan.Graph.replace]

/-- The prefix 0 next to the prefix 1. -/
def zero : List Ev := [.register 0, .register 1, .accept 0, .accept 1, .announce 0 "0.1.1.1".toList, .announce 1 "1.1.1.1".toList,
  .locate 0 0, .locate 1 1, .connect 0 [1]]

/-- C56 is false for the prefix 0: it counts as no next hop. In the other direction the packet arrives. -/
theorem C56_false_zero : hopOf zero 1 0 = some 0 ∧ Hears (view zero) 0 0 1 1 1 0 ∧
    delivered (exec sure .new (zero ++ [.send 1 "0.1.1.1".toList 7])) 0 = [] ∧
    delivered (exec sure .new (zero ++ [.send 0 "1.1.1.1".toList 7])) 1 = [.wire "1.1.1.1".toList 7] :=
  ⟨by decide +kernel, ⟨by decide +kernel, "0.1.1.1".toList, by decide +kernel, by decide +kernel⟩, by decide +kernel, by decide +kernel⟩

/-- The very first packet is lost. -/
def first : Cfg := ⟨fun k => decide (k = 0), 9⟩

/-- C56 is false when the packet that announces a link is lost: then no packet in that direction ever arrives. -/
theorem C56_false_lost_announcement :
    delivered (exec first .new (chain ++ [.send 0 "2.2.2.2".toList 7, .send 0 "2.2.2.2".toList 8, .send 1 "1.1.1.1".toList 9])) 1 = [] ∧
    delivered (exec first .new (chain ++ [.send 0 "2.2.2.2".toList 7, .send 0 "2.2.2.2".toList 8, .send 1 "1.1.1.1".toList 9])) 0 =
      [.wire "1.1.1.1".toList 9] := ⟨by decide +kernel, by decide +kernel⟩

end Verif.WanNet
