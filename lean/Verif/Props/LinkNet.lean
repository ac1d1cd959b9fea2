import Verif.Lemmas.LinkRoute
/-! # C58: from one link side through the switch to another, in bytes -/
namespace Verif.Link

/-- C58. Every history of a switch and its links, however the bytes are cut and in whatever order connections are served, has an account: the switch
sees on each connection the packets sent there, in order, without gaps or repetitions; it routes each wire packet, once, to exactly the connections registered at that
moment with an address its destination reaches; each link side sees what was routed to it, in order, without gaps or repetitions, and hands it to its
reassembly; and a longer history has a longer account. Only a chunk of more than 67 bytes completes two packets. -/
theorem C58_network {c : Classes} (hc : c.Ok) (h1 h2 : List Ev) (hf : ∀ e ∈ h1 ++ h2, Fits e) :
    ∃ (log log' : List Act) (W W' : Nat → List Frag.Wire) (E E' : Nat → List Frag.Ev),
      Explains c h1 log W E ∧ Explains c (h1 ++ h2) (log ++ log') (fun l => W l ++ W' l) (fun l => E l ++ E' l) ∧
      ∀ l ws, Frag.Ev.data ws ∈ E' l → 2 ≤ ws.length → ∃ k, .toHost l k ∈ h2 ∧ 67 < k := by
  obtain ⟨log, W, E, g1, g2, g3, _⟩ := exec_spec hc h1 (core_init c) (fun l _ => .inl rfl) (fun e he => hf e (by simp [he]))
  obtain ⟨log', W', E', k1, k2, k3, k4⟩ := exec_spec hc h2 g1 g2 (fun e he => hf e (by simp [he]))
  simp only [List.nil_append] at g1 g2 k1 k2
  have hup : ∀ l, decide (l ∈ (Net.init.exec c h1).hostUp) = upAfter false l h1 := fun l => exec_hostUp c l h1 Net.init
  have h0 : ∀ l, decide (l ∈ Net.init.hostUp) = false := by intro l; rfl
  simp only [hup, h0, ← sent_append, ← inputs_append, ← exec_append] at g1 g2 k1 k2
  exact ⟨log, log', W, W', E, E', g1.explains g2 g3, k1.explains k2 (by rw [losses_append, lossesIn_append, g3, k3]), k4⟩

/-- What is routed is determined by what the switch sees. -/
theorem C58_routed_unique {l : Nat} {log : List Act} {ws ws' : List Frag.Wire} (h : Routed l log ws) (h' : Routed l log ws') : ws = ws' := h.unique h'

/-- The packets a registered connection receives, and what its reassembly gets, between two moments at which all bytes have arrived. -/
theorem C58_received {c : Classes} (hc : c.Ok) (h1 h2 : List Ev) (hf : ∀ e ∈ h1 ++ h2, Fits e) (hcalm : Calm (h1 ++ h2)) (l : Nat) (a : Str)
    (hs : Stays h1 h2 l a) (d1 : Drained (Net.init.exec c h1) l) (d2 : Drained (Net.init.exec c (h1 ++ h2)) l) :
    ∃ (T : List (Nat × Frag.Wire)) (E1 E2 : List Frag.Ev),
      (∀ s, (T.filter fun t => t.1 = s).map (·.2) = (written h1 h2 s).filter fun w => Reaches w.header.destination a) ∧
      (∀ t ∈ T, Reaches t.2.header.destination a) ∧
      Frag.packets E2 = T.map (·.2) ∧
      (∀ w ∈ Frag.packets E1, ∃ s, w ∈ wires (sent false s h1)) ∧
      ((Net.init.exec c h1).tx l).got = (Frag.exec [] E1).2 ∧
      ((Net.init.exec c (h1 ++ h2)).tx l).got = ((Net.init.exec c h1).tx l).got ++ (Frag.exec (Frag.exec [] E1).1 E2).2 ∧
      kinds E2 = inputs (upAfter false l h1) l h2 ∧
      ∀ ws, Frag.Ev.data ws ∈ E2 → 2 ≤ ws.length → ∃ k, .toHost l k ∈ h2 ∧ 67 < k := by
  obtain ⟨log, log', W, W', E, E', x1, x2, x3⟩ := C58_network hc h1 h2 hf
  have hcalm1 : ∀ s, ∀ p ∈ sent false s h1, CalmPkt p := fun s p hp => hcalm s p (by rw [sent_append]; simp [hp])
  have hh1 : ∀ s, handledFrom s log = sent false s h1 := fun s => x1.all s (hcalm1 s) (d1.1 s)
  have hh2 : ∀ s, handledFrom s log' = sent (upAfter false s h1) s h2 := by
    intro s
    have := x2.all s (hcalm s) (d2.1 s)
    rw [handledFrom_append, hh1, sent_append] at this
    exact List.append_cancel_left this
  have hlo : losses log' = lossesIn h2 := by
    have := x2.lost
    rw [losses_append, x1.lost, lossesIn_append] at this
    exact List.append_cancel_left this
  have hreg : RegisteredAs (ops log) l a := by
    refine registered_of_announced (by rw [hh1]; exact hs.announced) fun hm => hs.kept ?_
    rw [← x1.lost]; exact mem_losses.mpr hm
  have hW' : W' l = ((traffic log').filter fun t => Reaches t.2.header.destination a).map (·.2) := by
    have h1 := routed_static log' log (W l) (x1.routed l) hreg (fun x hm => by
      have := mem_handledFrom.mpr hm
      rw [hh2] at this
      rcases announce_mem_sent this with h | h
      · exact (hs.quiet x).1 h
      · exact (hs.quiet x).2 h) (fun hm => hs.keeps (by rw [← hlo]; exact mem_losses.mpr hm))
    exact List.append_cancel_left ((x2.routed l).unique h1)
  have hp1 := x1.arrived l d1.2
  have hp2 := x2.arrived l d2.2
  rw [packets_append, hp1] at hp2
  refine ⟨(traffic log').filter fun t => Reaches t.2.header.destination a, E l, E' l, fun s => ?_, fun t ht => by simpa using (List.mem_filter.mp ht).2,
    by rw [← hW']; exact List.append_cancel_left hp2, ?_, x1.got l, ?_, ?_, x3 l⟩
  · rw [List.filter_filter]
    have hc1 : (traffic log').filter (fun t => decide (t.1 = s) && decide (Reaches t.2.header.destination a)) =
        ((traffic log').filter fun t => decide (t.1 = s)).filter fun t => decide (Reaches t.2.header.destination a) := by
      rw [List.filter_filter]
      congr 1
      funext t
      exact Bool.and_comm _ _
    rw [hc1, written, ← hh2, ← traffic_from, List.filter_map]
    rfl
  · intro w hw
    rw [hp1] at hw
    have : ∀ {L ws}, Routed l L ws → ∀ w ∈ ws, ∃ s, .handled s (.wire w) ∈ L := by
      intro L ws hr
      induction hr with
      | nil => simp
      | gets h1 h2 ih =>
        intro w hw
        rcases List.mem_append.mp hw with hw | hw
        · obtain ⟨s, hs⟩ := ih w hw; exact ⟨s, by simp [hs]⟩
        · cases List.mem_singleton.mp hw; exact ⟨_, List.mem_append_right _ (List.mem_singleton.mpr rfl)⟩
      | ignored h1 h2 ih => intro w hw; obtain ⟨s, hs⟩ := ih w hw; exact ⟨s, by simp [hs]⟩
      | announce h1 ih => intro w hw; obtain ⟨s, hs⟩ := ih w hw; exact ⟨s, by simp [hs]⟩
      | lost h1 ih => intro w hw; obtain ⟨s, hs⟩ := ih w hw; exact ⟨s, by simp [hs]⟩
    obtain ⟨s, hm⟩ := this (x1.routed l) w hw
    refine ⟨s, mem_wires.mpr ?_⟩
    rw [← hh1]; exact mem_handledFrom.mpr hm
  · rw [x2.got, frag_exec_append, x1.got]
  · have := x2.happened l
    rw [kinds_append, x1.happened, inputs_append] at this
    exact List.append_cancel_left this

theorem wires_append (a b : List Pkt) : wires (a ++ b) = wires a ++ wires b := by
  induction a with
  | nil => rfl
  | cons x a ih => cases x <;> simp [wires, ih]

theorem wires_prefix {a b : List Pkt} (h : a <+: b) : wires a <+: wires b := by
  obtain ⟨t, rfl⟩ := h
  rw [wires_append]
  exact List.prefix_append _ _

/-- A prefix of the images is the image of a prefix. -/
theorem prefix_of_map {α β : Type} (f : α → β) {p : List β} {l : List α} (h : p <+: l.map f) : ∃ l', l' <+: l ∧ l'.map f = p := by
  refine ⟨l.take p.length, List.take_prefix _ _, ?_⟩
  rw [List.map_take]
  exact (List.prefix_iff_eq_take.mp h).symm

/-- The same at any moment after the first: what has been received so far, connection by connection, is what was written up to some point. -/
theorem C58_received_sofar {c : Classes} (hc : c.Ok) (h1 h2 : List Ev) (hf : ∀ e ∈ h1 ++ h2, Fits e) (hcalm : Calm h1) (l : Nat) (a : Str)
    (hs : Stays h1 h2 l a) (d1 : Drained (Net.init.exec c h1) l) :
    ∃ (T : List (Nat × Frag.Wire)) (E1 E2 : List Frag.Ev),
      (∀ s, (T.filter fun t => t.1 = s).map (·.2) <+: (written h1 h2 s).filter fun w => Reaches w.header.destination a) ∧
      (∀ t ∈ T, Reaches t.2.header.destination a) ∧
      Frag.packets E2 = T.map (·.2) ∧
      ((Net.init.exec c (h1 ++ h2)).tx l).got = ((Net.init.exec c h1).tx l).got ++ (Frag.exec (Frag.exec [] E1).1 E2).2 := by
  obtain ⟨log, log', W, W', E, E', x1, x2, x3⟩ := C58_network hc h1 h2 hf
  have hh1 : ∀ s, handledFrom s log = sent false s h1 := fun s => x1.all s (hcalm s) (d1.1 s)
  have hh2 : ∀ s, handledFrom s log' <+: sent (upAfter false s h1) s h2 := by
    intro s
    have := x2.handled s
    rw [handledFrom_append, hh1, sent_append] at this
    exact (List.prefix_append_right_inj _).mp this
  have hlo : losses log' = lossesIn h2 := by
    have := x2.lost
    rw [losses_append, x1.lost, lossesIn_append] at this
    exact List.append_cancel_left this
  have hreg : RegisteredAs (ops log) l a := by
    refine registered_of_announced (by rw [hh1]; exact hs.announced) fun hm => hs.kept ?_
    rw [← x1.lost]; exact mem_losses.mpr hm
  have hW' : W' l = ((traffic log').filter fun t => Reaches t.2.header.destination a).map (·.2) := by
    have h1 := routed_static log' log (W l) (x1.routed l) hreg (fun x hm => by
      have := (hh2 l).subset (mem_handledFrom.mpr hm)
      rcases announce_mem_sent this with h | h
      · exact (hs.quiet x).1 h
      · exact (hs.quiet x).2 h) (fun hm => hs.keeps (by rw [← hlo]; exact mem_losses.mpr hm))
    exact List.append_cancel_left ((x2.routed l).unique h1)
  have hp1 := x1.arrived l d1.2
  have hp2 := x2.taken l
  rw [packets_append, hp1] at hp2
  have hp3 := (List.prefix_append_right_inj _).mp hp2
  rw [hW'] at hp3
  obtain ⟨T, t1, t2⟩ := prefix_of_map _ hp3
  refine ⟨T, E l, E' l, fun s => ?_, fun t ht => by simpa using (List.mem_filter.mp (t1.subset ht)).2, t2.symm, ?_⟩
  · have hc1 : ((traffic log').filter fun t => decide (Reaches t.2.header.destination a)).filter (fun t => decide (t.1 = s)) =
        ((traffic log').filter fun t => decide (t.1 = s)).filter fun t => decide (Reaches t.2.header.destination a) := by
      rw [List.filter_filter, List.filter_filter]
      congr 1
      funext t
      exact Bool.and_comm _ _
    have h3 : (T.filter fun t => t.1 = s).map (·.2) <+: (wires (handledFrom s log')).filter fun w => Reaches w.header.destination a := by
      have := (t1.filter (fun t => decide (t.1 = s))).map (·.2)
      rw [hc1] at this
      rw [← traffic_from, List.filter_map]
      exact this
    exact h3.trans (List.IsPrefix.filter _ (wires_prefix (hh2 s)))
  · rw [x2.got, frag_exec_append, x1.got]

/-- C58. Let connection `l` be registered as `a`, all bytes have arrived, and then messages be written on any connections while the registration of `l`
stays; those whose destination reaches `a` have at most 2^16 bytes. When all bytes have arrived again, however they were cut and interleaved, the
demuxer of `l` has been called exactly once for every message whose destination reaches `a`, and for no other, with its header and its bytes; the
messages from each connection in the order they were written. -/
theorem C58_delivered_small {c : Classes} (hc : c.Ok) (h1 h2 : List Ev) (hf : ∀ e ∈ h1 ++ h2, Fits e) (hcalm : Calm (h1 ++ h2)) (l : Nat) (a : Str)
    (hs : Stays h1 h2 l a) (d1 : Drained (Net.init.exec c h1) l) (d2 : Drained (Net.init.exec c (h1 ++ h2)) l)
    (hsmall : ∀ s hd id data, .write s hd id data ∈ h2 → Reaches hd.destination a → data.length ≤ 2 ^ 16) :
    ∃ T : List (Nat × Frag.Wire),
      (∀ s, (T.filter fun t => t.1 = s).map (·.2) = (written h1 h2 s).filter fun w => Reaches w.header.destination a) ∧
      ((Net.init.exec c (h1 ++ h2)).tx l).got = ((Net.init.exec c h1).tx l).got ++ T.map fun t => (t.2, t.2.data) := by
  obtain ⟨T, E1, E2, g1, g2, g3, g4, g5, g6, g7, g8⟩ := C58_received hc h1 h2 hf hcalm l a hs d1 d2
  refine ⟨T, g1, ?_⟩
  rw [g6, exec_small, g3, List.map_map]
  · rfl
  · intro w hw
    rw [g3] at hw
    obtain ⟨t, ht, rfl⟩ := List.mem_map.mp hw
    have hm : t.2 ∈ (T.filter fun x => x.1 = t.1).map (·.2) := List.mem_map.mpr ⟨t, List.mem_filter.mpr ⟨ht, by simp⟩, rfl⟩
    rw [g1] at hm
    obtain ⟨hd, id, data, hw, hx⟩ := wire_mem_sent (mem_wires.mp (List.mem_filter.mp hm).1)
    have hr := g2 t ht
    by_cases hle : data.length ≤ 2 ^ 16
    · rw [Frag.C29_sender_small _ _ _ hle] at hx
      rw [List.mem_singleton.mp hx]
    · obtain ⟨_, g, _⟩ := Frag.C29_sender hd id data (by unfold Frag.MAX_MSG_SIZE; omega)
      rw [(g _ hx).1] at hr
      exact absurd (hsmall _ _ _ _ hw hr) hle

/-- C58. At any moment after that, whether or not all bytes have arrived, the demuxer of `l` has been called once for each of some messages whose destination reaches
`a`, with its header and its bytes, and for no others: from each connection these are the first messages written there. -/
theorem C58_delivered_sofar {c : Classes} (hc : c.Ok) (h1 h2 : List Ev) (hf : ∀ e ∈ h1 ++ h2, Fits e) (hcalm : Calm h1) (l : Nat) (a : Str)
    (hs : Stays h1 h2 l a) (d1 : Drained (Net.init.exec c h1) l)
    (hsmall : ∀ s hd id data, .write s hd id data ∈ h2 → Reaches hd.destination a → data.length ≤ 2 ^ 16) :
    ∃ T : List (Nat × Frag.Wire),
      (∀ s, (T.filter fun t => t.1 = s).map (·.2) <+: (written h1 h2 s).filter fun w => Reaches w.header.destination a) ∧
      ((Net.init.exec c (h1 ++ h2)).tx l).got = ((Net.init.exec c h1).tx l).got ++ T.map fun t => (t.2, t.2.data) := by
  obtain ⟨T, E1, E2, g1, g2, g3, g6⟩ := C58_received_sofar hc h1 h2 hf hcalm l a hs d1
  refine ⟨T, g1, ?_⟩
  rw [g6, exec_small, g3, List.map_map]
  · rfl
  · intro w hw
    rw [g3] at hw
    obtain ⟨t, ht, rfl⟩ := List.mem_map.mp hw
    have hm : t.2 ∈ (T.filter fun x => x.1 = t.1).map (·.2) := List.mem_map.mpr ⟨t, List.mem_filter.mpr ⟨ht, by simp⟩, rfl⟩
    have hm := (g1 _).subset hm
    obtain ⟨hd, id, data, hw, hx⟩ := wire_mem_sent (mem_wires.mp (List.mem_filter.mp hm).1)
    have hr := g2 t ht
    by_cases hle : data.length ≤ 2 ^ 16
    · rw [Frag.C29_sender_small _ _ _ hle] at hx
      rw [List.mem_singleton.mp hx]
    · obtain ⟨_, g, _⟩ := Frag.C29_sender hd id data (by unfold Frag.MAX_MSG_SIZE; omega)
      rw [(g _ hx).1] at hr
      exact absurd (hsmall _ _ _ _ hw hr) hle

/-- The fragments of a message, in order. -/
theorem write_big {hd : Frag.Header} {id : Nat} {data : Bytes} (hbig : 2 ^ 16 < data.length) :
    (∀ w ∈ Frag.write hd id data, Frag.OfMsg id w ∧ w.header = hd) ∧ ∃ pre last, Frag.write hd id data = pre ++ [last] ∧ last ∉ pre := by
  obtain ⟨g1, g2, g3⟩ := Frag.C29_sender hd id data hbig
  refine ⟨fun w hw => ?_, ?_⟩
  · obtain ⟨e1, _, _, o, e2, _⟩ := g2 w hw
    exact ⟨⟨_, e2, rfl⟩, e1⟩
  · have hne : Frag.write hd id data ≠ [] := by
      intro h0
      rw [h0] at g1
      simp at g1
      rw [g1] at hbig
      simp at hbig
    refine ⟨_, _, (List.dropLast_concat_getLast hne).symm, ?_⟩
    intro hm
    rw [← List.dropLast_concat_getLast hne] at g3
    have hp := (List.pairwise_append.mp g3).2.2 _ hm _ (List.mem_singleton.mpr rfl)
    obtain ⟨_, _, _, o, e2, _⟩ := g2 _ (List.getLast_mem hne)
    exact absurd (hp _ _ e2 e2) (Nat.lt_irrefl _)

theorem write_other {hd : Frag.Header} {id id' : Nat} {data : Bytes} (h : id' ≠ id ∨ data.length ≤ 2 ^ 16) : ∀ w ∈ Frag.write hd id' data, ¬ Frag.OfMsg id w := by
  intro w hw ⟨i, hi, he⟩
  by_cases hs : data.length ≤ 2 ^ 16
  · rw [Frag.C29_sender_small _ _ _ hs] at hw
    rw [List.mem_singleton.mp hw] at hi
    cases hi
  · obtain ⟨_, g2, _⟩ := Frag.C29_sender hd id' data (by unfold Frag.MAX_MSG_SIZE; omega)
    obtain ⟨_, _, _, o, e2, _⟩ := g2 w hw
    rw [e2] at hi
    cases hi
    rcases h with h | h
    · exact h he
    · exact hs h

/-- In a history no message of more than 2^16 bytes is written with this fragment identifier. -/
def Fresh (id : Nat) (h : List Ev) : Prop := ∀ s hd data, .write s hd id data ∈ h → data.length ≤ 2 ^ 16

theorem fresh_sent {id : Nat} {h : List Ev} (hf : Fresh id h) (up : Bool) (s : Nat) : ∀ w ∈ wires (sent up s h), ¬ Frag.OfMsg id w := by
  intro w hw
  obtain ⟨hd, id', data, h1, h2⟩ := wire_mem_sent (mem_wires.mp hw)
  refine write_other ?_ w h2
  by_cases he : id' = id
  · subst he; exact .inr (hf _ _ _ h1)
  · exact .inl he

theorem wires_map (ws : List Frag.Wire) : wires (ws.map .wire) = ws := by
  induction ws with
  | nil => rfl
  | cons x a ih => simp [wires, ih]

/-- The fragments of the message among what is received. -/
theorem fragments_received {x y h1 : List Ev} {s : Nat} {hd : Frag.Header} {id : Nat} {data : Bytes} {a : Str} {T : List (Nat × Frag.Wire)}
    (hbig : 2 ^ 16 < data.length) (hup : upAfter false s (h1 ++ x) = true) (hreach : Reaches hd.destination a) (hx : Fresh id x) (hy : Fresh id y)
    (g1 : ∀ s', (T.filter fun t => t.1 = s').map (·.2) = (written h1 (x ++ .write s hd id data :: y) s').filter fun w => Reaches w.header.destination a) :
    (T.map (·.2)).filter (fun w => decide (Frag.OfMsg id w)) = Frag.write hd id data := by
  have hw : ∀ s', written h1 (x ++ .write s hd id data :: y) s' =
      wires (sent (upAfter false s' h1) s' x) ++ ((if s' = s then Frag.write hd id data else []) ++ wires (sent (upAfter false s' (h1 ++ x)) s' y)) := by
    intro s'
    rw [written, sent_append, ← upAfter_append, wires_append]
    congr 1
    simp only [sent]
    by_cases he : s' = s
    · subst he
      rw [if_pos ⟨rfl, hup⟩, wires_append, wires_map, if_pos rfl]
    · rw [if_neg (fun h => he h.1.symm), if_neg he, List.nil_append]
  have none_of : ∀ (L : List Frag.Wire), (∀ w ∈ L, ¬ Frag.OfMsg id w) → L.filter (fun w => decide (Frag.OfMsg id w)) = [] := by
    intro L hL
    refine List.filter_eq_nil_iff.mpr fun w hw => ?_
    simpa using hL w hw
  have hfil : ∀ s', ((T.filter fun t => t.1 = s').map (·.2)).filter (fun w => decide (Frag.OfMsg id w)) = if s' = s then Frag.write hd id data else [] := by
    intro s'
    rw [g1, hw, List.filter_filter]
    have hcomm : (fun w : Frag.Wire => decide (Frag.OfMsg id w) && decide (Reaches w.header.destination a)) =
        fun w => decide (Reaches w.header.destination a) && decide (Frag.OfMsg id w) := by funext w; exact Bool.and_comm _ _
    have hmid : ∀ A B C : List Frag.Wire, (∀ w ∈ A, ¬ Frag.OfMsg id w) → (∀ w ∈ C, ¬ Frag.OfMsg id w) →
        (A ++ (B ++ C)).filter (fun w => decide (Frag.OfMsg id w)) = B.filter (fun w => decide (Frag.OfMsg id w)) := by
      intro A B C hA hC
      rw [List.filter_append, List.filter_append, none_of _ hA, none_of _ hC, List.nil_append, List.append_nil]
    rw [hcomm, ← List.filter_filter, hmid _ _ _ (fresh_sent hx _ _) (fresh_sent hy _ _)]
    by_cases he : s' = s
    · rw [if_pos he]
      have e1 : (Frag.write hd id data).filter (fun w => decide (Frag.OfMsg id w)) = Frag.write hd id data :=
        List.filter_eq_self.mpr (fun w hw => by simpa using ((write_big hbig).1 w hw).1)
      rw [e1]
      exact List.filter_eq_self.mpr (fun w hw => by rw [((write_big hbig).1 w hw).2]; simpa using hreach)
    · rw [if_neg he]; rfl
  have hT : T.filter (fun t => decide (Frag.OfMsg id t.2)) = (T.filter fun t => t.1 = s).filter (fun t => decide (Frag.OfMsg id t.2)) := by
    rw [List.filter_filter]
    refine List.filter_congr fun t ht => ?_
    by_cases ho : Frag.OfMsg id t.2
    · by_cases he : t.1 = s
      · simp [ho, he]
      · have := hfil t.1
        rw [if_neg he] at this
        exact absurd (by simpa using ho) (List.filter_eq_nil_iff.mp this t.2 (List.mem_map.mpr ⟨t, List.mem_filter.mpr ⟨ht, by simp⟩, rfl⟩))
    · simp [ho]
  have := hfil s
  rw [if_pos rfl, List.filter_map] at this
  rw [List.filter_map, ← this]
  show List.map _ (T.filter (fun t => decide (Frag.OfMsg id t.2))) = _
  rw [hT]
  rfl

/-- C58. A message of more than 2^16 bytes to a registered connection, written with a fragment identifier no other such message has, is delivered exactly once
with its header and bytes, whatever else is sent, if the data comes to the link side in chunks of at most 67 bytes and its timer does not expire. -/
theorem C58_delivered_large_partial {c : Classes} (hc : c.Ok) (h1 x y : List Ev) (s : Nat) (hd : Frag.Header) (id : Nat) (data : Bytes)
    (hf : ∀ e ∈ h1 ++ (x ++ .write s hd id data :: y), Fits e) (hcalm : Calm (h1 ++ (x ++ .write s hd id data :: y))) (l : Nat) (a : Str)
    (hs : Stays h1 (x ++ .write s hd id data :: y) l a) (d1 : Drained (Net.init.exec c h1) l)
    (d2 : Drained (Net.init.exec c (h1 ++ (x ++ .write s hd id data :: y))) l)
    (hbig : 2 ^ 16 < data.length) (hup : upAfter false s (h1 ++ x) = true) (hreach : Reaches hd.destination a)
    (h0 : Fresh id h1) (hx : Fresh id x) (hy : Fresh id y) (htime : .timeout l id ∉ x ++ .write s hd id data :: y)
    (hk : ∀ k, .toHost l k ∈ x ++ .write s hd id data :: y → k ≤ 67) :
    ∃ D last, ((Net.init.exec c (h1 ++ (x ++ .write s hd id data :: y))).tx l).got = ((Net.init.exec c h1).tx l).got ++ D ∧
      D.filter (fun d => decide (Frag.OfMsg id d.1)) = [(last, data)] ∧ last.header = hd := by
  obtain ⟨T, E1, E2, g1, g2, g3, g4, g5, g6, g7, g8⟩ := C58_received hc h1 _ hf hcalm l a hs d1 d2
  obtain ⟨w1, pre, last, w2, w3⟩ := write_big (hd := hd) (id := id) hbig
  have hone : Frag.OneByOne E2 := by
    intro ws hw
    by_cases hlen : 2 ≤ ws.length
    · obtain ⟨k, hm, hk'⟩ := g8 ws hw hlen
      have := hk k hm
      omega
    · omega
  have hfree : (Frag.exec [] E1).1.get id = none := exec_free E1 [] (by simp [Dict.WF]) rfl fun w hw => by
    obtain ⟨s', hs'⟩ := g4 w hw
    exact fresh_sent h0 _ _ w hs'
  have hp := fragments_received hbig hup hreach hx hy g1
  rw [← g3] at hp
  have := Frag.C29_reassembled_partial E1 E2 (hone.settled _) hd id data hbig hfree
    (fun hm => htime (timeout_mem_inputs (by rw [← g7]; exact timeout_mem_kinds.mpr hm))) pre last (by rw [hp, w2]) (fun w => by rw [w2]) w3
  exact ⟨_, last, g6, this.1, this.2.1⟩

/-- Packets one by one. -/
def oneByOne : List Frag.Ev → List Frag.Ev
  | [] => []
  | .data ws :: h => ws.map (fun w => .data [w]) ++ oneByOne h
  | .timeout i :: h => .timeout i :: oneByOne h

theorem oneByOne_spec : ∀ h : List Frag.Ev, Frag.OneByOne (oneByOne h) ∧ Frag.items (oneByOne h) = Frag.items h ∧ Frag.packets (oneByOne h) = Frag.packets h ∧
    ∀ i, Frag.Ev.timeout i ∈ oneByOne h → Frag.Ev.timeout i ∈ h
  | [] => ⟨by intro ws h; simp [oneByOne] at h, rfl, rfl, by simp [oneByOne]⟩
  | .timeout i :: h => by
    obtain ⟨h1, h2, h3, h4⟩ := oneByOne_spec h
    refine ⟨?_, by simp [oneByOne, Frag.items, h2], by simp [oneByOne, Frag.packets, h3], ?_⟩
    · intro ws hm
      rcases List.mem_cons.mp hm with he | hm
      · cases he
      · exact h1 ws hm
    · intro j hm
      rcases List.mem_cons.mp hm with he | hm
      · rw [he]; simp
      · exact List.mem_cons_of_mem _ (h4 j hm)
  | .data ws :: h => by
    obtain ⟨h1, h2, h3, h4⟩ := oneByOne_spec h
    have hi : ∀ (ws : List Frag.Wire) (t : List Frag.Ev), Frag.items (ws.map (fun w => .data [w]) ++ t) = ws.map .packet ++ Frag.items t := by
      intro ws t
      induction ws with
      | nil => rfl
      | cons w ws ih => simp [Frag.items, ih]
    have hp : ∀ (ws : List Frag.Wire) (t : List Frag.Ev), Frag.packets (ws.map (fun w => .data [w]) ++ t) = ws ++ Frag.packets t := by
      intro ws t
      induction ws with
      | nil => rfl
      | cons w ws ih => simp [Frag.packets, ih]
    refine ⟨?_, by rw [oneByOne, hi, h2]; rfl, by rw [oneByOne, hp, h3]; rfl, ?_⟩
    · intro x hm
      rcases List.mem_append.mp hm with hm | hm
      · obtain ⟨w, _, he⟩ := List.mem_map.mp hm
        cases he; simp
      · exact h1 x hm
    · intro j hm
      rcases List.mem_append.mp hm with hm | hm
      · obtain ⟨w, _, he⟩ := List.mem_map.mp hm
        cases he
      · exact List.mem_cons_of_mem _ (h4 j hm)

theorem ideal_mem : ∀ (l : List Frag.Item) (st : Frag.State), ∀ d ∈ (Frag.ideal st l).2, .packet d.1 ∈ l
  | [], _, d, h => by simp [Frag.ideal] at h
  | .timeout i :: l, st, d, h => by
    simp only [Frag.ideal] at h
    exact List.mem_cons_of_mem _ (ideal_mem l _ d h)
  | .packet w :: l, st, d, h => by
    simp only [Frag.ideal, List.mem_append] at h
    rcases h with h | h
    · cases hr : (Frag.absorb st w).2 with
      | none => rw [hr] at h; simp [Frag.deliver] at h
      | some x => rw [hr] at h; simp [Frag.deliver] at h; simp [h]
    · exact List.mem_cons_of_mem _ (ideal_mem l _ d h)

theorem packet_mem_items {w : Frag.Wire} : ∀ {h : List Frag.Ev}, .packet w ∈ Frag.items h → w ∈ Frag.packets h
  | [], hm => by simp [Frag.items] at hm
  | .timeout i :: h, hm => by
    simp only [Frag.items, List.mem_cons] at hm
    rcases hm with he | hm
    · cases he
    · exact packet_mem_items (h := h) hm
  | .data ws :: h, hm => by
    simp only [Frag.items, List.mem_append] at hm
    rcases hm with hm | hm
    · obtain ⟨v, hv, he⟩ := List.mem_map.mp hm
      cases he
      simp [Frag.packets, hv]
    · simp [Frag.packets, packet_mem_items (h := h) hm]

/-- C58. If a message of more than 2^16 bytes is the only one written to the address of a registered connection while all bytes arrive, it is the only delivery
there, once, with its header and bytes, however the bytes are cut, whatever other connections send each other. -/
theorem C58_delivered_alone {c : Classes} (hc : c.Ok) (h1 x y : List Ev) (s : Nat) (hd : Frag.Header) (id : Nat) (data : Bytes)
    (hf : ∀ e ∈ h1 ++ (x ++ .write s hd id data :: y), Fits e) (hcalm : Calm (h1 ++ (x ++ .write s hd id data :: y))) (l : Nat) (a : Str)
    (hs : Stays h1 (x ++ .write s hd id data :: y) l a) (d1 : Drained (Net.init.exec c h1) l)
    (d2 : Drained (Net.init.exec c (h1 ++ (x ++ .write s hd id data :: y))) l)
    (hbig : 2 ^ 16 < data.length) (hup : upAfter false s (h1 ++ x) = true) (hreach : Reaches hd.destination a)
    (h0 : Fresh id h1) (hother : ∀ s' hd' id' data', .write s' hd' id' data' ∈ x ++ y → ¬ Reaches hd'.destination a)
    (htime : .timeout l id ∉ x ++ .write s hd id data :: y) :
    ∃ last, last.header = hd ∧ ((Net.init.exec c (h1 ++ (x ++ .write s hd id data :: y))).tx l).got = ((Net.init.exec c h1).tx l).got ++ [(last, data)] := by
  obtain ⟨T, E1, E2, g1, g2, g3, g4, g5, g6, g7, g8⟩ := C58_received hc h1 _ hf hcalm l a hs d1 d2
  obtain ⟨w1, pre, last, w2, w3⟩ := write_big (hd := hd) (id := id) hbig
  have hfree : (Frag.exec [] E1).1.get id = none := exec_free E1 [] (by simp [Dict.WF]) rfl fun w hw => by
    obtain ⟨s', hs'⟩ := g4 w hw
    exact fresh_sent h0 _ _ w hs'
  -- everything received is a fragment of the message
  have hp : Frag.packets E2 = Frag.write hd id data := by
    rw [g3]
    have hnil : ∀ (up : Bool) (s' : Nat) (z : List Ev), (∀ e ∈ z, e ∈ x ++ y) →
        (wires (sent up s' z)).filter (fun w => decide (Reaches w.header.destination a)) = [] := by
      intro up s' z hz
      refine List.filter_eq_nil_iff.mpr fun w hw => ?_
      obtain ⟨hd', id', data', k1, k2⟩ := wire_mem_sent (mem_wires.mp hw)
      have := hother _ _ _ _ (hz _ k1)
      have hh : w.header = hd' := by
        by_cases hle : data'.length ≤ 2 ^ 16
        · rw [Frag.C29_sender_small _ _ _ hle] at k2
          rw [List.mem_singleton.mp k2]
        · exact ((Frag.C29_sender hd' id' data' (by unfold Frag.MAX_MSG_SIZE; omega)).2.1 w k2).1
      rw [hh]
      simpa using this
    have hall : ∀ s', (T.filter fun t => t.1 = s').map (·.2) = if s' = s then Frag.write hd id data else [] := by
      intro s'
      rw [g1, written, sent_append, ← upAfter_append, wires_append, List.filter_append, hnil _ _ x (by intro e he; simp [he]), List.nil_append]
      simp only [sent]
      by_cases he : s' = s
      · subst he
        rw [if_pos ⟨rfl, hup⟩, wires_append, wires_map, if_pos rfl, List.filter_append, hnil _ _ y (by intro e he; simp [he]), List.append_nil]
        exact List.filter_eq_self.mpr (fun w hw => by rw [(w1 w hw).2]; simpa using hreach)
      · rw [if_neg (fun h => he h.1.symm), if_neg he]
        exact hnil _ _ y (by intro e he; simp [he])
    have : T.filter (fun t => t.1 = s) = T := by
      refine List.filter_eq_self.mpr fun t ht => ?_
      by_cases he : t.1 = s
      · simpa using he
      · have := hall t.1
        rw [if_neg he] at this
        have hm : t.2 ∈ (T.filter fun u => u.1 = t.1).map (·.2) := List.mem_map.mpr ⟨t, List.mem_filter.mpr ⟨ht, by simp⟩, rfl⟩
        rw [this] at hm
        simp at hm
    have h2 := hall s
    rw [this, if_pos rfl] at h2
    exact h2
  obtain ⟨o1, o2, o3, o4⟩ := oneByOne_spec E2
  have htm : Frag.Ev.timeout id ∉ E2 := fun hm => htime (timeout_mem_inputs (by rw [← g7]; exact timeout_mem_kinds.mpr hm))
  have hfilt : (Frag.packets E2).filter (fun w => decide (Frag.OfMsg id w)) = pre ++ [last] := by
    rw [hp, List.filter_eq_self.mpr (fun w hw => by simpa using (w1 w hw).1), w2]
  have hideal : (Frag.ideal (Frag.exec [] E1).1 (Frag.items E2)).2 = [(last, data)] ∧ last.header = hd := by
    have := Frag.C29_reassembled_partial E1 (oneByOne E2) (o1.settled _) hd id data hbig hfree (fun hm => htm (o4 _ hm)) pre last
      (by rw [o3]; exact hfilt) (fun w => by rw [w2]) w3
    rw [Frag.exec_ideal _ _ (o1.settled _), o2] at this
    refine ⟨?_, this.2.1⟩
    rw [← this.1]
    refine (List.filter_eq_self.mpr fun d hd => ?_).symm
    have := packet_mem_items (ideal_mem _ _ d hd)
    rw [hp] at this
    simpa using (w1 _ this).1
  have hset : Frag.Settled (Frag.exec [] E1).1 E2 := settled_of_last E2 _ (by rw [hideal.1]; simp) (.inr ⟨pre, by rw [hp, w2], w3⟩)
  refine ⟨last, hideal.2, ?_⟩
  rw [g6, Frag.exec_ideal _ _ hset, hideal.1]

end Verif.Link
