import Verif.Lemmas.LinkNet
/-! # Lemmas about the account of a history -/
namespace Verif.Link

theorem snoc_inj {α : Type} {a b : List α} {x y : α} (h : a ++ [x] = b ++ [y]) : a = b ∧ x = y := by
  have h1 := congrArg List.dropLast h
  have h2 := congrArg List.getLast? h
  simp at h1 h2
  exact ⟨h1, h2⟩

theorem Routed.inv {l : Nat} {L : List Act} {ws : List Frag.Wire} (h : Routed l L ws) :
    (L = [] → ws = []) ∧ ∀ log x, L = log ++ [x] → ∃ ws0, Routed l log ws0 ∧
      ((∃ s w, x = .handled s (.wire w) ∧ Receives log l w ∧ ws = ws0 ++ [w]) ∨
       (∃ s w, x = .handled s (.wire w) ∧ ¬ Receives log l w ∧ ws = ws0) ∨ ((∀ s w, x ≠ .handled s (.wire w)) ∧ ws = ws0)) := by
  cases h with
  | nil => exact ⟨fun _ => rfl, fun log x h => by simp at h⟩
  | gets h1 h2 =>
    refine ⟨fun h => by simp at h, fun log x h => ?_⟩
    obtain ⟨rfl, rfl⟩ := snoc_inj h
    exact ⟨_, h1, .inl ⟨_, _, rfl, h2, rfl⟩⟩
  | ignored h1 h2 =>
    refine ⟨fun h => by simp at h, fun log x h => ?_⟩
    obtain ⟨rfl, rfl⟩ := snoc_inj h
    exact ⟨_, h1, .inr (.inl ⟨_, _, rfl, h2, rfl⟩)⟩
  | announce h1 =>
    refine ⟨fun h => by simp at h, fun log x h => ?_⟩
    obtain ⟨rfl, rfl⟩ := snoc_inj h
    exact ⟨_, h1, .inr (.inr ⟨by simp, rfl⟩)⟩
  | lost h1 =>
    refine ⟨fun h => by simp at h, fun log x h => ?_⟩
    obtain ⟨rfl, rfl⟩ := snoc_inj h
    exact ⟨_, h1, .inr (.inr ⟨by simp, rfl⟩)⟩

/-- What is routed to a connection is determined by what the switch has seen. -/
theorem Routed.unique {l : Nat} {log : List Act} {ws ws' : List Frag.Wire} (h : Routed l log ws) (h' : Routed l log ws') : ws = ws' := by
  induction h generalizing ws' with
  | nil => exact (h'.inv.1 rfl).symm
  | gets h1 h2 ih =>
    obtain ⟨ws0, g1, ⟨s, w, hx, hr, rfl⟩ | ⟨s, w, hx, hr, rfl⟩ | ⟨hx, rfl⟩⟩ := h'.inv.2 _ _ rfl
    · cases hx; rw [ih g1]
    · cases hx; exact absurd h2 hr
    · exact absurd rfl (hx _ _)
  | ignored h1 h2 ih =>
    obtain ⟨ws0, g1, ⟨s, w, hx, hr, rfl⟩ | ⟨s, w, hx, hr, rfl⟩ | ⟨hx, rfl⟩⟩ := h'.inv.2 _ _ rfl
    · cases hx; exact absurd hr h2
    · cases hx; exact ih g1
    · exact absurd rfl (hx _ _)
  | announce h1 ih =>
    obtain ⟨ws0, g1, ⟨s, w, hx, hr, rfl⟩ | ⟨s, w, hx, hr, rfl⟩ | ⟨hx, rfl⟩⟩ := h'.inv.2 _ _ rfl
    · cases hx
    · cases hx
    · exact ih g1
  | lost h1 ih =>
    obtain ⟨ws0, g1, ⟨s, w, hx, hr, rfl⟩ | ⟨s, w, hx, hr, rfl⟩ | ⟨hx, rfl⟩⟩ := h'.inv.2 _ _ rfl
    · cases hx
    · cases hx
    · exact ih g1

/-- The wire packets the switch has seen, with the connections they came from. -/
def traffic : List Act → List (Nat × Frag.Wire)
  | [] => []
  | .handled s (.wire w) :: t => (s, w) :: traffic t
  | _ :: t => traffic t

theorem traffic_from (s : Nat) (log : List Act) : ((traffic log).filter (fun t => t.1 = s)).map (·.2) = wires (handledFrom s log) := by
  induction log with
  | nil => rfl
  | cons x log ih =>
    cases x with
    | lost l => simpa [traffic, handledFrom] using ih
    | handled l p =>
      cases p with
      | announce a => by_cases hl : l = s <;> simpa [traffic, handledFrom, hl, wires] using ih
      | wire w => by_cases hl : l = s <;> simpa [traffic, handledFrom, hl, wires] using ih

theorem handledFrom_split {l : Nat} : ∀ {log : List Act} {before after : List Pkt} {x : Pkt}, handledFrom l log = before ++ x :: after →
    ∃ log1 log2, log = log1 ++ .handled l x :: log2 ∧ handledFrom l log2 = after
  | [], before, after, x, h => by simp [handledFrom] at h
  | .lost k :: log, before, after, x, h => by
    obtain ⟨a, b, e, g⟩ := handledFrom_split (log := log) h
    exact ⟨.lost k :: a, b, by rw [e]; rfl, g⟩
  | .handled k p :: log, before, after, x, h => by
    unfold handledFrom at h
    split at h
    · next hk =>
      subst hk
      cases before with
      | nil =>
        simp only [List.nil_append, List.cons.injEq] at h
        obtain ⟨rfl, rfl⟩ := h
        exact ⟨[], log, rfl, rfl⟩
      | cons b before =>
        simp only [List.cons_append, List.cons.injEq] at h
        obtain ⟨a, d, e, g⟩ := handledFrom_split (log := log) h.2
        exact ⟨.handled k p :: a, d, by rw [e]; rfl, g⟩
    · obtain ⟨a, d, e, g⟩ := handledFrom_split (log := log) h
      exact ⟨.handled k p :: a, d, by rw [e]; rfl, g⟩

theorem mem_handledFrom {l : Nat} {p : Pkt} : ∀ {log : List Act}, p ∈ handledFrom l log ↔ .handled l p ∈ log
  | [] => by simp [handledFrom]
  | .lost k :: log => by simp [handledFrom, mem_handledFrom (log := log)]
  | .handled k q :: log => by
    by_cases hk : k = l
    · subst hk; simp [handledFrom, mem_handledFrom (log := log)]
    · simp [handledFrom, hk, mem_handledFrom (log := log), Ne.symm hk]

theorem mem_losses {l : Nat} : ∀ {log : List Act}, l ∈ losses log ↔ .lost l ∈ log
  | [] => by simp [losses]
  | .lost k :: log => by simp [losses, mem_losses (log := log)]
  | .handled k q :: log => by simp [losses, mem_losses (log := log)]

theorem mem_ops_register {l : Nat} {a : Str} : ∀ {log : List Act}, .register a l ∈ ops log ↔ .handled l (.announce a) ∈ log
  | [] => by simp [ops]
  | .lost k :: log => by simp [ops, mem_ops_register (log := log)]
  | .handled k (.wire w) :: log => by simp [ops, mem_ops_register (log := log)]
  | .handled k (.announce b) :: log => by
    simp only [ops, List.mem_cons, mem_ops_register (log := log)]
    constructor
    · rintro (h | h)
      · left; cases h; rfl
      · right; exact h
    · rintro (h | h)
      · left; cases h; rfl
      · right; exact h

theorem mem_ops_unregister {l : Nat} : ∀ {log : List Act}, .unregister l ∈ ops log ↔ .lost l ∈ log
  | [] => by simp [ops]
  | .lost k :: log => by simp [ops, mem_ops_unregister (log := log)]
  | .handled k (.wire w) :: log => by simp [ops, mem_ops_unregister (log := log)]
  | .handled k (.announce b) :: log => by simp [ops, mem_ops_unregister (log := log)]

/-- The registration of a connection that has not been lost is its last announcement. -/
theorem registered_of_announced {l : Nat} {a : Str} {log : List Act} (h : Announced (handledFrom l log) a) (hl : .lost l ∉ log) : RegisteredAs (ops log) l a := by
  obtain ⟨hb, before, after, he, hn⟩ := h
  obtain ⟨log1, log2, rfl, rfl⟩ := handledFrom_split he
  refine ⟨hb, ops log1, ops log2, by rw [ops_append]; rfl, ?_, ?_⟩
  · intro hm
    exact hl (by simp [mem_ops_unregister.mp hm])
  · intro a' ha' hm
    exact hn a' ha' (mem_handledFrom.mpr (mem_ops_register.mp hm))

theorem registered_unique {ops : List Switch.Op} {l : Nat} {a b : Str} (h : RegisteredAs ops l a) (h' : RegisteredAs ops l b) : a = b := by
  obtain ⟨s, _, _, e⟩ := Switch.exec_spec ops
  have h1 := (e l a).mpr h
  rw [(e l b).mpr h'] at h1
  exact (Option.some.inj h1).symm

theorem receives_iff {log : List Act} {l : Nat} {a : Str} (h : RegisteredAs (ops log) l a) (w : Frag.Wire) :
    Receives log l w ↔ Reaches w.header.destination a := by
  constructor
  · rintro ⟨b, h1, h2⟩; rw [registered_unique h h1]; exact h2
  · intro h2; exact ⟨a, h, h2⟩

theorem registered_keep {ops : List Switch.Op} {l : Nat} {a : Str} (h : RegisteredAs ops l a) {o : Switch.Op} (h1 : o ≠ .unregister l)
    (h2 : ∀ b, o ≠ .register b l) : RegisteredAs (ops ++ [o]) l a := by
  obtain ⟨hb, x, y, rfl, h3, h4⟩ := h
  refine ⟨hb, x, y ++ [o], by simp, ?_, ?_⟩
  · intro hm
    rcases List.mem_append.mp hm with hm | hm
    · exact h3 hm
    · exact h1 (List.mem_singleton.mp hm).symm
  · intro b hb hm
    rcases List.mem_append.mp hm with hm | hm
    · exact h4 b hb hm
    · exact h2 b (List.mem_singleton.mp hm).symm

/-- What is routed to a connection while its registration stays. -/
theorem routed_static {l : Nat} {a : Str} : ∀ (acts log : List Act) (ws : List Frag.Wire), Routed l log ws → RegisteredAs (ops log) l a →
    (∀ x, .handled l (.announce x) ∉ acts) → .lost l ∉ acts →
    Routed l (log ++ acts) (ws ++ ((traffic acts).filter fun t => Reaches t.2.header.destination a).map (·.2))
  | [], log, ws, h, _, _, _ => by simpa [traffic] using h
  | x :: acts, log, ws, h, hr, hx, hl => by
    have hx' : ∀ y, .handled l (.announce y) ∉ acts := fun y hy => hx y (by simp [hy])
    have hl' : .lost l ∉ acts := fun hy => hl (by simp [hy])
    rw [show log ++ x :: acts = (log ++ [x]) ++ acts by simp]
    cases x with
    | lost k =>
      have hk : k ≠ l := by rintro rfl; exact hl (by simp)
      refine routed_static acts _ _ (.lost h) ?_ hx' hl'
      rw [ops_append]
      exact registered_keep hr (by simpa using hk) (by simp)
    | handled k p =>
      cases p with
      | announce b =>
        have hk : k ≠ l := by rintro rfl; exact hx b (by simp)
        refine routed_static acts _ _ (.announce h) ?_ hx' hl'
        rw [ops_append]
        exact registered_keep hr (by simp) (by intro b' he; cases he; exact hk rfl)
      | wire w =>
        have hreg : RegisteredAs (ops (log ++ [.handled k (.wire w)])) l a := by rw [ops_append]; simpa [ops] using hr
        by_cases hw : Reaches w.header.destination a
        · have := routed_static acts _ _ (.gets (s := k) h ((receives_iff hr w).mpr hw)) hreg hx' hl'
          simpa [traffic, hw] using this
        · have := routed_static acts _ _ (.ignored (s := k) h (fun hc => hw ((receives_iff hr w).mp hc))) hreg hx' hl'
          simpa [traffic, hw] using this

theorem announce_mem_sent {l : Nat} {x : Str} : ∀ {h : List Ev} {up : Bool}, .announce x ∈ sent up l h → .connect l x ∈ h ∨ .announce l x ∈ h
  | [], _, hm => by simp [sent] at hm
  | e :: h, up, hm => by
    have ih := fun up => announce_mem_sent (l := l) (x := x) (h := h) (up := up)
    have lift : (.connect l x ∈ h ∨ .announce l x ∈ h) → (.connect l x ∈ e :: h ∨ .announce l x ∈ e :: h) := by
      rintro (h | h)
      · left; simp [h]
      · right; simp [h]
    cases e with
    | connect k a =>
      simp only [sent] at hm
      split at hm
      · next hk =>
        rcases List.mem_cons.mp hm with he | hm
        · cases he; left; simp [hk]
        · exact lift (ih _ hm)
      · exact lift (ih _ hm)
    | announce k a =>
      simp only [sent] at hm
      split at hm
      · next hk =>
        rcases List.mem_cons.mp hm with he | hm
        · cases he; right; simp [hk.1]
        · exact lift (ih _ hm)
      · exact lift (ih _ hm)
    | write k hd id data =>
      simp only [sent] at hm
      split at hm
      · rcases List.mem_append.mp hm with hm | hm
        · obtain ⟨w, _, hw⟩ := List.mem_map.mp hm; cases hw
        · exact lift (ih _ hm)
      · exact lift (ih _ hm)
    | lostHost k =>
      simp only [sent] at hm
      split at hm
      · exact lift (ih _ hm)
      · exact lift (ih _ hm)
    | accept k => exact lift (ih _ hm)
    | toSwitch k j => exact lift (ih _ hm)
    | toHost k j => exact lift (ih _ hm)
    | timeout k j => exact lift (ih _ hm)
    | lostSwitch k => exact lift (ih _ hm)

theorem wire_mem_sent {l : Nat} {w : Frag.Wire} : ∀ {h : List Ev} {up : Bool}, .wire w ∈ sent up l h →
    ∃ hd id data, .write l hd id data ∈ h ∧ w ∈ Frag.write hd id data
  | [], _, hm => by simp [sent] at hm
  | e :: h, up, hm => by
    have ih := fun up => wire_mem_sent (l := l) (w := w) (h := h) (up := up)
    have lift : (∃ hd id data, .write l hd id data ∈ h ∧ w ∈ Frag.write hd id data) → ∃ hd id data, .write l hd id data ∈ e :: h ∧ w ∈ Frag.write hd id data := by
      rintro ⟨a, b, d, h1, h2⟩
      exact ⟨a, b, d, by simp [h1], h2⟩
    cases e with
    | connect k a =>
      simp only [sent] at hm
      split at hm
      · rcases List.mem_cons.mp hm with he | hm
        · cases he
        · exact lift (ih _ hm)
      · exact lift (ih _ hm)
    | announce k a =>
      simp only [sent] at hm
      split at hm
      · rcases List.mem_cons.mp hm with he | hm
        · cases he
        · exact lift (ih _ hm)
      · exact lift (ih _ hm)
    | write k hd id data =>
      simp only [sent] at hm
      split at hm
      · next hk =>
        rcases List.mem_append.mp hm with hm | hm
        · obtain ⟨w', hw, he⟩ := List.mem_map.mp hm
          cases he
          exact ⟨hd, id, data, by simp [hk.1], hw⟩
        · exact lift (ih _ hm)
      · exact lift (ih _ hm)
    | lostHost k =>
      simp only [sent] at hm
      split at hm
      · exact lift (ih _ hm)
      · exact lift (ih _ hm)
    | accept k => exact lift (ih _ hm)
    | toSwitch k j => exact lift (ih _ hm)
    | toHost k j => exact lift (ih _ hm)
    | timeout k j => exact lift (ih _ hm)
    | lostSwitch k => exact lift (ih _ hm)

theorem mem_wires {w : Frag.Wire} : ∀ {ps : List Pkt}, w ∈ wires ps ↔ .wire w ∈ ps
  | [] => by simp [wires]
  | .announce a :: ps => by simp [wires, mem_wires (ps := ps)]
  | .wire v :: ps => by simp [wires, mem_wires (ps := ps)]

/-! ## The reassembly -/

theorem frag_exec_append (st : Frag.State) (a b : List Frag.Ev) :
    Frag.exec st (a ++ b) = ((Frag.exec (Frag.exec st a).1 b).1, (Frag.exec st a).2 ++ (Frag.exec (Frag.exec st a).1 b).2) := by
  induction a generalizing st with
  | nil => simp [Frag.exec]
  | cons x a ih => simp only [List.cons_append, Frag.exec, ih, List.append_assoc]

theorem packets_append (a b : List Frag.Ev) : Frag.packets (a ++ b) = Frag.packets a ++ Frag.packets b := by
  induction a with
  | nil => rfl
  | cons x a ih => cases x <;> simp [Frag.packets, ih]

theorem kinds_append (a b : List Frag.Ev) : kinds (a ++ b) = kinds a ++ kinds b := by
  induction a with
  | nil => rfl
  | cons x a ih => cases x <;> simp [kinds, ih]

theorem timeout_mem_kinds {i : Nat} : ∀ {h : List Frag.Ev}, some i ∈ kinds h ↔ Frag.Ev.timeout i ∈ h
  | [] => by simp [kinds]
  | .data ws :: h => by simp [kinds, timeout_mem_kinds (h := h)]
  | .timeout j :: h => by simp [kinds, timeout_mem_kinds (h := h)]

theorem timeout_mem_inputs {l i : Nat} : ∀ {h : List Ev} {up : Bool}, some i ∈ inputs up l h → Ev.timeout l i ∈ h
  | [], _, hm => by simp [inputs] at hm
  | e :: h, up, hm => by
    have ih := fun up => timeout_mem_inputs (l := l) (i := i) (h := h) (up := up)
    cases e with
    | connect k a =>
      simp only [inputs] at hm
      split at hm <;> exact List.mem_cons_of_mem _ (ih _ hm)
    | lostHost k =>
      simp only [inputs] at hm
      split at hm <;> exact List.mem_cons_of_mem _ (ih _ hm)
    | toHost k j =>
      simp only [inputs] at hm
      split at hm
      · rcases List.mem_cons.mp hm with he | hm
        · cases he
        · exact List.mem_cons_of_mem _ (ih _ hm)
      · exact List.mem_cons_of_mem _ (ih _ hm)
    | timeout k j =>
      simp only [inputs] at hm
      split at hm
      · next hk =>
        rcases List.mem_cons.mp hm with he | hm
        · cases he; rw [hk]; simp
        · exact List.mem_cons_of_mem _ (ih _ hm)
      · exact List.mem_cons_of_mem _ (ih _ hm)
    | accept k => exact List.mem_cons_of_mem _ (ih _ hm)
    | announce k a => exact List.mem_cons_of_mem _ (ih _ hm)
    | write k a b d => exact List.mem_cons_of_mem _ (ih _ hm)
    | toSwitch k j => exact List.mem_cons_of_mem _ (ih _ hm)
    | lostSwitch k => exact List.mem_cons_of_mem _ (ih _ hm)

/-- Unfragmented packets are delivered each with its own data. -/
theorem exec_small (st : Frag.State) : ∀ (h : List Frag.Ev), (∀ w ∈ Frag.packets h, w.frag = none) →
    (Frag.exec st h).2 = (Frag.packets h).map fun w => (w, w.data) := by
  intro h hs
  have hset : ∀ (h : List Frag.Ev) (st : Frag.State), (∀ w ∈ Frag.packets h, w.frag = none) → Frag.Settled st h := by
    intro h
    induction h with
    | nil => intro _ _; trivial
    | cons e h ih =>
      intro st hs
      cases e with
      | data ws =>
        refine ⟨?_, ih _ fun w hw => hs w (by simp [Frag.packets, hw])⟩
        have : ∀ (ws : List Frag.Wire) (st : Frag.State), (∀ w ∈ ws, w.frag = none) → none ∉ Frag.results st ws := by
          intro ws
          induction ws with
          | nil => intro _ _; simp [Frag.results]
          | cons w ws ih =>
            intro st hw
            simp only [Frag.results, List.mem_cons, not_or]
            refine ⟨?_, ih _ fun x hx => hw x (by simp [hx])⟩
            simp [Frag.absorb, hw w (by simp)]
        intro i j d _ _ hj
        exact this ws st (fun w hw => hs w (by simp [Frag.packets, hw])) (List.mem_of_getElem? hj)
      | timeout i => exact ih _ fun w hw => hs w (by simpa [Frag.packets] using hw)
  have h1 := Frag.C30_unfragmented_partial st h (hset h st hs)
  rw [show (Frag.packets h).filter (fun w => w.frag.isNone) = Frag.packets h from List.filter_eq_self.mpr fun w hw => by simp [hs w hw]] at h1
  rw [← h1]
  refine (List.filter_eq_self.mpr ?_).symm
  intro d hd
  -- every delivery carries one of the packets
  have hmem : ∀ (h : List Frag.Ev) (st : Frag.State), ∀ d ∈ (Frag.exec st h).2, d.1 ∈ Frag.packets h := by
    intro h
    induction h with
    | nil => intro st d hd; simp [Frag.exec] at hd
    | cons e h ih =>
      intro st d hd
      cases e with
      | timeout i =>
        simp only [Frag.exec, Frag.step, List.nil_append] at hd
        exact ih _ d hd
      | data ws =>
        simp only [Frag.exec, Frag.step, List.mem_append] at hd
        rcases hd with hd | hd
        · have : ∀ (ws : List Frag.Wire) (st : Frag.State) (v : Option Bytes), ∀ d ∈ (Frag.loop st v ws).2, d.1 ∈ ws := by
            intro ws
            induction ws with
            | nil => intro st v d hd; simp [Frag.loop] at hd
            | cons w ws ih =>
              intro st v d hd
              simp only [Frag.loop, List.mem_append] at hd
              rcases hd with hd | hd
              · cases hk : Frag.keep v (Frag.absorb st w).2 with
                | none => rw [hk] at hd; simp [Frag.deliver] at hd
                | some x => rw [hk] at hd; simp [Frag.deliver] at hd; simp [hd]
              · simp [ih _ _ d hd]
          simp [Frag.packets, this ws st none d hd]
        · simp [Frag.packets, ih _ d hd]
  simp [hs d.1 (hmem h st d hd)]

/-- Without fragments of a message the receiver keeps nothing of it. -/
theorem exec_free {id : Nat} : ∀ (h : List Frag.Ev) (st : Frag.State), st.WF → st.get id = none → (∀ w ∈ Frag.packets h, ¬ Frag.OfMsg id w) →
    (Frag.exec st h).1.get id = none := by
  intro h
  induction h with
  | nil => intro st _ hg _; exact hg
  | cons e h ih =>
    intro st hwf hg hn
    cases e with
    | timeout i =>
      have := Frag.timeout_wf hwf i
      refine ih _ this ?_ fun w hw => hn w (by simpa [Frag.packets] using hw)
      rw [Frag.timeout_get hwf i id]
      split
      · rfl
      · exact hg
    | data ws =>
      have key : ∀ (ws : List Frag.Wire) (st : Frag.State) (v : Option Bytes), st.WF → st.get id = none → (∀ w ∈ ws, ¬ Frag.OfMsg id w) →
          (Frag.loop st v ws).1.WF ∧ (Frag.loop st v ws).1.get id = none := by
        intro ws
        induction ws with
        | nil => intro st v h1 h2 _; exact ⟨h1, h2⟩
        | cons w ws ih =>
          intro st v h1 h2 h3
          exact ih _ _ (Frag.absorb_wf h1 w) (by rw [Frag.absorb_other h1 (h3 w (by simp))]; exact h2) fun x hx => h3 x (by simp [hx])
      have := key ws st none hwf hg fun w hw => hn w (by simp [Frag.packets, hw])
      exact ih _ this.1 this.2 fun w hw => hn w (by simp [Frag.packets, hw])

/-- If, packet by packet, only the very last packet gives something to deliver, the history is settled. -/
theorem settled_of_last {last : Frag.Wire} : ∀ (h : List Frag.Ev) (st : Frag.State), (∀ d ∈ (Frag.ideal st (Frag.items h)).2, d.1 = last) →
    (Frag.packets h = [] ∨ ∃ pre, Frag.packets h = pre ++ [last] ∧ last ∉ pre) → Frag.Settled st h := by
  intro h
  induction h with
  | nil => intro _ _ _; trivial
  | cons e h ih =>
    intro st hd hp
    cases e with
    | timeout i =>
      exact ih _ (by simpa [Frag.items, Frag.ideal] using hd) (by simpa [Frag.packets] using hp)
    | data ws =>
      simp only [Frag.items, Frag.ideal_append] at hd
      simp only [Frag.packets] at hp
      refine ⟨?_, ih _ ?_ ?_⟩
      · have key : ∀ (ws : List Frag.Wire) (st : Frag.State), (∀ d ∈ (Frag.ideal st (ws.map .packet)).2, d.1 = last) →
            ∀ (i : Nat) (x : Bytes), (Frag.results st ws)[i]? = some (some x) → ws[i]? = some last := by
          intro ws
          induction ws with
          | nil => intro _ _ i x hx; simp [Frag.results] at hx
          | cons w ws ih =>
            intro st hd i x hx
            simp only [List.map_cons, Frag.ideal, List.mem_append] at hd
            cases i with
            | zero =>
              simp only [Frag.results, List.getElem?_cons_zero, Option.some.injEq] at hx
              have := hd (w, x) (.inl (by rw [hx]; simp [Frag.deliver]))
              simp at this
              simp [this]
            | succ i =>
              simp only [Frag.results, List.getElem?_cons_succ] at hx ⊢
              exact ih _ (fun d h => hd d (.inr h)) i x hx
        intro i j x hij hi hj
        have h1 := key ws st (fun d h => hd d (List.mem_append_left _ h)) i x hi
        have hjl : j < ws.length := by
          have := (List.getElem?_eq_some_iff.mp hj).1
          rwa [Frag.results_length] at this
        rcases hp with hp | ⟨pre, hp, hn⟩
        · have := congrArg List.length hp
          simp at this
          rw [this.1] at hjl
          simp at hjl
        · apply hn
          have hlen := congrArg List.length hp
          simp only [List.length_append, List.length_singleton] at hlen
          have h2 : (ws ++ Frag.packets h)[i]? = some last := by
            rw [List.getElem?_append_left (by omega)]; exact h1
          rw [hp, List.getElem?_append_left (by omega)] at h2
          exact List.mem_of_getElem? h2
      · intro d hm
        refine hd d (List.mem_append_right _ ?_)
        rw [show (Frag.step st (.data ws)).1 = (Frag.ideal st (ws.map .packet)).1 from Frag.loop_state st none ws] at hm
        exact hm
      · rcases hp with hp | ⟨pre, hp, hn⟩
        · left; exact (List.append_eq_nil_iff.mp hp).2
        · rcases List.append_eq_append_iff.mp hp with ⟨as, e1, e2⟩ | ⟨bs, e1, e2⟩
          · cases hz : Frag.packets h with
            | nil => exact .inl rfl
            | cons y ys =>
              right
              exact ⟨as, by rw [← hz, e2], fun hm => hn (by rw [e1]; simp [hm])⟩
          · cases hz : Frag.packets h with
            | nil => exact .inl rfl
            | cons y ys =>
              rw [hz] at e2
              right
              refine ⟨[], ?_, by simp⟩
              cases bs with
              | nil => simpa using e2.symm
              | cons b bs => simp at e2

end Verif.Link
