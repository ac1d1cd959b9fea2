import Verif.Props.Vnic
import Mathlib.Data.List.Induction
/-! # C35: responses to open requests -/
namespace Verif.Vnic

/-- Which control connections exist and which of their ids are in use, in terms of the history. -/
structure Books (s : St) (past : List Ev) : Prop where
  nodup : s.up.Nodup
  up : ∀ p, p ∈ s.up ↔ isUp past p = true
  ids : ∀ p i, (s.ids p).has i = idUsed past p i

theorem Books.same {s s' : St} {past : List Ev} (h : Books s past) (e1 : s'.up = s.up) (e2 : s'.ids = s.ids) (e : Ev)
    (u : ∀ p, isUp (e :: past) p = isUp past p) (i : ∀ p j, idUsed (e :: past) p j = idUsed past p j) :
    Books s' (e :: past) where
  nodup := by rw [e1]; exact h.nodup
  up := fun p => by rw [e1, u]; exact h.up p
  ids := fun p j => by rw [e2, i]; exact h.ids p j

theorem has_set (d : Dict Nat Nat) (k k' v : Nat) : (d.set k v).has k' = (decide (k = k') || d.has k') := by
  unfold Dict.has
  by_cases h : k' = k
  · subst h; simp [Dict.get_set_self]
  · rw [Dict.get_set_ne _ _ (Ne.symm h)]; simp [Ne.symm h]

theorem newCtl_books {s s' : St} {past : List Ev} (h : Books s past) (p i : Nat) (r : Req) (hr : r ≠ .other) (hup : p ∈ s.up)
    (e1 : s'.up = s.up) (e2 : s'.ids = upd s.ids p ((s.ids p).set i s.nCtl)) : Books s' (.openSocket p i r :: past) where
  nodup := by rw [e1]; exact h.nodup
  up := fun q => by rw [e1]; exact h.up q
  ids := fun q j => by
    rw [e2]
    simp only [idUsed]
    unfold upd
    have hu := (h.up p).mp hup
    by_cases hq : q = p
    · subst hq
      rw [if_pos rfl, has_set, h.ids]
      simp [hu, hr]
    · rw [if_neg hq, h.ids]
      simp [Ne.symm hq]

theorem announce_same (s : St) (c t : Nat) (k : Key) : (announce s c t k).up = s.up ∧ (announce s c t k).ids = s.ids := by
  unfold announce; split <;> exact ⟨rfl, rfl⟩

theorem announce_out (s : St) (c t : Nat) (k : Key) : ∃ x, (announce s c t k).out = s.out ++ [x] ∧
    ∀ p i r, x ≠ .respond p i r := by
  unfold announce; split
  · exact ⟨_, rfl, fun _ _ _ => Eff.noConfusion⟩
  · exact ⟨_, rfl, fun _ _ _ => Eff.noConfusion⟩

theorem Books.step {s : St} {past : List Ev} (hi : Inv [] s) (h : Books s past) (e : Ev) : Books (step s e) (e :: past) := by
  cases e with
  | ctlMade p =>
    simp only [Vnic.step]
    refine ⟨?_, ?_, ?_⟩
    · split
      · exact h.nodup
      · next hp =>
        show (s.up ++ [p]).Nodup
        rw [List.nodup_append]
        exact ⟨h.nodup, by simp, by rintro a ha b hb rfl; rw [List.mem_singleton.mp hb] at ha; exact hp ha⟩
    · intro q
      simp only [isUp, Bool.or_eq_true, decide_eq_true_eq, ← h.up]
      split
      · next hp =>
        constructor
        · exact .inr
        · rintro (rfl | h); exact hp; exact h
      · show q ∈ s.up ++ [p] ↔ _
        rw [List.mem_append, List.mem_singleton]
        constructor
        · rintro (h | h); exact .inr h; exact .inl h.symm
        · rintro (h | h); exact .inr h.symm; exact .inl h
    · intro q j
      rw [show ((if p ∈ s.up then s else { s with up := s.up ++ [p] }).ids q) = s.ids q by split <;> rfl]
      exact h.ids q j
  | ctlLost p =>
    by_cases hp : p ∈ s.up
    · have hu := (h.up p).mp hp
      have hs : Vnic.step s (.ctlLost p) = Vnic.ctlLost s p := by simp only [Vnic.step]; rw [if_pos hp]
      rw [hs]
      have hc := closeAll_closes (s.ids p).vals { s with dumps := s.dumps.erase p }
      have e1 : (Vnic.ctlLost s p).up = s.up.erase p := by unfold Vnic.ctlLost; dsimp only; rw [hc.up]
      have e2 : (Vnic.ctlLost s p).ids = upd s.ids p [] := by unfold Vnic.ctlLost; dsimp only; rw [hc.ids]
      refine ⟨by rw [e1]; exact h.nodup.erase p, ?_, ?_⟩
      · intro q
        rw [e1, h.nodup.mem_erase_iff, h.up]
        simp only [isUp, Bool.and_eq_true, decide_eq_true_eq]
        exact ⟨fun h => ⟨h.1.symm, h.2⟩, fun h => ⟨h.1.symm, h.2⟩⟩
      · intro q j
        rw [e2]
        unfold upd
        simp only [idUsed]
        by_cases hq : q = p
        · subst hq; rw [if_pos rfl]; simp [hu, Dict.has, Dict.get]
        · rw [if_neg hq, h.ids]; simp [Ne.symm hq]
    · have hs : Vnic.step s (.ctlLost p) = s := by simp only [Vnic.step]; rw [if_neg hp]
      rw [hs]
      have hu : isUp past p = false := by
        cases hb : isUp past p with
        | false => rfl
        | true => exact absurd ((h.up p).mpr hb) hp
      refine ⟨h.nodup, ?_, ?_⟩
      · intro q
        rw [h.up]
        simp only [isUp, Bool.and_eq_true, decide_eq_true_eq]
        exact ⟨fun h => ⟨by rintro rfl; rw [hu] at h; exact absurd h (by simp), h⟩, fun h => h.2⟩
      · intro q j
        rw [h.ids]
        simp only [idUsed]
        by_cases hq : p = q
        · subst hq; simp [hu]
        · simp [hq]
  | openSocket p i r =>
    by_cases hp : p ∈ s.up
    · have hu := (h.up p).mp hp
      have hs : Vnic.step s (.openSocket p i r) = Vnic.openSocket s p i r := by simp only [Vnic.step]; rw [if_pos hp]
      rw [hs]
      unfold Vnic.openSocket
      by_cases hid : (s.ids p).has i = true
      · rw [if_pos hid]
        refine ⟨h.nodup, h.up, ?_⟩
        intro q j
        show (s.ids q).has j = _
        rw [h.ids]
        simp only [idUsed]
        by_cases hq : p = q ∧ i = j
        · obtain ⟨rfl, rfl⟩ := hq
          rw [← h.ids, hid]; simp
        · have : (decide (p = q) && decide (i = j)) = false := by simpa using fun a b => hq ⟨a, b⟩
          rw [this]; simp
      · rw [if_neg hid]
        cases r with
        | connect dst q =>
          dsimp only
          unfold Vnic.openConnect
          split
          · exact newCtl_books h p i _ (by simp) hp rfl rfl
          · exact newCtl_books h p i _ (by simp) hp rfl rfl
        | listen q =>
          dsimp only
          unfold Vnic.openListen
          split
          · exact newCtl_books h p i _ (by simp) hp rfl rfl
          · exact newCtl_books h p i _ (by simp) hp rfl rfl
        | other =>
          refine ⟨h.nodup, h.up, ?_⟩
          intro q j
          show (s.ids q).has j = _
          rw [h.ids]; simp [idUsed]
    · have hs : Vnic.step s (.openSocket p i r) = s := by simp only [Vnic.step]; rw [if_neg hp]
      rw [hs]
      have hu : isUp past p = false := by
        cases hb : isUp past p with
        | false => rfl
        | true => exact absurd ((h.up p).mpr hb) hp
      refine ⟨h.nodup, h.up, ?_⟩
      intro q j
      rw [h.ids]
      simp only [idUsed]
      by_cases hq : p = q
      · subst hq; simp [hu]
      · simp [hq]
  | closeSocket p i =>
    by_cases hp : p ∈ s.up
    · have hu := (h.up p).mp hp
      have hs : Vnic.step s (.closeSocket p i) = closeId s p i := by simp only [Vnic.step]; rw [if_pos hp]
      rw [hs]
      have e1 : (closeId s p i).up = s.up := by
        unfold closeId
        split
        · rfl
        · next c _ => exact (close_good s c).up
      have e2 : ∀ q j, ((closeId s p i).ids q).has j = (!(decide (p = q) && decide (i = j)) && (s.ids q).has j) := by
        intro q j
        unfold closeId
        split
        · next hn =>
          by_cases hq : p = q ∧ i = j
          · obtain ⟨rfl, rfl⟩ := hq
            simp [Dict.has, hn]
          · have : (decide (p = q) && decide (i = j)) = false := by simpa using fun a b => hq ⟨a, b⟩
            rw [this]; rfl
        · next c _ =>
          dsimp only
          rw [(close_good s c).ids]
          unfold upd
          by_cases hq : q = p
          · subst hq
            rw [if_pos rfl]
            unfold Dict.has
            rw [Dict.get_del (hi.wfi q)]
            by_cases hj : j = i
            · subst hj; simp
            · rw [if_neg (Ne.symm hj)]; simp [Ne.symm hj]
          · rw [if_neg hq]; simp [Ne.symm hq]
      refine ⟨by rw [e1]; exact h.nodup, fun q => by rw [e1]; exact h.up q, ?_⟩
      intro q j
      rw [e2, h.ids]
      simp only [idUsed]
      by_cases hq : p = q
      · subst hq; simp [hu]
      · simp [hq]
    · have hs : Vnic.step s (.closeSocket p i) = s := by simp only [Vnic.step]; rw [if_neg hp]
      rw [hs]
      have hu : isUp past p = false := by
        cases hb : isUp past p with
        | false => rfl
        | true => exact absurd ((h.up p).mpr hb) hp
      refine ⟨h.nodup, h.up, ?_⟩
      intro q j
      rw [h.ids]
      simp only [idUsed]
      by_cases hq : p = q
      · subst hq; simp [hu]
      · simp [hq]
  | startDump p =>
    simp only [Vnic.step]; split
    · exact h.same (by rfl) (by rfl) (.startDump p) (by intros; rfl) (by intros; rfl)
    · exact h.same (by rfl) (by rfl) (.startDump p) (by intros; rfl) (by intros; rfl)
  | stopDump p => exact h.same (by rfl) (by rfl) (.stopDump p) (by intros; rfl) (by intros; rfl)
  | rawWire p k d =>
    refine h.same ?_ ?_ (.rawWire p k d) (by intros; rfl) (by intros; rfl) <;>
    · simp only [Vnic.step, linkWrite]; split <;> (try split) <;> rfl
  | data k d =>
    refine h.same ?_ ?_ (.data k d) (by intros; rfl) (by intros; rfl) <;>
    · simp only [Vnic.step, demux, demuxLocal, writeConn]; split <;> (try split) <;> (try split) <;> rfl
  | connected n =>
    simp only [Vnic.step]; split
    · exact h.same (by rfl) (by rfl) (.connected n) (by intros; rfl) (by intros; rfl)
    · exact h.same (by rfl) (by rfl) (.connected n) (by intros; rfl) (by intros; rfl)
  | failed n =>
    simp only [Vnic.step]; split
    · exact h.same (by exact (close_good _ _).up) (by exact (close_good _ _).ids) (.failed n) (by intros; rfl) (by intros; rfl)
    · exact h.same (by rfl) (by rfl) (.failed n) (by intros; rfl) (by intros; rfl)
  | finished n =>
    refine h.same ?_ ?_ (.finished n) (by intros; rfl) (by intros; rfl) <;>
    · simp only [Vnic.step]
      split
      · unfold spawnFinished; dsimp only
        split
        · rfl
        · unfold attach
          split
          · rfl
          · first | rw [(announce_same _ _ _ _).1] | rw [(announce_same _ _ _ _).2]
            split <;> rfl
      · rfl
  | lost n =>
    simp only [Vnic.step]; split
    · unfold closeSpawned
      split
      · exact h.same (by exact (close_good.conn _ _).up) (by exact (close_good.conn _ _).ids) (.lost n) (by intros; rfl) (by intros; rfl)
      · exact h.same (by exact (close_good _ _).up) (by exact (close_good _ _).ids) (.lost n) (by intros; rfl) (by intros; rfl)
    · exact h.same (by rfl) (by rfl) (.lost n) (by intros; rfl) (by intros; rfl)
  | reverse n d =>
    refine h.same ?_ ?_ (.reverse n d) (by intros; rfl) (by intros; rfl) <;>
    · simp only [Vnic.step, linkWrite]; split <;> (try split) <;> rfl
  | linkUp => exact h.same (by rfl) (by rfl) (.linkUp) (by intros; rfl) (by intros; rfl)
  | linkDown => exact h.same (by rfl) (by rfl) (.linkDown) (by intros; rfl) (by intros; rfl)

theorem Books.reachable (a : Str) (h : List Ev) : Books (exec (.init a) h) h.reverse := by
  induction h using List.reverseRecOn with
  | nil => exact ⟨List.nodup_nil, fun p => by simp [exec, St.init, isUp], fun p i => rfl⟩
  | append_singleton h e ih =>
    rw [exec_append, List.reverse_append]
    exact ih.step (Inv.reachable a h) e

/-- C35. Every connect or listen request on a live control connection is answered by exactly one response, with the id of the
request. It reports failure exactly when the id is in use or the port to listen on is taken; a successful listen reports the
requested port. (A connect request needs a free port, see `C31_exhausted`.) -/
theorem C35_response_partial (a : Str) (h : List Ev) (p i : Nat) (r : Req) (hup : isUp h.reverse p = true) (hr : r ≠ .other)
    (hfree : (∃ dst q, r = .connect dst q) → ∃ q, 2000 ≤ q ∧ q ≤ 65534 ∧ ∀ c, ¬ OpenOn (exec (.init a) h) c q) :
    ∃ resp, (exec (.init a) (h ++ [.openSocket p i r])).out = (exec (.init a) h).out ++ [.respond p i resp] ∧
      (resp = .busy ↔ idUsed h.reverse p i = true ∨ ∃ q, r = .listen q ∧ ∃ c, OpenOn (exec (.init a) h) c q) ∧
      ∀ q, r = .listen q → resp ≠ .busy → resp = .port q := by
  have hb := Books.reachable a h
  have hpu := (hb.up p).mpr hup
  by_cases hid : idUsed h.reverse p i = true
  · refine ⟨.busy, ?_, ⟨fun _ => .inl hid, fun _ => rfl⟩, fun _ _ e => absurd rfl e⟩
    rw [exec_append]
    generalize exec (.init a) h = s at *
    simp only [exec, step]
    rw [if_pos hpu]
    unfold openSocket
    rw [if_pos (by rw [hb.ids]; exact hid)]
    rfl
  · have hid' : ((exec (.init a) h).ids p).has i = false := by
      rw [hb.ids]; simpa using hid
    cases r with
    | other => exact absurd rfl hr
    | connect dst q =>
      obtain ⟨x, h1, _⟩ := C31_outbound a h p i q dst hpu hid' (hfree ⟨_, _, rfl⟩)
      refine ⟨.port x, h1, ?_, ?_⟩
      · constructor
        · intro e; cases e
        · rintro (e | ⟨q', e, _⟩)
          · exact absurd e hid
          · cases e
      · intro q' e; cases e
    | listen q =>
      obtain ⟨l1, l2⟩ := C31_listen a h p i q hpu hid'
      by_cases hc : ∃ c, OpenOn (exec (.init a) h) c q
      · exact ⟨.busy, (l1 hc).1, ⟨fun _ => .inr ⟨q, rfl, hc⟩, fun _ => rfl⟩, fun _ _ e => absurd rfl e⟩
      · refine ⟨.port q, (l2 (fun c h => hc ⟨c, h⟩)).1, ?_, ?_⟩
        · constructor
          · intro e; cases e
          · rintro (e | ⟨q', e, x⟩)
            · exact absurd e hid
            · cases e; exact absurd x hc
        · intro q' e _; cases e; rfl

/-- C35. No other event makes a response, and a response always has the control connection and id of the request. -/
theorem C35_only (a : Str) (h : List Ev) (e : Ev) :
    ∃ l, (exec (.init a) (h ++ [e])).out = (exec (.init a) h).out ++ l ∧
      ∀ p i resp, Eff.respond p i resp ∈ l → ∃ r, e = .openSocket p i r := by
  rw [exec_append]
  generalize exec (.init a) h = s
  simp only [exec]
  have closing : ∀ {x y : St}, Closes x y → x.out = s.out → ∃ l, y.out = s.out ++ l ∧
      ∀ p i resp, Eff.respond p i resp ∈ l → ∃ r, e = .openSocket p i r := by
    intro x y hc hx
    obtain ⟨l, e1, h1⟩ := hc.out
    refine ⟨l, by rw [e1, hx], ?_⟩
    intro p i resp hm
    obtain ⟨t, ht⟩ := h1 _ hm
    cases ht
  have same : ∀ {y : St}, y.out = s.out → ∃ l, y.out = s.out ++ l ∧
      ∀ p i resp, Eff.respond p i resp ∈ l → ∃ r, e = .openSocket p i r :=
    fun hy => ⟨[], by rw [hy, List.append_nil], by simp⟩
  have more : ∀ {y : St} {l : List Eff}, y.out = s.out ++ l → (∀ p i resp, Eff.respond p i resp ∉ l) →
      ∃ l, y.out = s.out ++ l ∧ ∀ p i resp, Eff.respond p i resp ∈ l → ∃ r, e = .openSocket p i r :=
    fun hy hl => ⟨_, hy, fun p i resp hm => absurd hm (hl p i resp)⟩
  cases e with
  | ctlMade p => exact same (by simp only [step]; split <;> rfl)
  | ctlLost p =>
    simp only [step]; split
    · obtain ⟨l, h1, h2⟩ := closing (closeAll_closes (s.ids p).vals { s with dumps := s.dumps.erase p }) rfl
      exact ⟨l, h1, h2⟩
    · exact same rfl
  | openSocket p i r =>
    simp only [step]; split
    · unfold openSocket
      split
      · exact ⟨[.respond p i .busy], rfl, fun p' i' x hm => by simp at hm; exact ⟨r, by rw [hm.1, hm.2.1]⟩⟩
      · split
        · unfold openConnect
          split
          · exact ⟨[.hang], rfl, fun p' i' x hm => by simp at hm⟩
          · next q _ => exact ⟨[.respond p i (.port q)], rfl, fun p' i' x hm => by
              simp at hm; exact ⟨_, by rw [hm.1, hm.2.1]⟩⟩
        · next q =>
          unfold openListen
          split
          · exact ⟨[.respond p i .busy], rfl, fun p' i' x hm => by
              simp at hm; exact ⟨_, by rw [hm.1, hm.2.1]⟩⟩
          · exact ⟨[.respond p i (.port q)], rfl, fun p' i' x hm => by
              simp at hm; exact ⟨_, by rw [hm.1, hm.2.1]⟩⟩
        · exact ⟨[.raised], rfl, fun p' i' x hm => by simp at hm⟩
    · exact same rfl
  | closeSocket p i =>
    simp only [step]; split
    · unfold closeId
      split
      · exact same rfl
      · next c _ =>
        obtain ⟨l, h1, h2⟩ := closing (close_good s c) rfl
        exact ⟨l, h1, h2⟩
    · exact same rfl
  | startDump p => exact same (by simp only [step]; split <;> rfl)
  | stopDump p => exact same rfl
  | rawWire p k d =>
    simp only [step, linkWrite]; split
    · split
      · exact more (l := [.link k d]) rfl (by simp)
      · exact same rfl
    · exact same rfl
  | data k d =>
    simp only [step, demux, demuxLocal]
    have hd : ∀ p i resp, Eff.respond p i resp ∉ s.dumps.map fun p => Eff.dump p k d := by
      intro p i resp hm
      obtain ⟨q, _, hq⟩ := List.mem_map.mp hm
      cases hq
    split
    · unfold writeConn
      split
      · exact more (l := s.dumps.map fun p => Eff.dump p k d) rfl hd
      · next t _ =>
        refine more (l := (s.dumps.map fun p => Eff.dump p k d) ++ [.write t d]) ?_ ?_
        · simp [St.emit, dumpAll]
        · intro p i resp hm
          rcases List.mem_append.mp hm with hm | hm
          · exact hd _ _ _ hm
          · simp at hm
    · split
      · exact more (l := s.dumps.map fun p => Eff.dump p k d) rfl hd
      · split
        · exact more (l := s.dumps.map fun p => Eff.dump p k d) rfl hd
        · exact more (l := s.dumps.map fun p => Eff.dump p k d) rfl hd
  | connected n => exact same (by simp only [step]; split <;> rfl)
  | failed n =>
    simp only [step]; split
    · exact closing (close_good _ _) rfl
    · exact same rfl
  | finished n =>
    simp only [step]
    split
    · unfold spawnFinished; dsimp only
      split
      · exact more (l := [.raised]) rfl (by simp)
      · unfold attach
        split
        · exact more (l := [.raised]) rfl (by simp)
        · next b _ =>
          obtain ⟨x, hx, hx'⟩ := announce_out _ _ _ _
          by_cases hb : b = []
          · exact more (l := [x]) (hx.trans (by dsimp only; rw [if_pos hb]; rfl)) (by simpa using fun p i r => (hx' p i r).symm)
          · exact more (l := [.write n b, x]) (hx.trans (by dsimp only; rw [if_neg hb]; simp [St.emit, St.setCtl]))
              (by simpa using fun p i r => (hx' p i r).symm)
    · exact same rfl
  | lost n =>
    simp only [step]; split
    · unfold closeSpawned
      split
      · exact closing (close_good.conn _ _) rfl
      · exact closing (close_good _ _) rfl
    · exact same rfl
  | reverse n d =>
    simp only [step, linkWrite]; split
    · split
      · exact more (l := [.link _ d]) rfl (by simp)
      · exact same rfl
    · exact same rfl
  | linkUp => exact same rfl
  | linkDown => exact same rfl

/-- The hypotheses of the theorems above hold after `Ex.h1`, for a used and an unused id and a taken and a free port. -/
example : isUp Ex.h1.reverse 1 = true ∧ idUsed Ex.h1.reverse 1 5 = true ∧ idUsed Ex.h1.reverse 1 6 = false ∧
    (exec (.init Ex.addr) (Ex.h1 ++ [.openSocket 1 5 (.listen 81), .openSocket 1 6 (.listen 80), .openSocket 1 7 (.listen 81),
      .openSocket 1 8 (.connect "2.2.2.2".toList 80), .closeSocket 1 7, .openSocket 1 7 (.listen 81)])).out =
    (exec (.init Ex.addr) Ex.h1).out ++ [.respond 1 5 .busy, .respond 1 6 .busy, .respond 1 7 (.port 81),
      .respond 1 8 (.port 2000), .respond 1 7 (.port 81)] := by decide +kernel

/-- C35 is false for an open packet that asks for both or for nothing: an exception, and no response. -/
theorem C35_false_other :
    (exec (.init Ex.addr) [.ctlMade 1, .openSocket 1 5 .other]).out = [.raised] := by decide +kernel

/-- C35, too: an id whose listen request was refused stays in use, so that a later request with this id for a free port is
refused although no socket has the id. -/
theorem C35_refused_keeps_id :
    (exec (.init Ex.addr) (Ex.h1 ++ [.openSocket 1 6 (.listen 80), .openSocket 1 6 (.listen 81)])).out =
    (exec (.init Ex.addr) Ex.h1).out ++ [.respond 1 6 .busy, .respond 1 6 .busy] := by decide +kernel

end Verif.Vnic
