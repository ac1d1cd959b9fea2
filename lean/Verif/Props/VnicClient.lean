import Verif.Spec.VnicClient
import Verif.Lemmas.Dict
/-! # C36: the VNIC client -/
namespace Verif.Cli

theorem exec_append (s : St) (a b : List Ev) : exec s (a ++ b) = exec (exec s a) b := by
  induction a generalizing s with
  | nil => rfl
  | cons e a ih => exact ih (step s e)

theorem sentIds_append (l m : List Eff) : sentIds (l ++ m) = sentIds l ++ sentIds m := by
  induction l with
  | nil => rfl
  | cons e l ih => cases e <;> simp [sentIds, ih]

theorem requests_append (a b : List Ev) : requests (a ++ b) = requests a + requests b := by
  induction a with
  | nil => simp [requests]
  | cons e a ih => cases e <;> simp [requests, ih]; omega

structure Inv (s : St) : Prop where
  wfa : Dict.WF s.apps
  wff : Dict.WF s.futures
  cnt : s.nFut = s.count
  apps : ∀ id, (∃ f, s.apps.get id = some f) ↔ 1 ≤ id ∧ id ≤ s.count
  entry : ∀ id k n, s.futures.get id = some (k, n) → id = n + 1 ∧ n < s.nFut
  pend : ∀ n, n < s.nFut → s.fut n = .pending → ∃ k, s.futures.get (n + 1) = some (k, n)
  ids : sentIds s.out = List.range' 1 s.count

theorem Inv.init : Inv .init where
  wfa := Dict.WF.nil
  wff := Dict.WF.nil
  cnt := rfl
  apps := fun id => by simp [St.init]; omega
  entry := fun id k n h => by simp [St.init] at h
  pend := fun n h => by simp [St.init] at h
  ids := rfl

theorem resolve_same (s : St) (n : Nat) (v : Fut) : (resolve s n v).count = s.count ∧ (resolve s n v).apps = s.apps ∧
    (resolve s n v).futures = s.futures ∧ (resolve s n v).nFut = s.nFut ∧ sentIds (resolve s n v).out = sentIds s.out := by
  unfold resolve
  split
  · exact ⟨rfl, rfl, rfl, rfl, rfl⟩
  · exact ⟨rfl, rfl, rfl, rfl, by simp [St.emit, sentIds_append, sentIds]⟩

theorem resolve_fut (s : St) (n : Nat) (v : Fut) (m : Nat) :
    (resolve s n v).fut m = if m = n ∧ s.fut n = .pending then v else s.fut m := by
  unfold resolve
  split
  · next h => simp [h]
  · next h =>
    rw [if_neg]
    · rfl
    · rintro ⟨_, e⟩; exact h e

theorem Inv.resolve {s : St} (h : Inv s) (id : Nat) (k : Kind) (n : Nat) (hg : s.futures.get id = some (k, n)) (v : Fut)
    (hv : v ≠ .pending) : Inv (resolve { s with futures := s.futures.del id } n v) := by
  obtain ⟨e1, e2, e3, e4, e5⟩ := resolve_same { s with futures := s.futures.del id } n v
  have hn := h.entry id k n hg
  refine ⟨by rw [e2]; exact h.wfa, by rw [e3]; exact h.wff.del id, by rw [e4, e1]; exact h.cnt, by rw [e2, e1]; exact h.apps,
    ?_, ?_, by rw [e5, e1]; exact h.ids⟩
  · intro id' k' n' hg'
    rw [e3, Dict.get_del h.wff] at hg'
    rw [e4]
    split at hg'
    · cases hg'
    · exact h.entry id' k' n' hg'
  · intro m hm hp
    rw [e4] at hm
    rw [resolve_fut] at hp
    rw [e3, Dict.get_del h.wff]
    by_cases hmn : m = n
    · subst hmn
      split at hp
      · exact absurd hp hv
      · next hc => exact absurd ⟨rfl, hp⟩ hc
    · rw [if_neg (fun e => hmn e.1)] at hp
      rw [if_neg (by omega)]
      exact h.pend m hm hp

theorem Inv.emit {s : St} (h : Inv s) (e : Eff) (he : sentIds [e] = []) : Inv (s.emit e) :=
  ⟨h.wfa, h.wff, h.cnt, h.apps, h.entry, h.pend, by simp [St.emit, sentIds_append, he, h.ids]⟩

theorem Inv.step {s : St} (h : Inv s) (e : Ev) : Inv (step s e) := by
  cases e with
  | request k f =>
    refine ⟨h.wfa.set _ _, h.wff.set _ _, ?_, ?_, ?_, ?_, ?_⟩
    · show s.nFut + 1 = s.count + 1; rw [h.cnt]
    · intro id
      show (∃ f', (s.apps.set (s.count + 1) f).get id = some f') ↔ 1 ≤ id ∧ id ≤ s.count + 1
      rw [Dict.get_set]
      split
      · next e => subst e; exact ⟨fun _ => by omega, fun _ => ⟨f, rfl⟩⟩
      · rw [h.apps]; omega
    · intro id k' n hg
      have hg' : (s.futures.set (s.count + 1) (k, s.nFut)).get id = some (k', n) := hg
      show id = n + 1 ∧ n < s.nFut + 1
      rw [Dict.get_set] at hg'
      split at hg'
      · next e => cases hg'; exact ⟨by rw [h.cnt]; exact e.symm, by omega⟩
      · have := h.entry id k' n hg'; omega
    · intro n hn hp
      have hn' : n < s.nFut + 1 := hn
      show ∃ k', (s.futures.set (s.count + 1) (k, s.nFut)).get (n + 1) = some (k', n)
      rw [Dict.get_set]
      by_cases hl : n = s.nFut
      · rw [if_pos (by rw [hl, h.cnt])]; exact ⟨k, by rw [hl]⟩
      · rw [if_neg (by rw [← h.cnt]; omega)]
        refine h.pend n (by omega) ?_
        have : (if n = s.nFut then Fut.pending else s.fut n) = .pending := hp
        rw [if_neg hl] at this; exact this
    · show sentIds (s.out ++ [.request (s.count + 1) k]) = List.range' 1 (s.count + 1)
      rw [sentIds_append, h.ids, List.range'_1_concat]
      simp [sentIds, Nat.add_comm]
  | response id r =>
    simp only [Cli.step, response]
    split
    · exact h
    · next k n hg =>
      cases r with
      | failure c => exact h.resolve id k n hg _ Fut.noConfusion
      | port p =>
        cases k with
        | listen => exact h.resolve id _ n hg _ Fut.noConfusion
        | connect => exact h
  | spawned id t p =>
    simp only [Cli.step, spawned]
    split
    · exact h.emit _ rfl
    · next f _ =>
      split
      · next n hg =>
        exact (h.emit (.complete id .connect f t) rfl).resolve id _ n hg _ Fut.noConfusion
      · exact h.emit _ rfl
      · exact h.emit _ rfl
  | cancel n =>
    simp only [Cli.step]
    split
    · next hp =>
      split
      · refine ⟨h.wfa, h.wff, h.cnt, h.apps, h.entry, ?_, h.ids⟩
        intro m hm hpm
        have : (if m = n then Fut.cancelled else s.fut m) = .pending := hpm
        split at this
        · cases this
        · exact h.pend m hm this
      · exact h
    · exact h

theorem Inv.exec : ∀ (h : List Ev) {s : St}, Inv s → Inv (exec s h)
  | [], _, hi => hi
  | e :: h, _, hi => Inv.exec h (hi.step e)

theorem Inv.reachable (h : List Ev) : Inv (Cli.exec .init h) := Inv.exec h .init

theorem step_count (s : St) (e : Ev) : (step s e).count = s.count + requests [e] := by
  cases e with
  | request k f => rfl
  | response id r =>
    simp only [step, response]
    split
    · rfl
    · cases r with
      | failure c => exact (resolve_same _ _ _).1
      | port p =>
        next k n _ => cases k with
        | listen => exact (resolve_same _ _ _).1
        | connect => rfl
  | spawned id t p =>
    simp only [step, spawned]
    split
    · rfl
    · split
      · exact (resolve_same _ _ _).1
      · rfl
      · rfl
  | cancel n =>
    simp only [step]
    split
    · split <;> rfl
    · rfl

theorem exec_count : ∀ (h : List Ev) (s : St), (exec s h).count = s.count + requests h
  | [], s => rfl
  | e :: h, s => by
    rw [exec, exec_count h, step_count, show e :: h = [e] ++ h from rfl, requests_append]; omega

/-- C36. The ids sent are 1, 2, 3, ..., one for each request; so they are distinct. -/
theorem C36_ids (h : List Ev) : sentIds (exec .init h).out = List.range' 1 (requests h) ∧ (sentIds (exec .init h).out).Nodup := by
  have : (exec .init h).count = requests h := by rw [exec_count]; simp [St.init]
  rw [(Inv.reachable h).ids, this]
  exact ⟨rfl, List.nodup_range'⟩

/-- Once a future is not pending, no event changes it. -/
theorem step_done {s : St} (hi : Inv s) (e : Ev) (n : Nat) (hn : n < s.nFut) (hd : s.fut n ≠ .pending) :
    (step s e).fut n = s.fut n := by
  cases e with
  | request k f =>
    show (if n = s.nFut then Fut.pending else s.fut n) = _
    rw [if_neg (by omega)]
  | response id r =>
    simp only [step, response]
    split
    · rfl
    · next k m hg =>
      have : ∀ v (x : St), x.fut = s.fut → (resolve x m v).fut n = s.fut n := by
        intro v x hx
        rw [resolve_fut, hx]
        by_cases e : n = m
        · subst e; rw [if_neg (fun h => hd h.2)]
        · rw [if_neg (fun h => e h.1)]
      cases r with
      | failure c => exact this _ _ rfl
      | port p =>
        cases k with
        | listen => exact this _ _ rfl
        | connect => rfl
  | spawned id t p =>
    simp only [step, spawned]
    split
    · rfl
    · split
      · next m hg =>
        rw [resolve_fut]
        by_cases e : n = m
        · subst e; exact if_neg (fun h => hd h.2)
        · exact if_neg (fun h => e h.1)
      · rfl
      · rfl
  | cancel m =>
    simp only [step]
    split
    · next hp =>
      split
      · show (if n = m then Fut.cancelled else s.fut n) = _
        rw [if_neg]
        rintro rfl; exact hd hp
      · rfl
    · rfl

theorem exec_done : ∀ (h : List Ev) {s : St}, Inv s → ∀ n, n < s.nFut → s.fut n ≠ .pending → (exec s h).fut n = s.fut n
  | [], _, _, _, _, _ => rfl
  | e :: h, s, hi, n, hn, hd => by
    have h1 := step_done hi e n hn hd
    have h2 : s.nFut ≤ (step s e).nFut := by
      rw [(hi.step e).cnt, hi.cnt, step_count]; omega
    rw [exec, exec_done h (hi.step e) n (by omega) (by rw [h1]; exact hd), h1]

/-- What a pending future's entry says. -/
theorem outcome_exec (k : Kind) (n : Nat) : ∀ (h : List Ev) (s : St), Inv s → n < s.nFut → s.fut n = .pending →
    s.futures.get (n + 1) = some (k, n) → (exec s h).fut n = outcome k n h
  | [], s, _, _, hp, _ => hp
  | e :: h, s, hi, hn, hp, hg => by
    have hlt : n < (step s e).nFut := by
      rw [(hi.step e).cnt, step_count]; rw [hi.cnt] at hn; omega
    -- either the event decides, or the situation is unchanged
    have fin : ∀ v, v ≠ .pending → (step s e).fut n = v → (exec (step s e) h).fut n = v := by
      intro v hv hs
      rw [exec_done h (hi.step e) n hlt (by rw [hs]; exact hv), hs]
    have cont : (step s e).fut n = .pending → (step s e).futures.get (n + 1) = some (k, n) →
        (exec (step s e) h).fut n = outcome k n h :=
      fun a b => outcome_exec k n h (step s e) (hi.step e) hlt a b
    show (exec (step s e) h).fut n = _
    cases e with
    | cancel m =>
      simp only [outcome]
      by_cases hm : m = n
      · rw [if_pos hm]
        refine fin _ Fut.noConfusion ?_
        simp only [step]
        rw [hm, hp]
        dsimp only
        rw [if_pos hn]
        exact if_pos rfl
      · rw [if_neg hm]
        refine cont ?_ ?_
        · simp only [step]
          split
          · split
            · show (if n = m then Fut.cancelled else s.fut n) = _
              rw [if_neg (Ne.symm hm)]; exact hp
            · exact hp
          · exact hp
        · rw [← hg]; simp only [step]
          split
          · split <;> rfl
          · rfl
    | request k' f =>
      simp only [outcome]
      refine cont ?_ ?_
      · show (if n = s.nFut then Fut.pending else s.fut n) = _
        rw [if_neg (by omega)]; exact hp
      · show (s.futures.set (s.count + 1) (k', s.nFut)).get (n + 1) = _
        rw [Dict.get_set, if_neg (by rw [← hi.cnt]; omega)]; exact hg
    | response id r =>
      simp only [outcome]
      by_cases hid : id = n + 1
      · rw [if_pos hid]
        subst hid
        have dec : ∀ v, v ≠ .pending → step s (.response (n + 1) r) = resolve { s with futures := s.futures.del (n + 1) } n v →
            (exec (step s (.response (n + 1) r)) h).fut n = v := by
          intro v hv hs
          refine fin v hv ?_
          rw [hs, resolve_fut]
          exact if_pos ⟨rfl, hp⟩
        cases r with
        | failure c =>
          refine dec _ Fut.noConfusion ?_
          simp only [step, response, hg]
        | port p =>
          cases k with
          | listen =>
            refine dec _ Fut.noConfusion ?_
            simp only [step, response, hg]
          | connect =>
            have : step s (.response (n + 1) (.port p)) = s := by simp only [step, response, hg]
            exact cont (by rw [this]; exact hp) (by rw [this]; exact hg)
      · rw [if_neg hid]
        have oth : ∀ k' m v, s.futures.get id = some (k', m) → 
            (resolve { s with futures := s.futures.del id } m v).fut n = .pending ∧
            (resolve { s with futures := s.futures.del id } m v).futures.get (n + 1) = some (k, n) := by
          intro k' m v hm
          have := hi.entry id k' m hm
          constructor
          · rw [resolve_fut, if_neg (by omega)]; exact hp
          · rw [(resolve_same _ _ _).2.2.1]
            show (s.futures.del id).get (n + 1) = _
            rw [Dict.get_del hi.wff, if_neg hid]; exact hg
        have hs : (step s (.response id r)).fut n = .pending ∧ (step s (.response id r)).futures.get (n + 1) = some (k, n) := by
          simp only [step, response]
          split
          · exact ⟨hp, hg⟩
          · next k' m hm =>
            cases r with
            | failure c => exact oth _ _ _ hm
            | port p =>
              cases k' with
              | listen => exact oth _ _ _ hm
              | connect => exact ⟨hp, hg⟩
        exact cont hs.1 hs.2
    | spawned id t p =>
      simp only [outcome]
      obtain ⟨f, hf⟩ := (hi.apps (n + 1)).mpr (by rw [← hi.cnt]; omega)
      by_cases hid : id = n + 1
      · subst hid
        cases k with
        | connect =>
          rw [if_pos ⟨rfl, rfl⟩]
          refine fin _ Fut.noConfusion ?_
          simp only [step, spawned, hf, hg]
          rw [resolve_fut]
          exact if_pos ⟨rfl, hp⟩
        | listen =>
          rw [if_neg (by simp)]
          refine cont ?_ ?_
          · simp only [step, spawned, hf, hg]; exact hp
          · simp only [step, spawned, hf, hg]; exact hg
      · rw [if_neg (fun e => hid e.1)]
        have hs : (step s (.spawned id t p)).fut n = .pending ∧ (step s (.spawned id t p)).futures.get (n + 1) = some (k, n) := by
          simp only [step, spawned]
          split
          · exact ⟨hp, hg⟩
          · split
            · next m hm =>
              have := hi.entry id _ m hm
              constructor
              · rw [resolve_fut, if_neg (by omega)]; exact hp
              · rw [(resolve_same _ _ _).2.2.1]
                show (s.futures.del id).get (n + 1) = _
                rw [Dict.get_del hi.wff, if_neg hid]; exact hg
            · exact ⟨hp, hg⟩
            · exact ⟨hp, hg⟩
        exact cont hs.1 hs.2

/-- C36. The future of a request is decided by the first event after the request that concerns it — its own cancellation, a
failure response with its id, the response with its id (listen), the announcement with its id (connect) — and by nothing
else; it never changes afterwards. This for every interleaving with other requests, responses and announcements. -/
theorem C36_future (h1 h2 : List Ev) (k : Kind) (f : Nat) :
    (exec .init (h1 ++ .request k f :: h2)).fut (requests h1) = outcome k (requests h1) h2 := by
  have hi := Inv.reachable h1
  have hc : (exec .init h1).count = requests h1 := by rw [exec_count]; simp [St.init]
  have hn := hi.cnt.trans hc
  rw [exec_append, exec]
  refine outcome_exec k (requests h1) h2 _ (hi.step _) ?_ ?_ ?_
  · show requests h1 < (exec .init h1).nFut + 1
    omega
  · show (if requests h1 = (exec .init h1).nFut then Fut.pending else _) = _
    rw [if_pos hn.symm]
  · show ((exec .init h1).futures.set ((exec .init h1).count + 1) (k, (exec .init h1).nFut)).get (requests h1 + 1) = _
    rw [hc, hn, Dict.get_set_self]

/-- C36. A response whose id is unknown, or whose request is already decided, changes nothing. -/
theorem C36_unknown_response (h : List Ev) (id : Nat) (r : Resp) (hid : (exec .init h).futures.get id = none) :
    exec .init (h ++ [.response id r]) = exec .init h := by
  rw [exec_append]
  simp only [exec, step, response, hid]

/-- C36. An id that was never sent has no future. -/
theorem C36_unknown_id (h : List Ev) (id : Nat) (hid : id ∉ sentIds (exec .init h).out) : (exec .init h).futures.get id = none := by
  have hi := Inv.reachable h
  cases hg : (exec .init h).futures.get id with
  | none => rfl
  | some x =>
    have := hi.entry id x.1 x.2 hg
    rw [hi.ids, List.mem_range'_1] at hid
    exact absurd (by rw [← hi.cnt]; omega) hid

/-- No future is decided twice: without cancellations `InvalidStateError` never occurs. -/
theorem step_valid {s : St} (hi : Inv s) (hl : ∀ id k n, s.futures.get id = some (k, n) → s.fut n = .pending) (e : Ev)
    (he : ∀ n, e ≠ .cancel n) (ho : Eff.invalidState ∉ s.out) : Eff.invalidState ∉ (step s e).out ∧
      ∀ id k n, (step s e).futures.get id = some (k, n) → (step s e).fut n = .pending := by
  have res : ∀ (x : St) id k n v, x.fut = s.fut → Eff.invalidState ∉ x.out → s.futures.get id = some (k, n) →
      x.futures = s.futures.del id → Eff.invalidState ∉ (resolve x n v).out ∧
      ∀ id' k' n', (resolve x n v).futures.get id' = some (k', n') → (resolve x n v).fut n' = .pending := by
    intro x id k n v hx hxo hg hxf
    have hp := hl id k n hg
    constructor
    · unfold resolve; rw [hx, hp]; exact hxo
    · intro id' k' n' hg'
      rw [(resolve_same _ _ _).2.2.1, hxf, Dict.get_del hi.wff] at hg'
      split at hg'
      · cases hg'
      · next hne =>
        have a1 := hi.entry id k n hg
        have a2 := hi.entry id' k' n' hg'
        rw [resolve_fut, if_neg (by omega), hx]
        exact hl id' k' n' hg'
  cases e with
  | cancel n => exact absurd rfl (he n)
  | request k f =>
    refine ⟨?_, ?_⟩
    · show Eff.invalidState ∉ s.out ++ _
      simpa using ho
    · intro id k' n hg
      have hg' : (s.futures.set (s.count + 1) (k, s.nFut)).get id = some (k', n) := hg
      show (if n = s.nFut then Fut.pending else s.fut n) = _
      rw [Dict.get_set] at hg'
      split
      · rfl
      · next hne =>
        split at hg'
        · cases hg'; exact absurd rfl hne
        · exact hl id k' n hg'
  | response id r =>
    simp only [step, response]
    split
    · exact ⟨ho, hl⟩
    · next k n hg =>
      cases r with
      | failure c => exact res _ id k n _ rfl ho hg rfl
      | port p =>
        cases k with
        | listen => exact res _ id _ n _ rfl ho hg rfl
        | connect => exact ⟨ho, hl⟩
  | spawned id t p =>
    simp only [step, spawned]
    split
    · exact ⟨by simpa [St.emit] using ho, hl⟩
    · split
      · next n hg => exact res _ id _ n _ rfl (by simpa [St.emit] using ho) hg rfl
      · exact ⟨by simpa [St.emit] using ho, hl⟩
      · exact ⟨by simpa [St.emit] using ho, hl⟩

/-- C36. Without cancellations the client never tries to decide a future a second time. -/
theorem C36_at_most_once (h : List Ev) (hc : ∀ n, Ev.cancel n ∉ h) : Eff.invalidState ∉ (exec .init h).out := by
  have : ∀ (h : List Ev) (s : St), Inv s → (∀ id k n, s.futures.get id = some (k, n) → s.fut n = .pending) →
      (∀ n, Ev.cancel n ∉ h) → Eff.invalidState ∉ s.out → Eff.invalidState ∉ (exec s h).out := by
    intro h
    induction h with
    | nil => intro s _ _ _ ho; exact ho
    | cons e h ih =>
      intro s hi hl hc ho
      have h1 := step_valid hi hl e (fun n he => hc n (by rw [he]; exact List.mem_cons_self ..)) ho
      exact ih _ (hi.step e) h1.2 (fun n hm => hc n (List.mem_cons_of_mem _ hm)) h1.1
  exact this h .init .init (by intro id k n hg; simp [St.init] at hg) hc (by simp [St.init])

/-- How one event changes the entry of a request. -/
theorem step_entry {s : St} (hi : Inv s) (e : Ev) (n : Nat) (hn : n < s.nFut) :
    (step s e).futures.get (n + 1) = s.futures.get (n + 1) ∨
    ((step s e).futures.get (n + 1) = none ∧ ∃ k, s.futures.get (n + 1) = some (k, n) ∧
      ((∃ c, e = .response (n + 1) (.failure c)) ∨ (k = .listen ∧ ∃ p, e = .response (n + 1) (.port p)) ∨
       (k = .connect ∧ ∃ t p, e = .spawned (n + 1) t p))) := by
  have del : ∀ (x : St) id m v, x.futures = s.futures.del id → id ≠ n + 1 →
      (resolve x m v).futures.get (n + 1) = s.futures.get (n + 1) := by
    intro x id m v hx hne
    rw [(resolve_same _ _ _).2.2.1, hx, Dict.get_del hi.wff, if_neg hne]
  have del' : ∀ (x : St) m v, x.futures = s.futures.del (n + 1) → (resolve x m v).futures.get (n + 1) = none := by
    intro x m v hx
    rw [(resolve_same _ _ _).2.2.1, hx, Dict.get_del hi.wff, if_pos rfl]
  cases e with
  | request k f =>
    left
    show (s.futures.set (s.count + 1) (k, s.nFut)).get (n + 1) = _
    rw [Dict.get_set, if_neg (by rw [← hi.cnt]; omega)]
  | cancel m =>
    left
    simp only [step]
    split
    · split <;> rfl
    · rfl
  | response id r =>
    simp only [step, response]
    split
    · exact .inl rfl
    · next k m hg =>
      by_cases hid : id = n + 1
      · subst hid
        have hm := hi.entry _ _ _ hg
        have : m = n := by omega
        subst this
        cases r with
        | failure c => exact .inr ⟨del' _ _ _ rfl, k, hg, .inl ⟨c, rfl⟩⟩
        | port p =>
          cases k with
          | listen => exact .inr ⟨del' _ _ _ rfl, _, hg, .inr (.inl ⟨rfl, p, rfl⟩)⟩
          | connect => exact .inl rfl
      · left
        cases r with
        | failure c => exact del _ _ _ _ rfl hid
        | port p =>
          cases k with
          | listen => exact del _ _ _ _ rfl hid
          | connect => rfl
  | spawned id t p =>
    simp only [step, spawned]
    split
    · exact .inl rfl
    · split
      · next m hg =>
        by_cases hid : id = n + 1
        · subst hid
          have hm := hi.entry _ _ _ hg
          have : m = n := by omega
          subst this
          exact .inr ⟨del' _ _ _ rfl, _, hg, .inr (.inr ⟨rfl, t, p, rfl⟩)⟩
        · exact .inl (del _ _ _ _ rfl hid)
      · exact .inl rfl
      · exact .inl rfl

theorem entry_gone (n : Nat) : ∀ (h : List Ev) (s : St), Inv s → n < s.nFut → s.futures.get (n + 1) = none →
    (exec s h).futures.get (n + 1) = none
  | [], _, _, _, hg => hg
  | e :: h, s, hi, hn, hg => by
    have hlt : n < (step s e).nFut := by rw [(hi.step e).cnt, step_count]; rw [hi.cnt] at hn; omega
    refine entry_gone n h (step s e) (hi.step e) hlt ?_
    rcases step_entry hi e n hn with h1 | ⟨h1, _⟩
    · rw [h1]; exact hg
    · exact h1

theorem entry_exec (k : Kind) (n : Nat) : ∀ (h : List Ev) (s : St), Inv s → n < s.nFut → s.futures.get (n + 1) = some (k, n) →
    (exec s h).futures.get (n + 1) = if outcome k n (uncancelled h) = .pending then some (k, n) else none
  | [], s, _, _, hg => by simpa [uncancelled, outcome, exec] using hg
  | e :: h, s, hi, hn, hg => by
    have hlt : n < (step s e).nFut := by rw [(hi.step e).cnt, step_count]; rw [hi.cnt] at hn; omega
    have ih := entry_exec k n h (step s e) (hi.step e) hlt
    have gone := entry_gone n h (step s e) (hi.step e) hlt
    obtain ⟨f, hf⟩ := (hi.apps (n + 1)).mpr (by rw [← hi.cnt]; omega)
    have drop : ∀ (x : St) v, x.futures = s.futures.del (n + 1) → (resolve x n v).futures.get (n + 1) = none := by
      intro x v hx
      rw [(resolve_same _ _ _).2.2.1, hx, Dict.get_del hi.wff, if_pos rfl]
    show (exec (step s e) h).futures.get (n + 1) = _
    have keep : (∀ c, e ≠ .response (n + 1) (.failure c)) → (k = .listen → ∀ p, e ≠ .response (n + 1) (.port p)) →
        (k = .connect → ∀ t p, e ≠ .spawned (n + 1) t p) → (step s e).futures.get (n + 1) = some (k, n) := by
      intro a1 a2 a3
      rcases step_entry hi e n hn with h1 | ⟨_, k', h2, h3⟩
      · rw [h1]; exact hg
      · rw [hg] at h2
        cases h2
        rcases h3 with ⟨c, h3⟩ | ⟨hk, p, h3⟩ | ⟨hk, t, p, h3⟩
        · exact absurd h3 (a1 c)
        · exact absurd h3 (a2 hk p)
        · exact absurd h3 (a3 hk t p)
    cases e with
    | request k' f' => exact ih (keep (by simp) (by simp) (by simp))
    | cancel m => exact ih (keep (by simp) (by simp) (by simp))
    | response id r =>
      show _ = if outcome k n (.response id r :: uncancelled h) = .pending then _ else _
      by_cases hid : id = n + 1
      · subst hid
        cases r with
        | failure c =>
          have ho : outcome k n (.response (n + 1) (.failure c) :: uncancelled h) = .error c := by simp [outcome]
          rw [ho, if_neg (by simp)]
          refine gone ?_
          simp only [step, response, hg]; exact drop _ _ rfl
        | port p =>
          cases k with
          | listen =>
            have ho : outcome .listen n (.response (n + 1) (.port p) :: uncancelled h) = .result (n + 1) p := by simp [outcome]
            rw [ho, if_neg (by simp)]
            refine gone ?_
            simp only [step, response, hg]; exact drop _ _ rfl
          | connect =>
            have ho : outcome .connect n (.response (n + 1) (.port p) :: uncancelled h) = outcome .connect n (uncancelled h) := by
              simp [outcome]
            rw [ho]
            exact ih (keep (by simp) (by simp) (by simp))
      · have ho : outcome k n (.response id r :: uncancelled h) = outcome k n (uncancelled h) := by simp [outcome, hid]
        rw [ho]
        exact ih (keep (by simp [hid]) (by simp [hid]) (by simp))
    | spawned id t p =>
      show _ = if outcome k n (.spawned id t p :: uncancelled h) = .pending then _ else _
      by_cases hid : id = n + 1 ∧ k = .connect
      · obtain ⟨rfl, rfl⟩ := hid
        have ho : outcome .connect n (.spawned (n + 1) t p :: uncancelled h) = .result (n + 1) p := by simp [outcome]
        rw [ho, if_neg (by simp)]
        refine gone ?_
        simp only [step, spawned, hf, hg]; exact drop _ _ rfl
      · have ho : outcome k n (.spawned id t p :: uncancelled h) = outcome k n (uncancelled h) := by
          simp only [outcome]; rw [if_neg hid]
        rw [ho]
        exact ih (keep (by simp) (by simp) (by intro hk t' p' e; cases e; exact hid ⟨rfl, hk⟩))

theorem step_apps {s : St} (e : Ev) (id : Nat) (hid : id ≤ s.count) : (step s e).apps.get id = s.apps.get id := by
  cases e with
  | request k f =>
    show (s.apps.set (s.count + 1) f).get id = _
    rw [Dict.get_set, if_neg (by omega)]
  | response id r =>
    simp only [step, response]
    split
    · rfl
    · cases r with
      | failure c => rw [(resolve_same _ _ _).2.1]
      | port p =>
        next k n _ => cases k with
        | listen => rw [(resolve_same _ _ _).2.1]
        | connect => rfl
  | spawned id t p =>
    simp only [step, spawned]
    split
    · rfl
    · split
      · rw [(resolve_same _ _ _).2.1]; rfl
      · rfl
      · rfl
  | cancel n =>
    simp only [step]
    split
    · split <;> rfl
    · rfl

theorem exec_apps : ∀ (h : List Ev) (s : St) (id : Nat), id ≤ s.count → (exec s h).apps.get id = s.apps.get id
  | [], _, _, _ => rfl
  | e :: h, s, id, hid => by
    rw [exec, exec_apps h _ id (by rw [step_count]; omega), step_apps e id hid]

/-- C36. Each announcement for the id of a request is passed on to the callback service at once and once, with the application of
that request; as a connect if it is a connect request not yet completed or failed, else as a listen. -/
theorem C36_announced (h1 h2 : List Ev) (k : Kind) (f t p : Nat) :
    let before := exec .init (h1 ++ .request k f :: h2)
    let k' := if k = .connect ∧ outcome k (requests h1) (uncancelled h2) = .pending then Kind.connect else Kind.listen
    ∃ l, (exec .init (h1 ++ .request k f :: (h2 ++ [.spawned (requests h1 + 1) t p]))).out =
        before.out ++ .complete (requests h1 + 1) k' f t :: l ∧ (l = [] ∨ l = [.invalidState]) := by
  intro before k'
  have hi := Inv.reachable h1
  have hc : (exec .init h1).count = requests h1 := by rw [exec_count]; simp [St.init]
  have hn := hi.cnt.trans hc
  have hb : before = exec (step (exec .init h1) (.request k f)) h2 := by
    show exec _ _ = _
    rw [exec_append]; rfl
  have he : exec .init (h1 ++ .request k f :: (h2 ++ [.spawned (requests h1 + 1) t p])) =
      step before (.spawned (requests h1 + 1) t p) := by
    rw [hb, exec_append]; show exec (step _ _) _ = _; rw [exec_append]; rfl
  have hg : before.futures.get (requests h1 + 1) =
      if outcome k (requests h1) (uncancelled h2) = .pending then some (k, requests h1) else none := by
    rw [hb]
    refine entry_exec k (requests h1) h2 _ (hi.step _) ?_ ?_
    · show requests h1 < (exec .init h1).nFut + 1
      omega
    · show ((exec .init h1).futures.set ((exec .init h1).count + 1) (k, (exec .init h1).nFut)).get (requests h1 + 1) = _
      rw [hc, hn, Dict.get_set_self]
  have ha : before.apps.get (requests h1 + 1) = some f := by
    rw [hb, exec_apps]
    · show ((exec .init h1).apps.set ((exec .init h1).count + 1) f).get (requests h1 + 1) = _
      rw [hc, Dict.get_set_self]
    · rw [step_count, hc]; exact Nat.le_refl _
  rw [he]
  simp only [step, spawned, ha]
  by_cases hp : outcome k (requests h1) (uncancelled h2) = .pending
  · rw [if_pos hp] at hg
    cases k with
    | connect =>
      have : k' = .connect := if_pos ⟨rfl, hp⟩
      rw [hg, this]
      dsimp only
      unfold resolve
      split
      · exact ⟨[], rfl, .inl rfl⟩
      · exact ⟨[.invalidState], by simp [St.emit], .inr rfl⟩
    | listen =>
      have : k' = .listen := if_neg (by simp)
      rw [hg, this]
      exact ⟨[], rfl, .inl rfl⟩
  · rw [if_neg hp] at hg
    have : k' = .listen := if_neg (fun h => hp h.2)
    rw [hg, this]
    exact ⟨[], rfl, .inl rfl⟩

/-- C36 is false for announcements with unknown ids: they raise `KeyError` out of `data_received`. -/
theorem C36_false_unknown_announcement : (exec .init [.request .connect 7, .spawned 5 1234 80]).out = [.request 1 .connect, .keyError] := by
  decide +kernel

/-- A second announcement for a connect request is treated as one for a listening socket: the application gets a connection with
the server's protocol stack. -/
theorem C36_second_announcement : (exec .init [.request .connect 7, .spawned 1 1234 2000, .spawned 1 1235 2000]).out =
    [.request 1 .connect, .complete 1 .connect 7 1234, .complete 1 .listen 7 1235] := by
  decide +kernel

/-- A case with interleaved requests and out of order answers. -/
example :
    let h := [Ev.request .listen 4, .response 2 (.port 2000), .response 3 (.failure 1), .spawned 1 99 2000, .spawned 2 98 80, .response 2 (.port 80)]
    let s := exec .init ([.request .connect 7, .response 1 (.port 2000), .request .listen 8] ++ h)
    s.fut 0 = .result 1 2000 ∧ s.fut 1 = .result 2 2000 ∧ s.fut 2 = .error 1 ∧ outcome .connect 0 (.request .listen 8 :: h) = .result 1 2000 ∧
    s.futures.get 1 = none ∧ s.apps.get 3 = some 4 := by decide +kernel

end Verif.Cli
