import Verif.Spec.Connector
import Verif.Props.VnicClient
import Verif.Props.Callback
/-! # Lemmas about the connector -/
namespace Verif.Cli

/-- The id in a result is the id of the request. -/
def Honest (s : St) : Prop := ∀ n id p, s.fut n = .result id p → id = n + 1

theorem Honest.resolve {s : St} (h : Honest s) (n : Nat) (v : Fut) (hv : ∀ id p, v = .result id p → id = n + 1) :
    Honest (resolve s n v) := by
  intro m id p hm
  rw [resolve_fut] at hm
  split at hm
  · next e => rw [e.1]; exact hv id p hm
  · exact h m id p hm

theorem Honest.step {s : St} (hi : Inv s) (h : Honest s) (e : Ev) : Honest (step s e) := by
  cases e with
  | request k f =>
    intro n id p hn
    have : (if n = s.nFut then Fut.pending else s.fut n) = .result id p := hn
    split at this
    · cases this
    · exact h n id p this
  | response id r =>
    simp only [Cli.step, response]
    split
    · exact h
    · next k n hg =>
      have := hi.entry id k n hg
      cases r with
      | failure c => exact Honest.resolve (s := { s with futures := s.futures.del id }) h n _ (fun _ _ e => Fut.noConfusion e)
      | port p =>
        cases k with
        | listen =>
          exact Honest.resolve (s := { s with futures := s.futures.del id }) h n _ (fun _ _ e => by cases e; exact this.1)
        | connect => exact h
  | spawned id t p =>
    simp only [Cli.step, spawned]
    split
    · exact h
    · next f _ =>
      split
      · next n hg =>
        have := hi.entry id _ n hg
        exact Honest.resolve (s := { s.emit (.complete id .connect f t) with futures := s.futures.del id }) h n _
          (fun _ _ e => by cases e; exact this.1)
      · exact h
      · exact h
  | cancel n =>
    simp only [Cli.step]
    split
    · split
      · intro m id p hm
        have : (if m = n then Fut.cancelled else s.fut m) = .result id p := hm
        split at this
        · cases this
        · exact h m id p this
      · exact h
    · exact h

theorem Honest.init : Honest .init := fun _ _ _ e => nomatch e

/-- Futures that are not made yet are pending. -/
def Unused (s : St) : Prop := ∀ n, s.nFut ≤ n → s.fut n = .pending

theorem Unused.resolve {s : St} (h : Unused s) {n : Nat} (hn : n < s.nFut) (v : Fut) : Unused (resolve s n v) := by
  intro m hm
  rw [(resolve_same s n v).2.2.2.1] at hm
  rw [resolve_fut, if_neg (fun e => by have := e.1; omega)]
  exact h m hm

theorem Unused.step {s : St} (hi : Inv s) (h : Unused s) (e : Ev) : Unused (step s e) := by
  cases e with
  | request k f =>
    intro n hn
    have hn' : s.nFut + 1 ≤ n := hn
    show (if n = s.nFut then Fut.pending else s.fut n) = .pending
    split
    · rfl
    · exact h n (by omega)
  | response id r =>
    simp only [Cli.step, response]
    split
    · exact h
    · next k n hg =>
      have := hi.entry id k n hg
      cases r with
      | failure c => exact Unused.resolve (s := { s with futures := s.futures.del id }) h this.2 _
      | port p =>
        cases k with
        | listen => exact Unused.resolve (s := { s with futures := s.futures.del id }) h this.2 _
        | connect => exact h
  | spawned id t p =>
    simp only [Cli.step, spawned]
    split
    · exact h
    · next f _ =>
      split
      · next n hg =>
        have := hi.entry id _ n hg
        exact Unused.resolve (s := { s.emit (.complete id .connect f t) with futures := s.futures.del id }) h this.2 _
      · exact h
      · exact h
  | cancel n =>
    simp only [Cli.step]
    split
    · split
      · next hn =>
        intro m hm
        have hm' : s.nFut ≤ m := hm
        show (if m = n then Fut.cancelled else s.fut m) = .pending
        rw [if_neg (by omega)]
        exact h m hm
      · exact h
    · exact h

theorem resolve_out (s : St) (n : Nat) (v : Fut) : ∃ l, (resolve s n v).out = s.out ++ l ∧ ∀ e ∈ l, e = .invalidState := by
  unfold resolve
  split
  · exact ⟨[], by simp, by simp⟩
  · exact ⟨[.invalidState], rfl, by simp⟩

/-- What a packet of the VNIC, or the cancelling, adds to the output. -/
theorem step_new (s : St) (e : Ev) : ∃ l, (step s e).out = s.out ++ l ∧
    ∀ id k f t, Eff.complete id k f t ∈ l → s.apps.get id = some f ∧ ∃ p, e = .spawned id t p := by
  have one : ∀ (x y : St) n v (l : List Eff), x = resolve y n v → y.out = s.out ++ l →
      (∀ id k f t, Eff.complete id k f t ∈ l → s.apps.get id = some f ∧ ∃ p, e = .spawned id t p) →
      ∃ l, x.out = s.out ++ l ∧ ∀ id k f t, Eff.complete id k f t ∈ l → s.apps.get id = some f ∧ ∃ p, e = .spawned id t p := by
    intro x y n v l hx hy hl
    obtain ⟨l', h1, h2⟩ := resolve_out y n v
    refine ⟨l ++ l', by rw [hx, h1, hy, List.append_assoc], ?_⟩
    intro id k f t hm
    rcases List.mem_append.mp hm with hm | hm
    · exact hl id k f t hm
    · cases h2 _ hm
  cases e with
  | request k f => exact ⟨[.request (s.count + 1) k], rfl, by simp⟩
  | response id r =>
    simp only [step, response]
    split
    · exact ⟨[], by simp, by simp⟩
    · next k n hg =>
      cases r with
      | failure c => exact one _ _ _ _ [] rfl (by simp) (by simp)
      | port p =>
        cases k with
        | listen => exact one _ _ _ _ [] rfl (by simp) (by simp)
        | connect => exact ⟨[], by simp, by simp⟩
  | spawned id t p =>
    simp only [step, spawned]
    split
    · exact ⟨[.keyError], rfl, by simp⟩
    · next f hf =>
      have own : ∀ (k' : Kind) id' k f' t', Eff.complete id' k f' t' ∈ [Eff.complete id k' f t] →
          s.apps.get id' = some f' ∧ ∃ p', Ev.spawned id t p = .spawned id' t' p' := by
        intro k' id' k f' t' hm
        simp only [List.mem_singleton, Eff.complete.injEq] at hm
        obtain ⟨rfl, _, rfl, rfl⟩ := hm
        exact ⟨hf, p, rfl⟩
      split
      · exact one _ _ _ _ [.complete id .connect f t] rfl rfl (own _)
      · exact ⟨_, rfl, own _⟩
      · exact ⟨_, rfl, own _⟩
  | cancel n =>
    simp only [step]
    split
    · split
      · exact ⟨[], by simp, by simp⟩
      · exact ⟨[], by simp, by simp⟩
    · exact ⟨[], by simp, by simp⟩

theorem step_apps_eq (s : St) (e : Ev) (he : ∀ k f, e ≠ .request k f) : (step s e).apps = s.apps := by
  cases e with
  | request k f => exact absurd rfl (he k f)
  | response id r =>
    simp only [step, response]
    split
    · rfl
    · next k n hg =>
      cases r with
      | failure c => exact (resolve_same _ _ _).2.1
      | port p =>
        cases k with
        | listen => exact (resolve_same _ _ _).2.1
        | connect => rfl
  | spawned id t p =>
    simp only [step, spawned]
    split
    · rfl
    · split
      · exact (resolve_same _ _ _).2.1
      · rfl
      · rfl
  | cancel n =>
    simp only [step]
    split
    · split <;> rfl
    · rfl

end Verif.Cli

namespace Verif.Callback
open Verif.Cli (Kind)

theorem mem_effectsOn {n : Nat} {l : List Eff} {e : Eff} : e ∈ effectsOn n l ↔ e ∈ l ∧ e.on = n := by
  simp [effectsOn]

/-- A connection is built once. -/
theorem Good.once {s : St} {n : Nat} {ds : List Bytes} (h : Good s n ds) {k k' : Kind} {a a' : Nat}
    (h1 : Eff.built n k a ∈ s.out) (h2 : Eff.built n k' a' ∈ s.out) : k = k' ∧ a = a' := by
  have m1 : Eff.built n k a ∈ effectsOn n s.out := mem_effectsOn.mpr ⟨h1, rfl⟩
  have m2 : Eff.built n k' a' ∈ effectsOn n s.out := mem_effectsOn.mpr ⟨h2, rfl⟩
  by_cases hn : n < s.nProto
  · cases hm : (s.proto n).made with
    | false =>
      rw [(h.waiting hn hm).2] at m1
      split at m1 <;> simp at m1
    | true =>
      obtain ⟨_, k0, a0, h3⟩ := h.running hn hm
      have fin : ∀ l : List Eff, effectsOn n s.out = l → (∀ k a, Eff.built n k a ∈ l → k = k0 ∧ a = a0) → k = k' ∧ a = a' := by
        intro l hl hx
        rw [hl] at m1 m2
        have e1 := hx _ _ m1
        have e2 := hx _ _ m2
        exact ⟨e1.1.trans e2.1.symm, e1.2.trans e2.2.symm⟩
      rcases h3 with ⟨_, h3⟩ | ⟨_, h3 | h3⟩
      · refine fin _ h3 ?_
        intro k a hm; simpa using hm
      · refine fin _ h3 ?_
        intro k a hm; simpa using hm
      · refine fin _ h3 ?_
        intro k a hm; simpa using hm
  · rw [(h.fresh (by omega)).1] at m1; simp at m1

/-- A connection that is built is made, in the sense of the flag. -/
theorem Good.built_made {s : St} {n : Nat} {ds : List Bytes} (h : Good s n ds) {k : Kind} {a : Nat}
    (h1 : Eff.built n k a ∈ s.out) : n < s.nProto ∧ (s.proto n).made = true := by
  have m1 : Eff.built n k a ∈ effectsOn n s.out := mem_effectsOn.mpr ⟨h1, rfl⟩
  by_cases hn : n < s.nProto
  · refine ⟨hn, ?_⟩
    cases hm : (s.proto n).made with
    | true => rfl
    | false =>
      rw [(h.waiting hn hm).2] at m1
      split at m1 <;> simp at m1
  · rw [(h.fresh (by omega)).1] at m1; simp at m1

/-- What `tryBuild` does to the records. -/
theorem tryBuild_new {s : St} (p : Nat) (hc : Dict.WF s.connectionData) : ∃ l, (tryBuild s p).out = s.out ++ l ∧
    (∀ q x, (tryBuild s p).connectionData.get q = some x → s.connectionData.get q = some x) ∧
    (∀ n cid, n ∈ conns (tryBuild s p) cid → n ∈ conns s cid ∨
      ∃ k a q, Eff.built n k a ∈ l ∧ s.connectionData.get q = some (cid, k, a)) ∧
    (∀ n cid, n ∈ conns s cid → n ∈ conns (tryBuild s p) cid) ∧
    (∀ n k a, Eff.built n k a ∈ l → s.dataProtocols.get p = some n ∧
      ∃ cid q, s.connectionData.get q = some (cid, k, a) ∧ n ∈ conns (tryBuild s p) cid) ∧
    (∀ n, ((tryBuild s p).proto n).lost = (s.proto n).lost) := by
  unfold tryBuild
  split
  · next cid k app x hg hd =>
    refine ⟨.built x k app :: (s.proto x).backlog.map (.push x), rfl, ?_, ?_, ?_, ?_, ?_⟩
    · intro q y hy
      have hy' : (s.connectionData.del p).get q = some y := hy
      rw [Dict.get_del hc] at hy'
      split at hy'
      · cases hy'
      · exact hy'
    · intro n cid' hn
      have hn' : n ∈ ((s.spawn.set cid (conns s cid ++ [x])).get cid').getD [] := hn
      rw [Dict.get_set] at hn'
      split at hn'
      · next e =>
        subst e
        simp only [Option.getD_some, List.mem_append, List.mem_singleton] at hn'
        rcases hn' with hn' | rfl
        · exact .inl hn'
        · exact .inr ⟨k, app, p, by simp, hg⟩
      · exact .inl hn'
    · intro n cid' hn
      show n ∈ ((s.spawn.set cid (conns s cid ++ [x])).get cid').getD []
      rw [Dict.get_set]
      split
      · next e => subst e; simp [hn]
      · exact hn
    · intro n k' a hm
      simp only [List.mem_cons, List.mem_map] at hm
      rcases hm with hm | ⟨_, _, hm⟩
      · cases hm
        refine ⟨hd, cid, p, hg, ?_⟩
        show x ∈ ((s.spawn.set cid (conns s cid ++ [x])).get cid).getD []
        rw [Dict.get_set_self]; simp
      · cases hm
    · intro n
      simp only [build, setInfo, setP]
      split
      · next e => subst e; rfl
      · rfl
  · exact ⟨[], by simp, fun _ _ h => h, fun _ _ h => .inl h, fun _ _ h => h, by simp, fun _ => rfl⟩

/-- What one event does to the records. -/
theorem step_new {s : St} (hi : Inv s) (e : Ev) : ∃ l, (step s e).out = s.out ++ l ∧
    (∀ q x, (step s e).connectionData.get q = some x → s.connectionData.get q = some x ∨
      ∃ cid k a, e = .announce cid k a q ∧ x = (cid, k, a)) ∧
    (∀ n cid, n ∈ conns (step s e) cid → n ∈ conns s cid ∨ ∃ k a q, Eff.built n k a ∈ l ∧
      (s.connectionData.get q = some (cid, k, a) ∨ e = .announce cid k a q)) ∧
    (∀ n cid, n ∈ conns s cid → n ∈ conns (step s e) cid ∨ e = .lost n ∧ ((step s e).proto n).lost = true) ∧
    (∀ n k a, Eff.built n k a ∈ l → ∃ cid, n ∈ conns (step s e) cid ∧
      ∃ q, s.connectionData.get q = some (cid, k, a) ∨ e = .announce cid k a q) ∧
    (∀ n, n < s.nProto → (s.proto n).lost = true → ((step s e).proto n).lost = true) := by
  cases e with
  | conn p =>
    obtain ⟨l, h1, h2, h3, h4, h5, h6⟩ := tryBuild_new (s := { setP s s.nProto ⟨p, false, [], false⟩ with
      nProto := s.nProto + 1, dataProtocols := s.dataProtocols.set p s.nProto }) p hi.wfc
    refine ⟨l, h1, fun q x h => .inl (h2 q x h), ?_, fun n cid h => .inl (h4 n cid h), ?_, ?_⟩
    · intro n cid h
      rcases h3 n cid h with h | ⟨k, a, q, g1, g2⟩
      · exact .inl h
      · exact .inr ⟨k, a, q, g1, .inl g2⟩
    · intro n k a h
      obtain ⟨_, cid, q, g1, g2⟩ := h5 n k a h
      exact ⟨cid, g2, q, .inl g1⟩
    · intro n hn hl
      show ((tryBuild _ p).proto n).lost = true
      rw [h6]
      show (if n = s.nProto then (⟨p, false, [], false⟩ : Proto) else s.proto n).lost = true
      rw [if_neg (by omega)]; exact hl
  | announce cid k a p =>
    obtain ⟨l, h1, h2, h3, h4, h5, h6⟩ := tryBuild_new (s := { s with connectionData := s.connectionData.set p (cid, k, a) }) p
      (hi.wfc.set _ _)
    have key : ∀ q x, (s.connectionData.set p (cid, k, a)).get q = some x → s.connectionData.get q = some x ∨ (q = p ∧ x = (cid, k, a)) := by
      intro q x h
      rw [Dict.get_set] at h
      split at h
      · next e => cases h; exact .inr ⟨e.symm, rfl⟩
      · exact .inl h
    refine ⟨l, h1, ?_, ?_, fun n cid h => .inl (h4 n cid h), ?_, ?_⟩
    · intro q x h
      rcases key q x (h2 q x h) with h | ⟨rfl, rfl⟩
      · exact .inl h
      · exact .inr ⟨cid, k, a, rfl, rfl⟩
    · intro n cid' h
      rcases h3 n cid' h with h | ⟨k', a', q, g1, g2⟩
      · exact .inl h
      · refine .inr ⟨k', a', q, g1, ?_⟩
        rcases key q _ g2 with h | ⟨rfl, e⟩
        · exact .inl h
        · cases e; exact .inr rfl
    · intro n k' a' h
      obtain ⟨_, cid', q, g1, g2⟩ := h5 n k' a' h
      refine ⟨cid', g2, q, ?_⟩
      rcases key q _ g1 with h | ⟨rfl, e⟩
      · exact .inl h
      · cases e; exact .inr rfl
    · intro n hn hl
      show ((tryBuild _ p).proto n).lost = true
      rw [h6]; exact hl
  | data n d =>
    have none' : ∀ x : St, x.connectionData = s.connectionData → x.spawn = s.spawn → (∃ l, x.out = s.out ++ l ∧ ∀ m k a, Eff.built m k a ∉ l) →
        (∀ m, (x.proto m).lost = (s.proto m).lost) → ∃ l, x.out = s.out ++ l ∧
    (∀ q y, x.connectionData.get q = some y → s.connectionData.get q = some y ∨
      ∃ cid k a, Ev.data n d = .announce cid k a q ∧ y = (cid, k, a)) ∧
    (∀ n' cid, n' ∈ conns x cid → n' ∈ conns s cid ∨ ∃ k a q, Eff.built n' k a ∈ l ∧
      (s.connectionData.get q = some (cid, k, a) ∨ Ev.data n d = .announce cid k a q)) ∧
    (∀ n' cid, n' ∈ conns s cid → n' ∈ conns x cid ∨ Ev.data n d = .lost n' ∧ (x.proto n').lost = true) ∧
    (∀ n' k a, Eff.built n' k a ∈ l → ∃ cid, n' ∈ conns x cid ∧
      ∃ q, s.connectionData.get q = some (cid, k, a) ∨ Ev.data n d = .announce cid k a q) ∧
    (∀ n', n' < s.nProto → (s.proto n').lost = true → (x.proto n').lost = true) := by
      intro x e1 e2 ⟨l, h1, h2⟩ e3
      have hc : ∀ cid, conns x cid = conns s cid := fun cid => by unfold conns; rw [e2]
      refine ⟨l, h1, fun q y h => .inl (by rw [← e1]; exact h), fun n' cid h => .inl (by rw [← hc]; exact h),
        fun n' cid h => .inl (by rw [hc]; exact h), fun n' k a h => absurd h (h2 _ _ _), fun n' _ h => by rw [e3]; exact h⟩
    simp only [step]
    split
    · unfold data
      split
      · exact none' _ rfl rfl ⟨[.push n d], rfl, by simp⟩ (fun _ => rfl)
      · refine none' _ rfl rfl ⟨[], by simp [setP], by simp⟩ ?_
        intro m
        simp only [setP]
        split
        · next e => subst e; rfl
        · rfl
    · exact none' s rfl rfl ⟨[], by simp, by simp⟩ (fun _ => rfl)
  | lost n =>
    simp only [step]
    split
    · next hc =>
      have pl : ∀ m, m < s.nProto → (s.proto m).lost = true → (if m = n then { s.proto n with lost := true } else s.proto m).lost = true := by
        intro m _ h
        split
        · rfl
        · exact h
      have pn : (if n = n then { s.proto n with lost := true } else s.proto n).lost = true := by rw [if_pos rfl]
      unfold lost
      dsimp only
      split
      · unfold dataClosed
        dsimp only
        have cd : ∀ q x, (s.connectionData.del (s.proto n).port).get q = some x → s.connectionData.get q = some x := by
          intro q x h
          rw [Dict.get_del hi.wfc] at h
          split at h
          · cases h
          · exact h
        split
        · exact ⟨[.closed n], rfl, fun q x h => .inl (cd q x h), fun _ _ h => .inl h, fun _ _ h => .inl h, by simp, pl⟩
        · next cid hb =>
          refine ⟨[.closed n], rfl, fun q x h => .inl (cd q x h), ?_, ?_, by simp, pl⟩
          · intro m cid' h
            have h' : m ∈ ((s.spawn.set cid ((conns s cid).erase n)).get cid').getD [] := h
            rw [Dict.get_set] at h'
            split at h'
            · next e => subst e; exact .inl (List.mem_of_mem_erase h')
            · exact .inl h'
          · intro m cid' h
            by_cases hmn : m = n
            · subst hmn; exact .inr ⟨rfl, pn⟩
            · left
              show m ∈ ((s.spawn.set cid ((conns s cid).erase n)).get cid').getD []
              rw [Dict.get_set]
              split
              · next e => subst e; exact (List.mem_erase_of_ne hmn).mpr h
              · exact h
      · exact ⟨[.raised n], rfl, fun q x h => .inl h, fun _ _ h => .inl h, fun _ _ h => .inl h, by simp, pl⟩
    · exact ⟨[], by simp, fun q x h => .inl h, fun _ _ h => .inl h, fun _ _ h => .inl h, by simp, fun _ _ h => h⟩

end Verif.Callback

namespace Verif.Connect
open Verif.Cli (Kind)

/-- The stages before the request to the VNIC. -/
def Early : Stage → Prop
  | .service => True
  | .dialing => True
  | .polling => True
  | _ => False

/-- The primitive changes of which an event consists. -/
inductive Micro : Ev → St → St → Prop where
  | ready (i) (s : St) : Micro (.serviceOk i) s { s with ready := true }
  | fresh (k loc) (s : St) : Micro (.call k loc) s (setCall { s with nCall := s.nCall + 1 } s.nCall ⟨k, loc, .service, none⟩)
  | early (e) (s : St) (i g) : i < s.nCall → Early (s.call i).stage → (g = .polling ∨ ∃ r, g = .raised r ∧
      ((s.call i).stage ≠ .polling ∨ ∃ l, (s.call i).loc = some l ∧ s.ctl.get l = none)) → Micro e s (setStage s i g)
  | dial (e) (s : St) (i l) : i < s.nCall → (s.call i).stage = .service → (s.call i).loc = some l → s.ctl.get l = none →
      Micro e s (setStage { s with ctl := if (s.call i).kind = .connect then s.ctl.set l none else s.ctl } i .dialing)
  | dialed (s : St) (i l) : i < s.nCall → (s.call i).stage = .dialing → (s.call i).loc = some l → Micro (.dialOk i) s { setCli s s.nCli .init with
      nCli := s.nCli + 1, up := fun d => if d = s.nCli then true else s.up d, ctl := s.ctl.set l (some s.nCli) }
  | ask (e) (s : St) (i l c) : i < s.nCall → Early (s.call i).stage → (s.call i).loc = some l → s.ctl.get l = some (some c) →
      Micro e s (openVia s i c)
  | response (s : St) (c id r) : c < s.nCli → s.up c = true →
      Micro (.response c id r) s (setCli s c (Cli.step (s.cli c) (.response id r)))
  | spawned (s : St) (c id t p) : c < s.nCli → s.up c = true →
      Micro (.spawned c id t p) s (setCli s c (Cli.step (s.cli c) (.spawned id t p)))
  | announce (s : St) (c id t p k f) : (s.cli c).apps.get id = some f → Micro (.spawned c id t p) s (absorb s (.announce id k f t))
  | conn (s : St) (p) : Micro (.callback p) s (absorb s (.conn p))
  | data (s : St) (n d) : Micro (.data n d) s (absorb s (.data n d))
  | lost (s : St) (n) : Micro (.lost n) s (absorb s (.lost n))
  | entry (i) (s : St) (id) : s.cb.spawn.has id = false → Micro (.opened i) s { s with cb := { s.cb with spawn := s.cb.spawn.set id [] } }
  | enqueue (s : St) (i c f id p) : i < s.nCall → (s.call i).stage = .opening c f → (s.cli c).fut f = .result id p →
      Callback.conns s.cb id = [] → Micro (.opened i) s { setStage s i (.waiting id) with queue := s.queue ++ [i] }
  | proceed (s : St) (i c f id p g) : i < s.nCall → (s.call i).stage = .opening c f → (s.cli c).fut f = .result id p →
      ((∃ n, Callback.conns s.cb id = [n] ∧ g = .making n) ∨ g = .raised .unexpected) → Micro (.opened i) s (setStage s i g)
  | serve (s : St) (i c f id p) : i < s.nCall → (s.call i).stage = .opening c f → (s.cli c).fut f = .result id p → (s.call i).kind = .listen →
      Micro (.opened i) s (setStage s i (.serving c id false))
  | refuse (s : St) (i c f) : i < s.nCall → (s.call i).stage = .opening c f → (∃ x, (s.cli c).fut f = .error x) →
      Micro (.opened i) s (setStage s i (.raised .refused))
  | cancel (s : St) (i c f) : i < s.nCall → (s.call i).stage = .opening c f → (s.cli c).fut f = .pending →
      Micro (.timeout i) s (setStage (setCli s c (Cli.step (s.cli c) (.cancel f))) i (.raised .timeout))
  | giveUp (s : St) (i n) : i < s.nCall → (s.call i).stage = .making n →
      Micro (.timeout i) s { setStage s i (.raised .timeout) with out := s.out ++ [.close n] }
  | note (s : St) (k) : s.notes = k + 1 → s.queue = [] → Micro .notify s { s with notes := k }
  | wake (s : St) (k i q) : s.notes = k + 1 → s.queue = i :: q → Micro .notify s { s with notes := k, queue := q, woken := s.woken ++ [i] }
  | again (s : St) (i id) : i < s.nCall → (s.call i).stage = .waiting id → i ∈ s.woken → Callback.conns s.cb id = [] →
      Micro (.resume i) s { s with woken := s.woken.erase i, queue := s.queue ++ [i] }
  | go (s : St) (i id g) : i < s.nCall → (s.call i).stage = .waiting id → i ∈ s.woken →
      ((∃ n, Callback.conns s.cb id = [n] ∧ g = .making n) ∨ g = .raised .unexpected) →
      Micro (.resume i) s (setStage { s with woken := s.woken.erase i } i g)
  | made (s : St) (n) : s.obs.get n = some false → Micro (.made n) s { s with obs := s.obs.set n true }
  | returns (s : St) (i n) : i < s.nCall → (s.call i).stage = .making n → s.obs.get n = some true →
      Micro (.madeResume i) s (setStage { s with obs := s.obs.del n } i (.returned n))
  | key (s : St) (i n) : i < s.nCall → (s.call i).stage = .making n → Micro (.madeResume i) s (setStage s i (.raised .key))
  | ctlLost (s : St) (c) : Micro (.ctlLost c) s { s with up := fun d => if d = c then false else s.up d }
  | close (s : St) (i c id) : i < s.nCall → (s.call i).stage = .serving c id false →
      Micro (.closeServer i) s { setStage s i (.serving c id true) with
        out := s.out ++ .closePacket c id :: (Callback.conns s.cb id).map .close }

/-- A sequence of them. -/
inductive Micros (e : Ev) : St → St → Prop where
  | refl (s) : Micros e s s
  | tail {s t u} : Micros e s t → Micro e t u → Micros e s u

theorem Micros.one {e : Ev} {s t : St} (h : Micro e s t) : Micros e s t := .tail (.refl s) h

theorem Micros.trans {e : Ev} {s t u : St} (h1 : Micros e s t) (h2 : Micros e t u) : Micros e s u := by
  induction h2 with
  | refl => exact h1
  | tail _ h3 ih => exact .tail ih h3

theorem enter_micro (e : Ev) (s : St) (i l : Nat) (hi : i < s.nCall) (hs : Early (s.call i).stage) (hl : (s.call i).loc = some l) :
    Micros e s (enter s i l) := by
  unfold enter
  split
  · next hc => exact .one (.early e s i _ hi hs (.inr ⟨_, rfl, .inr ⟨l, hl, hc⟩⟩))
  · exact .one (.early e s i _ hi hs (.inl rfl))
  · next c hc => exact .one (.ask e s i l c hi hs hl hc)

theorem start_micro (e : Ev) (s : St) (i : Nat) (hi : i < s.nCall) (hs : (s.call i).stage = .service) : Micros e s (start s i) := by
  unfold start
  have he : Early (s.call i).stage := by rw [hs]; exact trivial
  split
  · exact .one (.early e s i _ hi he (.inr ⟨_, rfl, .inl (by rw [hs]; simp)⟩))
  · next l hl =>
    split
    · next hc =>
      have := Micro.dial e s i l hi hs hl hc
      split
      · next hk => rw [if_pos hk] at this; exact .one this
      · next hk => rw [if_neg (by rw [hk]; simp)] at this; exact .one this
    · exact enter_micro e s i l hi he hl

theorem absorbs_micro (e : Ev) : ∀ (l : List Callback.Ev) (s : St), (∀ (x : Callback.Ev), x ∈ l → ∀ t : St, t.cli = s.cli → Micro e t (absorb t x)) →
    Micros e s (l.foldl absorb s)
  | [], s, _ => .refl s
  | x :: l, s, h => by
    have h1 := h x (by simp) s rfl
    exact (Micros.one h1).trans (absorbs_micro e l (absorb s x) (fun y hy t ht => h y (by simp [hy]) t ht))

theorem packet_micro (s : St) (c : Nat) (x : Cli.Ev) (e : Ev) (h1 : c < s.nCli → s.up c = true → Micro e s (setCli s c (Cli.step (s.cli c) x)))
    (h2 : ∀ id t p, x = .spawned id t p → e = .spawned c id t p) (h3 : ∀ k f, x ≠ .request k f) : Micros e s (packet s c x) := by
  unfold packet
  split
  · next hc =>
    refine (Micros.one (h1 hc.1 hc.2)).trans ?_
    refine absorbs_micro e _ _ ?_
    intro y hy t ht
    obtain ⟨l, hl1, hl2⟩ := Cli.step_new (s.cli c) x
    rw [hl1, List.drop_left, List.mem_filterMap] at hy
    obtain ⟨z, hz, hzy⟩ := hy
    cases z with
    | complete id k f t' =>
      simp only [announcement, Option.some.injEq] at hzy
      obtain ⟨ha, p, hp⟩ := hl2 _ _ _ _ hz
      rw [← hzy, h2 _ _ _ hp]
      refine .announce t c id t' p k f ?_
      rw [ht]
      show (if c = c then Cli.step (s.cli c) x else s.cli c).apps.get id = _
      rw [if_pos rfl, Cli.step_apps_eq _ _ h3]
      exact ha
    | _ => simp [announcement] at hzy
  · exact .refl s

theorem proceed_micro' (s t : St) (e : Ev) (i id : Nat)
    (h : ∀ g, ((∃ n, Callback.conns t.cb id = [n] ∧ g = .making n) ∨ g = .raised .unexpected) → Micro e s (setStage t i g)) :
    Micros e s (proceed t i id) := by
  unfold proceed
  split
  · next n hn => exact .one (h _ (.inl ⟨n, hn, rfl⟩))
  · exact .one (h _ (.inr rfl))

theorem step_micro (s : St) (e : Ev) : Micros e s (step s e) := by
  cases e with
  | call k loc =>
    show Micros _ s (newCall s k loc)
    unfold newCall
    dsimp only
    have h1 := Micros.one (Micro.fresh k loc s)
    split
    · refine h1.trans (start_micro _ _ _ (Nat.lt_succ_self _) ?_)
      simp [setCall]
    · exact h1
  | serviceOk i =>
    simp only [step, Ev.subject]
    split
    · next hi =>
      simp only [act, serviceOk]
      split
      · next hs => exact (Micros.one (.ready i s)).trans (start_micro _ _ _ hi hs)
      · exact .refl s
    · exact .refl s
  | serviceFail i =>
    simp only [step, Ev.subject]
    split
    · next hi =>
      simp only [act, fail]
      split
      · next hs => exact .one (.early _ s i _ hi (by rw [hs]; exact trivial) (.inr ⟨_, rfl, .inl (by rw [hs]; simp)⟩))
      · exact .refl s
    · exact .refl s
  | dialOk i =>
    simp only [step, Ev.subject]
    split
    · next hi =>
      simp only [act, dialOk]
      split
      · next l hs hl => exact (Micros.one (.dialed s i l hi hs hl)).trans (enter_micro _ _ _ _ hi (by simp [setCli, hs, Early]) hl)
      · exact .refl s
    · exact .refl s
  | dialFail i =>
    simp only [step, Ev.subject]
    split
    · next hi =>
      simp only [act, fail]
      split
      · next hs => exact .one (.early _ s i _ hi (by rw [hs]; exact trivial) (.inr ⟨_, rfl, .inl (by rw [hs]; simp)⟩))
      · exact .refl s
    · exact .refl s
  | poll i =>
    simp only [step, Ev.subject]
    split
    · next hi =>
      simp only [act, poll]
      split
      · next l hs hl => exact enter_micro _ _ _ _ hi (by rw [hs]; exact trivial) hl
      · exact .refl s
    · exact .refl s
  | response c id r =>
    exact packet_micro s c _ _ (fun h1 h2 => .response s c id r h1 h2) (fun _ _ _ h => nomatch h) (fun _ _ h => nomatch h)
  | spawned c id t p =>
    exact packet_micro s c _ _ (fun h1 h2 => .spawned s c id t p h1 h2) (fun _ _ _ h => by cases h; rfl) (fun _ _ h => nomatch h)
  | opened i =>
    simp only [step, Ev.subject]
    split
    · next hi =>
      simp only [act, opened]
      split
      · next c f hs =>
        split
        · next id p hf hk =>
          unfold arrive
          dsimp only
          have hent : Micros (.opened i) s { s with cb := { s.cb with
              spawn := if s.cb.spawn.has id then s.cb.spawn else s.cb.spawn.set id [] } } := by
            by_cases hh : s.cb.spawn.has id = true
            · rw [if_pos hh]; exact .refl s
            · rw [if_neg hh]; exact .one (.entry i s id (by simpa using hh))
          have hcs : Callback.conns { s.cb with spawn := if s.cb.spawn.has id then s.cb.spawn else s.cb.spawn.set id [] } id =
              Callback.conns s.cb id := by
            unfold Callback.conns
            by_cases hh : s.cb.spawn.has id = true
            · rw [if_pos hh]
            · rw [if_neg hh]
              dsimp only
              rw [Dict.get_set_self]
              have : s.cb.spawn.get id = none := by
                cases hg : s.cb.spawn.get id with
                | none => rfl
                | some _ => simp [Dict.has, hg] at hh
              rw [this]; rfl
          split
          · next hc => exact hent.trans (.one (.enqueue _ i c f id p hi hs hf (hcs.trans hc)))
          · refine hent.trans ?_
            refine proceed_micro' _ _ _ i id fun g hg => .proceed _ i c f id p g hi hs hf hg
        · next id p hf hk => exact .one (.serve s i c f id p hi hs hf hk)
        · next x hf => exact .one (.refuse s i c f hi hs ⟨x, hf⟩)
        · exact .refl s
      · exact .refl s
    · exact .refl s
  | timeout i =>
    simp only [step, Ev.subject]
    split
    · next hi =>
      simp only [act, timeout]
      split
      · next c f hs =>
        split
        · next hf => exact .one (.cancel s i c f hi hs hf)
        · exact .refl s
      · next n hs => exact .one (.giveUp s i n hi hs)
      · exact .refl s
    · exact .refl s
  | callback p => exact .one (.conn s p)
  | data n d => exact .one (.data s n d)
  | lost n => exact .one (.lost s n)
  | made n =>
    show Micros _ s (made s n)
    unfold made
    split
    · next h => exact .one (.made s n h)
    · exact .refl s
  | notify =>
    show Micros _ s (notify s)
    unfold notify
    split
    · exact .refl s
    · next k h1 h2 => exact .one (.note s k h1 h2)
    · next k i q h1 h2 => exact .one (.wake s k i q h1 h2)
  | resume i =>
    simp only [step, Ev.subject]
    split
    · next hi =>
      simp only [act, resume]
      split
      · next id hs =>
        split
        · next hw =>
          split
          · next hc => exact .one (.again s i id hi hs hw hc)
          · refine proceed_micro' s _ _ i id fun g hg => .go s i id g hi hs hw hg
        · exact .refl s
      · exact .refl s
    · exact .refl s
  | madeResume i =>
    simp only [step, Ev.subject]
    split
    · next hi =>
      simp only [act, madeResume]
      split
      · next n hs =>
        split
        · next ho => exact .one (.returns s i n hi hs ho)
        · exact .refl s
        · exact .one (.key s i n hi hs)
      · exact .refl s
    · exact .refl s
  | ctlLost c => exact .one (.ctlLost s c)
  | closeServer i =>
    simp only [step, Ev.subject]
    split
    · next hi =>
      simp only [act, closeServer]
      split
      · next c id hs => exact .one (.close s i c id hi hs)
      · exact .refl s
    · exact .refl s

theorem exec_append (s : St) (a b : List Ev) : exec s (a ++ b) = exec (exec s a) b := by
  induction a generalizing s with
  | nil => rfl
  | cons e a ih => exact ih (step s e)

/-- An invariant of the primitive changes is an invariant of the program; `h` is the history. -/
theorem micro_ind (P : List Ev → St → Prop) (h0 : P [] .init) (h1 : ∀ h e s, P h s → P (h ++ [e]) s)
    (h2 : ∀ h e s t, e ∈ h → P h s → Micro e s t → P h t) (h : List Ev) : P h (exec .init h) := by
  have ind : ∀ (b a : List Ev) (s : St), P a s → P (a ++ b) (exec s b) := by
    intro b
    induction b with
    | nil => intro a s hp; rw [List.append_nil]; exact hp
    | cons e b ih =>
      intro a s hp
      have : P (a ++ [e]) (step s e) := by
        have hm := step_micro s e
        have hp' := h1 a e s hp
        generalize step s e = t at hm
        induction hm with
        | refl => exact hp'
        | tail _ hx ih => exact h2 _ e _ _ (by simp) (ih) hx
      have := ih (a ++ [e]) (step s e) this
      rwa [List.append_assoc, List.singleton_append] at this
  have := ind h [] .init h0
  simpa using this

end Verif.Connect
