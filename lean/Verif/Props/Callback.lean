import Verif.Spec.Callback
import Verif.Lemmas.Dict
/-! # C37: the callback connection and its announcement -/
namespace Verif.Callback
open Verif.Cli (Kind)

theorem exec_append (s : St) (a b : List Ev) : exec s (a ++ b) = exec (exec s a) b := by
  induction a generalizing s with
  | nil => rfl
  | cons e a ih => exact ih (step s e)

theorem effectsOn_append (n : Nat) (l m : List Eff) : effectsOn n (l ++ m) = effectsOn n l ++ effectsOn n m := by
  simp [effectsOn]

theorem effectsOn_push (n m : Nat) (l : List Bytes) : effectsOn n (l.map (.push m)) = if m = n then l.map (.push m) else [] := by
  induction l with
  | nil => simp [effectsOn]
  | cons d l ih =>
    simp only [List.map_cons, effectsOn, List.filter_cons] at ih ⊢
    rw [ih]
    by_cases h : m = n <;> simp [Eff.on, h]

/-- What is known about connection `n` with received data `ds`. -/
structure Good (s : St) (n : Nat) (ds : List Bytes) : Prop where
  fresh : s.nProto ≤ n → effectsOn n s.out = [] ∧ ds = []
  waiting : n < s.nProto → (s.proto n).made = false → (s.proto n).backlog = ds ∧
    effectsOn n s.out = if (s.proto n).lost then [.raised n] else []
  running : n < s.nProto → (s.proto n).made = true → (s.proto n).backlog = [] ∧ ∃ k app,
    ((s.proto n).lost = false ∧ effectsOn n s.out = .built n k app :: ds.map (.push n)) ∨
    ((s.proto n).lost = true ∧ (effectsOn n s.out = .raised n :: .built n k app :: ds.map (.push n) ∨
      effectsOn n s.out = .built n k app :: ds.map (.push n) ++ [.closed n]))

structure Inv (s : St) : Prop where
  wfd : Dict.WF s.dataProtocols
  wfc : Dict.WF s.connectionData
  dat : ∀ p n, s.dataProtocols.get p = some n → n < s.nProto ∧ (s.proto n).port = p ∧ (s.proto n).made = false
  pair : ∀ p, s.dataProtocols.get p = none ∨ s.connectionData.get p = none

theorem Inv.init : Inv .init where
  wfd := Dict.WF.nil
  wfc := Dict.WF.nil
  dat := fun p n h => by simp [St.init] at h
  pair := fun p => .inl rfl

/-- The invariant without `pair` for port `p`. -/
structure Inv' (s : St) (p : Nat) : Prop where
  wfd : Dict.WF s.dataProtocols
  wfc : Dict.WF s.connectionData
  dat : ∀ p n, s.dataProtocols.get p = some n → n < s.nProto ∧ (s.proto n).port = p ∧ (s.proto n).made = false
  pair : ∀ q, q ≠ p → s.dataProtocols.get q = none ∨ s.connectionData.get q = none

theorem Inv'.tryBuild {s : St} {p : Nat} (h : Inv' s p) : Inv (tryBuild s p) := by
  unfold Callback.tryBuild
  split
  · next cid k app n hc hd =>
    have hn := h.dat p n hd
    refine ⟨h.wfd.del p, h.wfc.del p, ?_, ?_⟩
    · intro q m hg
      have hg' : (s.dataProtocols.del p).get q = some m := hg
      rw [Dict.get_del h.wfd] at hg'
      split at hg'
      · cases hg'
      · next hne =>
        have hm := h.dat q m hg'
        have hmn : m ≠ n := by rintro rfl; exact hne (hn.2.1.symm.trans hm.2.1)
        simp only [build, setInfo, setP, if_neg hmn]
        exact hm
    · intro q
      show (s.dataProtocols.del p).get q = none ∨ (s.connectionData.del p).get q = none
      rw [Dict.get_del h.wfd, Dict.get_del h.wfc]
      by_cases hq : p = q
      · left; rw [if_pos hq]
      · rw [if_neg hq, if_neg hq]; exact h.pair q (Ne.symm hq)
  · next hx =>
    refine ⟨h.wfd, h.wfc, h.dat, ?_⟩
    intro q
    by_cases hq : q = p
    · subst hq
      cases hd : s.dataProtocols.get q with
      | none => exact .inl rfl
      | some n =>
        cases hc : s.connectionData.get q with
        | none => exact .inr rfl
        | some x => exact absurd hd (hx x.1 x.2.1 x.2.2 n hc)
    · exact h.pair q hq

theorem Inv.step {s : St} (h : Inv s) (e : Ev) : Inv (step s e) := by
  cases e with
  | conn p =>
    refine Inv'.tryBuild ⟨h.wfd.set _ _, h.wfc, ?_, ?_⟩
    · intro q n hg
      have hg' : (s.dataProtocols.set p s.nProto).get q = some n := hg
      show n < s.nProto + 1 ∧ (if n = s.nProto then (⟨p, false, [], false⟩ : Proto) else s.proto n).port = q ∧
        (if n = s.nProto then (⟨p, false, [], false⟩ : Proto) else s.proto n).made = false
      rw [Dict.get_set] at hg'
      split at hg'
      · next e => cases hg'; rw [if_pos rfl]; exact ⟨by omega, e, rfl⟩
      · have := h.dat q n hg'
        rw [if_neg (by omega)]
        exact ⟨by omega, this.2⟩
    · intro q hq
      show (s.dataProtocols.set p s.nProto).get q = none ∨ _
      rw [Dict.get_set, if_neg (Ne.symm hq)]
      exact h.pair q
  | announce cid k app p =>
    refine Inv'.tryBuild ⟨h.wfd, h.wfc.set _ _, h.dat, ?_⟩
    intro q hq
    show _ ∨ (s.connectionData.set p (cid, k, app)).get q = none
    rw [Dict.get_set, if_neg (Ne.symm hq)]
    exact h.pair q
  | data n d =>
    simp only [Callback.step]
    split
    · unfold Callback.data
      split
      · exact ⟨h.wfd, h.wfc, h.dat, h.pair⟩
      · refine ⟨h.wfd, h.wfc, ?_, h.pair⟩
        intro q m hg
        have := h.dat q m hg
        simp only [setP]
        by_cases e : m = n
        · subst e; rw [if_pos rfl]; exact this
        · rw [if_neg e]; exact this
    · exact h
  | lost n =>
    simp only [Callback.step]
    split
    · have key : ∀ q m, s.dataProtocols.get q = some m → m < s.nProto ∧
          (if m = n then { s.proto n with lost := true } else s.proto m).port = q ∧
          (if m = n then { s.proto n with lost := true } else s.proto m).made = false := by
        intro q m hg
        have := h.dat q m hg
        by_cases e : m = n
        · subst e; rw [if_pos rfl]; exact this
        · rw [if_neg e]; exact this
      unfold Callback.lost
      dsimp only
      split
      · have d1 : ∀ q m, (s.dataProtocols.del (s.proto n).port).get q = some m → s.dataProtocols.get q = some m := by
          intro q m hg
          rw [Dict.get_del h.wfd] at hg
          split at hg
          · cases hg
          · exact hg
        have d2 : ∀ q, (s.dataProtocols.del (s.proto n).port).get q = none ∨
            (s.connectionData.del (s.proto n).port).get q = none := by
          intro q
          rw [Dict.get_del h.wfd, Dict.get_del h.wfc]
          by_cases hq : (s.proto n).port = q
          · left; rw [if_pos hq]
          · rw [if_neg hq, if_neg hq]; exact h.pair q
        unfold dataClosed
        dsimp only
        split
        · exact ⟨h.wfd.del _, h.wfc.del _, fun q m hg => key q m (d1 q m hg), d2⟩
        · exact ⟨h.wfd.del _, h.wfc.del _, fun q m hg => key q m (d1 q m hg), d2⟩
      · exact ⟨h.wfd, h.wfc, key, h.pair⟩
    · exact h

theorem Inv.exec : ∀ (h : List Ev) {s : St}, Inv s → Inv (exec s h)
  | [], _, hi => hi
  | e :: h, _, hi => Inv.exec h (hi.step e)

theorem Good.same {s s' : St} {n : Nat} {ds : List Bytes} (h : Good s n ds) (e1 : s'.nProto = s.nProto)
    (e2 : s'.proto n = s.proto n) (e3 : effectsOn n s'.out = effectsOn n s.out) : Good s' n ds :=
  ⟨by rw [e1, e3]; exact h.fresh, by rw [e1, e2, e3]; exact h.waiting, by rw [e1, e2, e3]; exact h.running⟩

theorem Good.tryBuild {s : St} {n p : Nat} {ds : List Bytes} (hi : Inv' s p) (h : Good s n ds) : Good (tryBuild s p) n ds := by
  unfold Callback.tryBuild
  split
  · next cid k app x hc hd =>
    have hx := hi.dat p x hd
    by_cases hn : n = x
    · subst hn
      obtain ⟨w1, w2⟩ := h.waiting hx.1 hx.2.2
      have he : effectsOn n (build s p n cid k app).out = effectsOn n s.out ++ .built n k app :: ds.map (.push n) := by
        show effectsOn n (s.out ++ .built n k app :: (s.proto n).backlog.map (.push n)) = _
        rw [effectsOn_append, show ∀ l : List Eff, Eff.built n k app :: l = [.built n k app] ++ l from fun _ => rfl,
          effectsOn_append, effectsOn_push, if_pos rfl, w1]
        simp [effectsOn, Eff.on]
      have hp : (build s p n cid k app).proto n = { s.proto n with made := true, backlog := [] } := by
        show (if n = n then _ else _) = _
        rw [if_pos rfl]
      refine ⟨fun hl => absurd hx.1 (by have : s.nProto ≤ n := hl; omega), ?_, ?_⟩
      · intro _ hm; rw [hp] at hm; cases hm
      · intro _ _
        rw [hp, he, w2]
        refine ⟨rfl, k, app, ?_⟩
        cases hl : (s.proto n).lost with
        | false => left; exact ⟨rfl, rfl⟩
        | true => right; exact ⟨rfl, .inl rfl⟩
    · refine h.same rfl ?_ ?_
      · show (if n = x then _ else _) = _
        rw [if_neg hn]
      · show effectsOn n (s.out ++ .built x k app :: (s.proto x).backlog.map (.push x)) = _
        rw [effectsOn_append, show ∀ l : List Eff, Eff.built x k app :: l = [.built x k app] ++ l from fun _ => rfl,
          effectsOn_append, effectsOn_push, if_neg (Ne.symm hn)]
        simp [effectsOn, Eff.on, Ne.symm hn]
  · exact h

/-- The data an event brings to connection `n`. -/
def now (s : St) (n : Nat) : Ev → List Bytes
  | .data m d => if m = n ∧ n < s.nProto ∧ (s.proto n).lost = false then [d] else []
  | _ => []

theorem Good.step {s : St} {n : Nat} {ds : List Bytes} (hi : Inv s) (h : Good s n ds) (e : Ev) :
    Good (step s e) n (ds ++ now s n e) := by
  cases e with
  | conn p =>
    rw [show now s n (.conn p) = [] from rfl, List.append_nil]
    refine Good.tryBuild ⟨hi.wfd.set _ _, hi.wfc, ?_, ?_⟩ ?_
    · intro q m hg
      have hg' : (s.dataProtocols.set p s.nProto).get q = some m := hg
      show m < s.nProto + 1 ∧ (if m = s.nProto then (⟨p, false, [], false⟩ : Proto) else s.proto m).port = q ∧
        (if m = s.nProto then (⟨p, false, [], false⟩ : Proto) else s.proto m).made = false
      rw [Dict.get_set] at hg'
      split at hg'
      · next e => cases hg'; rw [if_pos rfl]; exact ⟨by omega, e, rfl⟩
      · have := hi.dat q m hg'
        rw [if_neg (by omega)]
        exact ⟨by omega, this.2⟩
    · intro q hq
      show (s.dataProtocols.set p s.nProto).get q = none ∨ _
      rw [Dict.get_set, if_neg (Ne.symm hq)]
      exact hi.pair q
    · have hp : ∀ (x : Proto) (y : Dict Nat Nat), ({ setP s s.nProto x with nProto := s.nProto + 1, dataProtocols := y } : St).proto n =
          if n = s.nProto then x else s.proto n := fun _ _ => rfl
      by_cases hn : n = s.nProto
      · obtain ⟨f1, f2⟩ := h.fresh (by omega)
        refine ⟨fun hl => ?_, fun _ _ => ?_, fun _ hm => ?_⟩
        · have : s.nProto + 1 ≤ n := hl
          omega
        · rw [hp, if_pos hn, f2]
          exact ⟨rfl, f1⟩
        · rw [hp, if_pos hn] at hm; cases hm
      · refine ⟨fun hl => ?_, fun hl hm => ?_, fun hl hm => ?_⟩
        · have hl' : s.nProto + 1 ≤ n := hl
          exact h.fresh (by omega)
        · have hl' : n < s.nProto + 1 := hl
          rw [hp, if_neg hn] at hm ⊢
          exact h.waiting (by omega) hm
        · have hl' : n < s.nProto + 1 := hl
          rw [hp, if_neg hn] at hm ⊢
          exact h.running (by omega) hm
  | announce cid k app p =>
    rw [show now s n (.announce cid k app p) = [] from rfl, List.append_nil]
    refine Good.tryBuild ⟨hi.wfd, hi.wfc.set _ _, hi.dat, ?_⟩ (h.same rfl rfl rfl)
    intro q hq
    show _ ∨ (s.connectionData.set p (cid, k, app)).get q = none
    rw [Dict.get_set, if_neg (Ne.symm hq)]
    exact hi.pair q
  | data m d =>
    simp only [Callback.step, now]
    by_cases hc : m < s.nProto ∧ (s.proto m).lost = false
    · rw [if_pos hc]
      by_cases hn : m = n
      · subst hn
        rw [if_pos ⟨rfl, hc.1, hc.2⟩]
        unfold Callback.data
        by_cases hm : (s.proto m).made = true
        · rw [if_pos hm]
          obtain ⟨r1, k, app, r2⟩ := h.running hc.1 hm
          refine ⟨fun hl => absurd hc.1 (by have : s.nProto ≤ m := hl; omega),
            fun _ hm' => absurd hm (by rw [show (s.proto m).made = false from hm']; simp), fun _ _ => ⟨r1, k, app, ?_⟩⟩
          rcases r2 with ⟨r3, r4⟩ | ⟨r3, _⟩
          · refine .inl ⟨r3, ?_⟩
            show effectsOn m (s.out ++ [.push m d]) = _
            rw [effectsOn_append, r4]
            simp [effectsOn, Eff.on]
          · rw [hc.2] at r3; cases r3
        · rw [if_neg hm]
          have hm' : (s.proto m).made = false := by simpa using hm
          obtain ⟨w1, w2⟩ := h.waiting hc.1 hm'
          have hp : ∀ x, (setP s m x).proto m = x := fun x => if_pos rfl
          refine ⟨fun hl => absurd hc.1 (by have : s.nProto ≤ m := hl; omega), fun _ _ => ?_, fun _ hx => ?_⟩
          · rw [hp]
            exact ⟨by rw [← w1], w2⟩
          · rw [hp] at hx; exact absurd hx hm
      · rw [if_neg (fun hh => hn hh.1), List.append_nil]
        unfold Callback.data
        split
        · refine h.same rfl rfl ?_
          show effectsOn n (s.out ++ [.push m d]) = _
          rw [effectsOn_append]; simp [effectsOn, Eff.on, hn]
        · exact h.same rfl (if_neg (Ne.symm hn)) rfl
    · rw [if_neg hc, if_neg (fun hh => hc (by rw [hh.1]; exact hh.2)), List.append_nil]
      exact h
  | lost m =>
    simp only [now, List.append_nil]
    simp only [Callback.step]
    split
    · next hc =>
      have cl : ∀ (x : St) q, (dataClosed x m q).nProto = x.nProto ∧ (dataClosed x m q).proto = x.proto ∧
          (dataClosed x m q).out = x.out := by
        intro x q; unfold dataClosed; dsimp only; split <;> exact ⟨rfl, rfl, rfl⟩
      unfold Callback.lost
      dsimp only
      by_cases hn : m = n
      · subst hn
        by_cases hm : (s.proto m).made = true
        · rw [if_pos hm]
          obtain ⟨r1, k, app, r2⟩ := h.running hc.1 hm
          have c3 := cl { setP s m { s.proto m with lost := true } with
            out := (setP s m { s.proto m with lost := true }).out ++ [.closed m] } (s.proto m).port
          have hp : (dataClosed { setP s m { s.proto m with lost := true } with
            out := (setP s m { s.proto m with lost := true }).out ++ [.closed m] } m (s.proto m).port).proto m =
              { s.proto m with lost := true } := by rw [c3.2.1]; exact if_pos rfl
          refine ⟨fun hl => ?_, fun _ hm' => ?_, fun _ _ => ?_⟩
          · rw [c3.1] at hl; exact absurd hc.1 (by have : s.nProto ≤ m := hl; omega)
          · rw [hp] at hm'; have hm'' : (s.proto m).made = false := hm'; rw [hm] at hm''; cases hm''
          · rw [hp, c3.2.2]
            refine ⟨r1, k, app, .inr ⟨rfl, ?_⟩⟩
            rcases r2 with ⟨_, r4⟩ | ⟨r3, _⟩
            · right
              show effectsOn m (s.out ++ [.closed m]) = _
              rw [effectsOn_append, r4]; simp [effectsOn, Eff.on]
            · rw [hc.2] at r3; cases r3
        · rw [if_neg hm]
          have hm' : (s.proto m).made = false := by simpa using hm
          obtain ⟨w1, w2⟩ := h.waiting hc.1 hm'
          have hp : ∀ x, (setP s m x).proto m = x := fun x => if_pos rfl
          refine ⟨fun hl => absurd hc.1 (by have : s.nProto ≤ m := hl; omega), fun _ _ => ?_, fun _ hx => ?_⟩
          · rw [hp]
            refine ⟨w1, ?_⟩
            rw [if_pos rfl]
            show effectsOn m (s.out ++ [.raised m]) = _
            rw [effectsOn_append, w2, hc.2]; simp [effectsOn, Eff.on]
          · rw [hp] at hx; exact absurd hx hm
      · split
        · have c3 := cl { setP s m { s.proto m with lost := true } with
            out := (setP s m { s.proto m with lost := true }).out ++ [.closed m] } (s.proto m).port
          refine h.same c3.1 (by rw [c3.2.1]; exact if_neg (Ne.symm hn)) ?_
          rw [c3.2.2]
          show effectsOn n (s.out ++ [.closed m]) = _
          rw [effectsOn_append]; simp [effectsOn, Eff.on, hn]
        · refine h.same rfl (if_neg (Ne.symm hn)) ?_
          show effectsOn n (s.out ++ [.raised m]) = _
          rw [effectsOn_append]; simp [effectsOn, Eff.on, hn]
    · exact h

theorem tryBuild_same (s : St) (p : Nat) : (tryBuild s p).nProto = s.nProto ∧
    ∀ n, ((tryBuild s p).proto n).lost = (s.proto n).lost ∧ ((tryBuild s p).proto n).port = (s.proto n).port := by
  unfold tryBuild
  split
  · next x _ _ =>
    refine ⟨rfl, fun n => ?_⟩
    simp only [build, setInfo, setP]
    split
    · next e => subst e; exact ⟨rfl, rfl⟩
    · exact ⟨rfl, rfl⟩
  · exact ⟨rfl, fun n => ⟨rfl, rfl⟩⟩

/-- `l`: the connection is made and lost. -/
def isLost (s : St) (n : Nat) : Bool := decide (n < s.nProto) && (s.proto n).lost

theorem step_track {s : St} (e : Ev) (n : Nat) (h : List Ev) :
    receivedFrom n s.nProto (isLost s n) (e :: h) = now s n e ++ receivedFrom n (step s e).nProto (isLost (step s e) n) h := by
  cases e with
  | conn p =>
    have t := tryBuild_same { setP s s.nProto ⟨p, false, [], false⟩ with
      nProto := s.nProto + 1, dataProtocols := s.dataProtocols.set p s.nProto } p
    simp only [receivedFrom, now, List.nil_append, step, newConn]
    unfold isLost
    rw [t.1, (t.2 n).1]
    show receivedFrom n (s.nProto + 1) _ h = receivedFrom n (s.nProto + 1)
      (decide (n < s.nProto + 1) && (if n = s.nProto then (⟨p, false, [], false⟩ : Proto) else s.proto n).lost) h
    congr 1
    by_cases hn : n = s.nProto
    · rw [if_pos hn]; simp [hn]
    · rw [if_neg hn]
      have : (n < s.nProto) = (n < s.nProto + 1) := by apply propext; omega
      simp only [this]
  | announce cid k app p =>
    have t := tryBuild_same { s with connectionData := s.connectionData.set p (cid, k, app) } p
    simp only [receivedFrom, now, List.nil_append, step, complete]
    unfold isLost
    rw [t.1, (t.2 n).1]
  | data m d =>
    simp only [receivedFrom, now, step]
    have t : ∀ x, x = (if m < s.nProto ∧ (s.proto m).lost = false then data s m d else s) → x.nProto = s.nProto ∧
        isLost x n = isLost s n := by
      intro x hx
      rw [hx]
      split
      · unfold data
        split
        · exact ⟨rfl, rfl⟩
        · refine ⟨rfl, ?_⟩
          unfold isLost
          simp only [setP]
          split
          · next e => subst e; rfl
          · rfl
      · exact ⟨rfl, rfl⟩
    rw [(t _ rfl).1, (t _ rfl).2]
    by_cases hc : m = n ∧ n < s.nProto ∧ (s.proto n).lost = false
    · rw [if_pos hc, if_pos ⟨hc.1, hc.2.1, by simp [isLost, hc.2.2]⟩]; rfl
    · rw [if_neg hc, if_neg]
      · rfl
      · rintro ⟨h1, h2, h3⟩
        exact hc ⟨h1, h2, by simpa [isLost, h2] using h3⟩
  | lost m =>
    simp only [receivedFrom, now, List.nil_append, step]
    have cl : ∀ (x : St) q, (dataClosed x m q).nProto = x.nProto ∧ (dataClosed x m q).proto = x.proto := by
      intro x q; unfold dataClosed; dsimp only; split <;> exact ⟨rfl, rfl⟩
    have t : ∀ x, x = (if m < s.nProto ∧ (s.proto m).lost = false then lost s m else s) → x.nProto = s.nProto ∧
        isLost x n = (isLost s n || (decide (m = n) && decide (n < s.nProto))) := by
      intro x hx
      rw [hx]
      split
      · next hc =>
        have : (lost s m).nProto = s.nProto ∧ (lost s m).proto n = if n = m then { s.proto m with lost := true } else s.proto n := by
          unfold lost
          dsimp only
          split
          · rw [(cl _ _).1, (cl _ _).2]; exact ⟨rfl, rfl⟩
          · exact ⟨rfl, rfl⟩
        refine ⟨this.1, ?_⟩
        unfold isLost
        rw [this.1, this.2]
        by_cases e : n = m
        · rw [if_pos e]; simp [e, hc.1]
        · rw [if_neg e]; simp [Ne.symm e]
      · next hc =>
        refine ⟨rfl, ?_⟩
        by_cases e : m = n
        · subst e
          by_cases hl : m < s.nProto
          · have : (s.proto m).lost = true := by
              cases hx : (s.proto m).lost with
              | true => rfl
              | false => exact absurd ⟨hl, hx⟩ hc
            simp [isLost, hl, this]
          · simp [isLost, hl]
        · simp [e]
    rw [(t _ rfl).1, (t _ rfl).2]

theorem Good.exec : ∀ (h : List Ev) {s : St} {n : Nat} {ds : List Bytes}, Inv s → Good s n ds →
    Good (exec s h) n (ds ++ receivedFrom n s.nProto (isLost s n) h)
  | [], s, n, ds, _, hg => by rw [receivedFrom, List.append_nil]; exact hg
  | e :: h, s, n, ds, hi, hg => by
    have := Good.exec h (hi.step e) (hg.step hi e)
    rw [step_track, ← List.append_assoc]
    exact this

theorem Good.reachable (h : List Ev) (n : Nat) : Good (Callback.exec .init h) n (received n h) := by
  have := Good.exec h (n := n) (ds := []) Inv.init ⟨fun _ => ⟨rfl, rfl⟩, fun hl => by simp [St.init] at hl, fun hl => by simp [St.init] at hl⟩
  simpa [received, isLost, St.init] using this

theorem step_nProto (s : St) (e : Ev) : (step s e).nProto = s.nProto + made [e] := by
  have cl : ∀ (x : St) m q, (dataClosed x m q).nProto = x.nProto := by
    intro x m q; unfold dataClosed; dsimp only; split <;> rfl
  cases e with
  | conn p => simp only [step, newConn]; rw [(tryBuild_same _ _).1]; rfl
  | announce cid k app p => simp only [step, complete]; rw [(tryBuild_same _ _).1]; rfl
  | data m d =>
    simp only [step]; split
    · unfold data; split <;> rfl
    · rfl
  | lost m =>
    simp only [step]; split
    · unfold lost; dsimp only; split
      · rw [cl]; rfl
      · rfl
    · rfl

theorem tryBuild_none {x : St} {p : Nat} (h : x.connectionData.get p = none) : tryBuild x p = x := by
  unfold tryBuild; rw [h]

theorem tryBuild_some {x : St} {p cid n app : Nat} {k : Kind} (h : x.connectionData.get p = some (cid, k, app))
    (h2 : x.dataProtocols.get p = some n) : tryBuild x p = build x p n cid k app := by
  unfold tryBuild; rw [h, h2]

theorem made_cons (e : Ev) (h : List Ev) : made (e :: h) = made [e] + made h := by
  cases e <;> simp [made]; omega

theorem made_append (a b : List Ev) : made (a ++ b) = made a + made b := by
  induction a with
  | nil => simp [made]
  | cons e a ih => rw [List.cons_append, made_cons, ih, made_cons e a]; omega

theorem exec_nProto : ∀ (h : List Ev) (s : St), (exec s h).nProto = s.nProto + made h
  | [], _ => rfl
  | e :: h, s => by rw [exec, exec_nProto h, step_nProto]; have := made_cons e h; omega

/-- C37. In every history, whatever the order of the events, the stack and application of a callback connection are built at most
once; before that they get nothing; building hands over everything received before, and afterwards the data is passed on, so
that the application always has exactly the data received, in order. The loss of the connection is passed on to a built stack. -/
theorem C37_stream (h : List Ev) (n : Nat) :
    let es := effectsOn n (exec .init h).out
    let ds := (received n h).map (Eff.push n)
    es = [] ∨ es = [.raised n] ∨ ∃ k app, es = .built n k app :: ds ∨ es = .built n k app :: ds ++ [.closed n] ∨
      es = .raised n :: .built n k app :: ds := by
  intro es ds
  have hg := Good.reachable h n
  by_cases hn : n < (exec .init h).nProto
  · cases hm : ((exec .init h).proto n).made with
    | false =>
      have := (hg.waiting hn hm).2
      split at this
      · exact .inr (.inl this)
      · exact .inl this
    | true =>
      obtain ⟨_, k, app, h1⟩ := hg.running hn hm
      refine .inr (.inr ⟨k, app, ?_⟩)
      rcases h1 with ⟨_, h1⟩ | ⟨_, h1 | h1⟩
      · exact .inl h1
      · exact .inr (.inr h1)
      · exact .inr (.inl h1)
  · exact .inl (hg.fresh (by omega)).1

/-! ## Pairing -/

theorem frame {s : St} (hi : Inv s) (p : Nat) (e : Ev) (he : ¬ e.usesPort p)
    (hl : ∀ m, m < s.nProto → (s.proto m).made = true → (s.proto m).port ≠ p) :
    (step s e).dataProtocols.get p = s.dataProtocols.get p ∧ (step s e).connectionData.get p = s.connectionData.get p ∧
    ∀ m, m < (step s e).nProto → ((step s e).proto m).port = p → m < s.nProto ∧ (s.proto m).port = p := by
  have tb : ∀ (x : St) q, q ≠ p → Dict.WF x.dataProtocols → Dict.WF x.connectionData →
      (tryBuild x q).dataProtocols.get p = x.dataProtocols.get p ∧ (tryBuild x q).connectionData.get p = x.connectionData.get p := by
    intro x q hq w1 w2
    unfold tryBuild
    split
    · constructor
      · show (x.dataProtocols.del q).get p = _
        rw [Dict.get_del w1, if_neg hq]
      · show (x.connectionData.del q).get p = _
        rw [Dict.get_del w2, if_neg hq]
    · exact ⟨rfl, rfl⟩
  cases e with
  | conn q =>
    have hq : q ≠ p := he
    have t := tryBuild_same { setP s s.nProto ⟨q, false, [], false⟩ with
      nProto := s.nProto + 1, dataProtocols := s.dataProtocols.set q s.nProto } q
    obtain ⟨t1, t2⟩ := tb { setP s s.nProto ⟨q, false, [], false⟩ with
      nProto := s.nProto + 1, dataProtocols := s.dataProtocols.set q s.nProto } q hq (hi.wfd.set _ _) hi.wfc
    refine ⟨t1.trans ?_, t2, ?_⟩
    · show (s.dataProtocols.set q s.nProto).get p = _
      rw [Dict.get_set, if_neg hq]
    · intro m hm hp
      simp only [step, newConn] at hm hp
      rw [t.1] at hm
      rw [(t.2 m).2] at hp
      have hm' : m < s.nProto + 1 := hm
      have hp' : (if m = s.nProto then (⟨q, false, [], false⟩ : Proto) else s.proto m).port = p := hp
      by_cases e : m = s.nProto
      · rw [if_pos e] at hp'; exact absurd hp' hq
      · rw [if_neg e] at hp'; exact ⟨by omega, hp'⟩
  | announce cid k app q =>
    have hq : q ≠ p := he
    have t := tryBuild_same { s with connectionData := s.connectionData.set q (cid, k, app) } q
    obtain ⟨t1, t2⟩ := tb { s with connectionData := s.connectionData.set q (cid, k, app) } q hq hi.wfd (hi.wfc.set _ _)
    refine ⟨t1, t2.trans ?_, ?_⟩
    · show (s.connectionData.set q _).get p = _
      rw [Dict.get_set, if_neg hq]
    · intro m hm hp
      simp only [step, complete] at hm hp
      rw [t.1] at hm
      rw [(t.2 m).2] at hp
      exact ⟨hm, hp⟩
  | data n d =>
    simp only [step]
    split
    · unfold data
      split
      · exact ⟨rfl, rfl, fun m a b => ⟨a, b⟩⟩
      · refine ⟨rfl, rfl, fun m a b => ⟨a, ?_⟩⟩
        simp only [setP] at b
        split at b
        · next e => rw [e]; exact b
        · exact b
    · exact ⟨rfl, rfl, fun m a b => ⟨a, b⟩⟩
  | lost n =>
    simp only [step]
    split
    · next hc =>
      have pr : ∀ m, m < s.nProto → (if m = n then { s.proto n with lost := true } else s.proto m).port = p →
          m < s.nProto ∧ (s.proto m).port = p := by
        intro m a b
        refine ⟨a, ?_⟩
        split at b
        · next e => rw [e]; exact b
        · exact b
      unfold lost
      dsimp only
      split
      · next hm =>
        have hne := hl n hc.1 hm
        unfold dataClosed
        dsimp only
        have d1 : (s.dataProtocols.del (s.proto n).port).get p = s.dataProtocols.get p := by
          rw [Dict.get_del hi.wfd, if_neg hne]
        have d2 : (s.connectionData.del (s.proto n).port).get p = s.connectionData.get p := by
          rw [Dict.get_del hi.wfc, if_neg hne]
        split
        · exact ⟨d1, d2, pr⟩
        · exact ⟨d1, d2, pr⟩
      · exact ⟨rfl, rfl, pr⟩
    · exact ⟨rfl, rfl, fun m a b => ⟨a, b⟩⟩

/-- Nothing on port `p` but perhaps the waiting connection `n`. -/
def Only (s : St) (p : Nat) (n : Option Nat) : Prop :=
  s.dataProtocols.get p = n ∧ ∀ m, m < s.nProto → (s.proto m).port = p → some m = n

theorem Only.exec {p : Nat} {n : Option Nat} : ∀ (h : List Ev) {s : St}, Inv s → Only s p n → (∀ e ∈ h, ¬ e.usesPort p) →
    Only (exec s h) p n ∧ (exec s h).connectionData.get p = s.connectionData.get p
  | [], _, _, ho, _ => ⟨ho, rfl⟩
  | e :: h, s, hi, ho, hu => by
    have hl : ∀ m, m < s.nProto → (s.proto m).made = true → (s.proto m).port ≠ p := by
      intro m hm hmade hp
      have := ho.2 m hm hp
      have hd := hi.dat p m (ho.1.trans this.symm)
      rw [hd.2.2] at hmade; cases hmade
    obtain ⟨f1, f2, f3⟩ := frame hi p e (hu e (List.mem_cons_self ..)) hl
    have ho' : Only (step s e) p n := ⟨f1.trans ho.1, fun m hm hp => ho.2 m (f3 m hm hp).1 (f3 m hm hp).2⟩
    obtain ⟨r1, r2⟩ := Only.exec h (hi.step e) ho' (fun x hx => hu x (List.mem_cons_of_mem _ hx))
    exact ⟨r1, r2.trans f2⟩

theorem step_out (s : St) (e : Ev) : ∃ l, (step s e).out = s.out ++ l := by
  have tb : ∀ (x : St) q, ∃ l, (tryBuild x q).out = x.out ++ l := by
    intro x q; unfold tryBuild; split
    · exact ⟨_, rfl⟩
    · exact ⟨[], by simp⟩
  have cl : ∀ (x : St) m q, (dataClosed x m q).out = x.out := by
    intro x m q; unfold dataClosed; dsimp only; split <;> rfl
  cases e with
  | conn p => exact tb _ p
  | announce cid k app p => exact tb _ p
  | data m d =>
    simp only [step]; split
    · unfold data; split
      · exact ⟨_, rfl⟩
      · exact ⟨[], by simp [setP]⟩
    · exact ⟨[], by simp⟩
  | lost m =>
    simp only [step]; split
    · unfold lost; dsimp only; split
      · rw [cl]; exact ⟨_, rfl⟩
      · exact ⟨_, rfl⟩
    · exact ⟨[], by simp⟩

theorem exec_out : ∀ (h : List Ev) (s : St), ∃ l, (exec s h).out = s.out ++ l
  | [], s => ⟨[], by simp [exec]⟩
  | e :: h, s => by
    obtain ⟨l, h1⟩ := step_out s e
    obtain ⟨m, h2⟩ := exec_out h (step s e)
    exact ⟨l ++ m, by rw [exec, h2, h1, List.append_assoc]⟩

/-- No loss, no loss effects. -/
theorem step_noLoss (s : St) (e : Ev) (n : Nat) (he : e ≠ .lost n) (ho : ∀ x ∈ s.out, x ≠ .closed n ∧ x ≠ .raised n) :
    ∀ x ∈ (step s e).out, x ≠ .closed n ∧ x ≠ .raised n := by
  have tb : ∀ (x : St) q, x.out = s.out → ∀ y ∈ (tryBuild x q).out, y ≠ .closed n ∧ y ≠ .raised n := by
    intro x q hx y hy
    unfold tryBuild at hy
    split at hy
    · next m _ _ =>
      have hy' : y ∈ x.out ++ .built m _ _ :: (x.proto m).backlog.map (.push m) := hy
      rw [hx] at hy'
      rcases List.mem_append.mp hy' with h | h
      · exact ho y h
      · rcases List.mem_cons.mp h with h | h
        · rw [h]; exact ⟨Eff.noConfusion, Eff.noConfusion⟩
        · obtain ⟨d, _, hd⟩ := List.mem_map.mp h
          rw [← hd]; exact ⟨Eff.noConfusion, Eff.noConfusion⟩
    · rw [hx] at hy; exact ho y hy
  have cl : ∀ (x : St) m q, (dataClosed x m q).out = x.out := by
    intro x m q; unfold dataClosed; dsimp only; split <;> rfl
  have one : ∀ z, (z ≠ Eff.closed n ∧ z ≠ .raised n) → ∀ y ∈ s.out ++ [z], y ≠ .closed n ∧ y ≠ .raised n := by
    intro z hz y hy
    rcases List.mem_append.mp hy with h | h
    · exact ho y h
    · rw [List.mem_singleton.mp h]; exact hz
  cases e with
  | conn p => exact tb _ p rfl
  | announce cid k app p => exact tb _ p rfl
  | data m d =>
    simp only [step]; split
    · unfold data; split
      · exact one _ ⟨Eff.noConfusion, Eff.noConfusion⟩
      · exact ho
    · exact ho
  | lost m =>
    have hm : m ≠ n := fun h => he (by rw [h])
    simp only [step]; split
    · unfold lost; dsimp only; split
      · rw [cl]; exact one _ ⟨fun h => hm (by cases h; rfl), Eff.noConfusion⟩
      · exact one _ ⟨Eff.noConfusion, fun h => hm (by cases h; rfl)⟩
    · exact ho

theorem exec_noLoss (n : Nat) : ∀ (h : List Ev) (s : St), Ev.lost n ∉ h → (∀ x ∈ s.out, x ≠ .closed n ∧ x ≠ .raised n) →
    ∀ x ∈ (exec s h).out, x ≠ .closed n ∧ x ≠ .raised n
  | [], _, _, ho => ho
  | e :: h, s, hl, ho =>
    exec_noLoss n h (step s e) (fun hm => hl (List.mem_cons_of_mem _ hm))
      (step_noLoss s e n (fun he => hl (by rw [he]; exact List.mem_cons_self ..)) ho)

theorem received_dataOf (n : Nat) : ∀ (h : List Ev) (c : Nat), n < c → Ev.lost n ∉ h → receivedFrom n c false h = dataOf n h
  | [], _, _, _ => rfl
  | e :: h, c, hc, hl => by
    have ih := fun c' (hc' : n < c') => received_dataOf n h c' hc' (fun hm => hl (List.mem_cons_of_mem _ hm))
    cases e with
    | conn p => exact ih _ (by omega)
    | announce cid k app p => exact ih _ hc
    | data m d =>
      simp only [receivedFrom, dataOf]
      rw [ih c hc]
      by_cases hm : m = n
      · rw [if_pos ⟨hm, hc, trivial⟩, if_pos hm]
      · rw [if_neg (fun h => hm h.1), if_neg hm]
    | lost m =>
      have hm : m ≠ n := by rintro rfl; exact hl (List.mem_cons_self ..)
      simp only [receivedFrom, dataOf]
      rw [show (false || (decide (m = n) && decide (n < c))) = false by simp [hm]]
      exact ih c hc

theorem received_before (n : Nat) : ∀ (a h : List Ev) (c : Nat), c + made a ≤ n →
    receivedFrom n c false (a ++ h) = receivedFrom n (c + made a) false h
  | [], h, c, _ => by simp [made]
  | e :: a, h, c, hc => by
    have hm := made_cons e a
    cases e with
    | conn p =>
      have : made [Ev.conn p] = 1 := rfl
      rw [List.cons_append, receivedFrom, received_before n a h (c + 1) (by omega)]
      congr 1 <;> omega
    | announce cid k app p =>
      have : made [Ev.announce cid k app p] = 0 := rfl
      rw [List.cons_append, receivedFrom, received_before n a h c (by omega)]
      congr 1 <;> omega
    | data m d =>
      have : made [Ev.data m d] = 0 := rfl
      rw [List.cons_append, receivedFrom, if_neg (by omega), received_before n a h c (by omega)]
      congr 1 <;> omega
    | lost m =>
      have : made [Ev.lost m] = 0 := rfl
      rw [List.cons_append, receivedFrom, show (false || (decide (m = n) && decide (n < c))) = false by simp; omega,
        received_before n a h c (by omega)]
      congr 1 <;> omega

/-- Put together: once it was built with `k` and `app` and was never lost, these are all effects. -/
theorem paired {h : List Ev} {n : Nat} {k : Kind} {app : Nat} (hb : Eff.built n k app ∈ (exec .init h).out) (hl : Ev.lost n ∉ h) :
    effectsOn n (exec .init h).out = .built n k app :: (received n h).map (.push n) := by
  have hno := exec_noLoss n h .init hl (by simp [St.init])
  have hmem : Eff.built n k app ∈ effectsOn n (exec .init h).out := by
    simp only [effectsOn, List.mem_filter]
    exact ⟨hb, by simp [Eff.on]⟩
  have hno' : ∀ x ∈ effectsOn n (exec .init h).out, x ≠ .closed n ∧ x ≠ .raised n := by
    intro x hx
    exact hno x (List.mem_filter.mp hx).1
  rcases C37_stream h n with h1 | h1 | ⟨k', app', h1 | h1 | h1⟩
  · rw [h1] at hmem; simp at hmem
  · rw [h1] at hmem; simp at hmem
  · rw [h1] at hmem ⊢
    simp at hmem
    rw [hmem.1, hmem.2]
  · exact absurd rfl (hno' (.closed n) (by rw [h1]; simp)).1
  · exact absurd rfl (hno' (.raised n) (by rw [h1]; simp)).2

/-- C37. The connection first, its announcement later: the stack of the announced kind with the announced application is built
once, and gets all data received on the connection, before and after, in order. -/
theorem C37_connection_first_partial (a b c : List Ev) (p cid app : Nat) (k : Kind)
    (hp : ∀ e ∈ a ++ b ++ c, ¬ e.usesPort p) (hl : Ev.lost (made a) ∉ a ++ b ++ c) :
    effectsOn (made a) (exec .init (a ++ .conn p :: (b ++ .announce cid k app p :: c))).out =
      .built (made a) k app :: (dataOf (made a) (b ++ c)).map (.push (made a)) := by
  have hp1 : ∀ e ∈ a, ¬ e.usesPort p := fun e he => hp e (by simp [he])
  have hp2 : ∀ e ∈ b, ¬ e.usesPort p := fun e he => hp e (by simp [he])
  have hl1 : Ev.lost (made a) ∉ a := fun h => hl (by simp [h])
  have hl2 : Ev.lost (made a) ∉ b := fun h => hl (by simp [h])
  have hl3 : Ev.lost (made a) ∉ c := fun h => hl (by simp [h])
  have hi := Inv.exec a Inv.init
  have ho : Only St.init p none := ⟨rfl, fun m hm => by simp [St.init] at hm⟩
  obtain ⟨o1, c1⟩ := ho.exec a Inv.init hp1
  have c1' : (exec .init a).connectionData.get p = none := c1
  have hn : (exec .init a).nProto = made a := by rw [exec_nProto]; simp [St.init]
  have hmem : Eff.built (made a) k app ∈ (exec .init (a ++ .conn p :: (b ++ .announce cid k app p :: c))).out := by
    rw [exec_append, exec]
    generalize hs : exec .init a = s at *
    -- after the connection
    have hs1 : step s (.conn p) = { setP s s.nProto ⟨p, false, [], false⟩ with
        nProto := s.nProto + 1, dataProtocols := s.dataProtocols.set p s.nProto } := by
      exact tryBuild_none c1'
    have o2 : Only (step s (.conn p)) p (some (made a)) := by
      rw [hs1]
      refine ⟨?_, ?_⟩
      · show (s.dataProtocols.set p s.nProto).get p = _
        rw [Dict.get_set_self, hn]
      · intro m hm hpm
        have hm' : m < s.nProto + 1 := hm
        have hpm' : (if m = s.nProto then (⟨p, false, [], false⟩ : Proto) else s.proto m).port = p := hpm
        by_cases e : m = s.nProto
        · rw [e, hn]
        · rw [if_neg e] at hpm'
          have := o1.2 m (by omega) hpm'
          cases this
    rw [exec_append]
    obtain ⟨o3, _⟩ := o2.exec b (hi.step _) hp2
    generalize exec (step s (.conn p)) b = t at *
    rw [exec]
    obtain ⟨l, hl⟩ := exec_out c (step t (.announce cid k app p))
    rw [hl]
    apply List.mem_append_left
    simp only [step, complete]
    unfold tryBuild
    rw [show ({ t with connectionData := t.connectionData.set p (cid, k, app) } : St).connectionData.get p = some (cid, k, app) from
      Dict.get_set_self _ _ _, show ({ t with connectionData := t.connectionData.set p (cid, k, app) } : St).dataProtocols.get p =
        some (made a) from o3.1]
    show _ ∈ t.out ++ .built (made a) k app :: _
    simp
  rw [paired hmem (by simp [hl1, hl2, hl3])]
  congr 2
  show receivedFrom _ 0 false _ = _
  rw [received_before _ a _ 0 (by omega), receivedFrom, received_dataOf _ _ _ (by omega) (by simp [hl2, hl3])]
  have dat_app : ∀ (x y : List Ev), dataOf (made a) (x ++ y) = dataOf (made a) x ++ dataOf (made a) y := by
    intro x y
    induction x with
    | nil => rfl
    | cons e x ih =>
      cases e <;> simp only [List.cons_append, dataOf, ih]
      split <;> simp
  rw [dat_app, dat_app]
  rfl

/-- C37. The announcement first, the connection later: the same result. -/
theorem C37_announcement_first_partial (a b c : List Ev) (p cid app : Nat) (k : Kind)
    (hp : ∀ e ∈ a ++ b ++ c, ¬ e.usesPort p) (hl : Ev.lost (made (a ++ b)) ∉ a ++ b ++ c) :
    effectsOn (made (a ++ b)) (exec .init (a ++ .announce cid k app p :: (b ++ .conn p :: c))).out =
      .built (made (a ++ b)) k app :: (dataOf (made (a ++ b)) c).map (.push (made (a ++ b))) := by
  have hp1 : ∀ e ∈ a, ¬ e.usesPort p := fun e he => hp e (by simp [he])
  have hp2 : ∀ e ∈ b, ¬ e.usesPort p := fun e he => hp e (by simp [he])
  have hl1 : Ev.lost (made (a ++ b)) ∉ a := fun h => hl (by simp [h])
  have hl2 : Ev.lost (made (a ++ b)) ∉ b := fun h => hl (by simp [h])
  have hl3 : Ev.lost (made (a ++ b)) ∉ c := fun h => hl (by simp [h])
  have hi := Inv.exec a Inv.init
  have ho : Only St.init p none := ⟨rfl, fun m hm => by simp [St.init] at hm⟩
  obtain ⟨o1, c1⟩ := ho.exec a Inv.init hp1
  have hmm : made (a ++ .announce cid k app p :: b) = made (a ++ b) := by
    rw [made_append, made_append, made_cons]; simp [made]
  have hmem : Eff.built (made (a ++ b)) k app ∈ (exec .init (a ++ .announce cid k app p :: (b ++ .conn p :: c))).out := by
    have hn : (exec .init (a ++ .announce cid k app p :: b)).nProto = made (a ++ b) := by
      rw [exec_nProto, hmm]; simp [St.init]
    rw [show a ++ Ev.announce cid k app p :: (b ++ .conn p :: c) = (a ++ .announce cid k app p :: b) ++ .conn p :: c by simp,
      exec_append]
    rw [exec_append] at hn ⊢
    rw [exec] at hn
    rw [exec, exec]
    generalize exec .init a = s at *
    have hs1 : step s (.announce cid k app p) = { s with connectionData := s.connectionData.set p (cid, k, app) } := by
      simp only [step, complete]
      unfold tryBuild
      rw [show ({ s with connectionData := s.connectionData.set p (cid, k, app) } : St).dataProtocols.get p = none from o1.1]
      split
      · next h1 h2 => cases h2
      · rfl
    have o2 : Only (step s (.announce cid k app p)) p none := by rw [hs1]; exact o1
    obtain ⟨o3, c3⟩ := o2.exec b (hi.step _) hp2
    rw [hs1, show ({ s with connectionData := s.connectionData.set p (cid, k, app) } : St).connectionData.get p = some (cid, k, app) from
      Dict.get_set_self _ _ _] at c3
    rw [← hs1] at c3
    generalize exec (step s (.announce cid k app p)) b = t at hn o3 c3 ⊢
    obtain ⟨l, hl⟩ := exec_out c (step t (.conn p))
    rw [hl]
    apply List.mem_append_left
    have hb : step t (.conn p) = _ := tryBuild_some (x := { setP t t.nProto ⟨p, false, [], false⟩ with nProto := t.nProto + 1, dataProtocols := t.dataProtocols.set p t.nProto }) (n := t.nProto) c3 (Dict.get_set_self _ _ _)
    rw [hb]
    show _ ∈ t.out ++ .built t.nProto k app :: _
    rw [hn]
    simp
  rw [paired hmem (by simp [hl1, hl2, hl3])]
  congr 2
  show receivedFrom _ 0 false _ = _
  rw [show a ++ Ev.announce cid k app p :: (b ++ .conn p :: c) = (a ++ .announce cid k app p :: b) ++ .conn p :: c by simp,
    received_before _ _ _ 0 (by omega), receivedFrom, received_dataOf _ _ _ (by omega) hl3]

/-- C37 needs both on a port of its own. Two callback connections from the same port number (of different hosts; the service only
looks at the number) before their announcements: the first one is never built and its data never delivered. -/
theorem C37_false_same_port :
    let s := exec .init [.conn 500, .data 0 [1], .conn 500, .data 1 [2], .announce 1 .listen 7 500, .announce 2 .listen 8 500]
    s.out = [.built 1 .listen 7, .push 1 [2]] ∧ s.connectionData.get 500 = some (2, .listen, 8) := by decide +kernel

/-- A connection lost before its announcement stays registered: the announcement builds the stack on the dead connection, and the
application never hears of the loss. -/
theorem C37_false_lost :
    (exec .init [.conn 500, .data 0 [1], .lost 0, .announce 1 .listen 7 500]).out =
      [.raised 0, .built 0 .listen 7, .push 0 [1]] := by decide +kernel

/-- A case of the theorems: two connections, in different orders. -/
example :
    let h := [Ev.conn 500, .data 0 [1], .announce 3 .connect 9 501, .data 0 [2], .announce 1 .listen 7 500, .conn 501, .data 1 [5], .data 0 [3], .lost 1]
    effectsOn 0 (exec .init h).out = [.built 0 .listen 7, .push 0 [1], .push 0 [2], .push 0 [3]] ∧
    effectsOn 1 (exec .init h).out = [.built 1 .connect 9, .push 1 [5], .closed 1] ∧
    made [.conn 500, .data 0 [1], .announce 3 .connect 9 501] = 1 ∧
    received 0 h = [[1], [2], [3]] := by decide +kernel

end Verif.Callback
