import Verif.Props.SpmpHidden
import Verif.Lemmas.Skip
import Verif.Props.SpmpFramed
/-! # C44: a packet that cannot be handed on, on a connection of another protocol -/
namespace Verif.Spmp

/-- The packets among what `nextPackets` yields. -/
def packets : List Event → List Val
  | [] => []
  | .packet v :: es => v :: packets es
  | .error _ :: es => packets es

theorem nextLoop_more {env : Env} {depth : Nat} {cls : Cls} {n m : Nat} (h : n ≤ m) {st : DState} (ht : (nextLoop env depth cls n st).2.2 = true) :
    nextLoop env depth cls m st = nextLoop env depth cls n st := by
  induction m with
  | zero => cases Nat.le_zero.1 h; rfl
  | succ m ih =>
    rcases Nat.lt_or_eq_of_le h with h | rfl
    · have := ih (by omega)
      rw [nextLoop_fuel _ _ (by rw [this]; exact ht), this]
    · rfl

theorem hideLoop_raise {σ : Type} (c : Cfg σ) (main : Main σ) (base : Cls) {k : Nat} (hd : c.depth = k + 1) {v : Val} {evs : List Event} {w1 w2 : σ} {acts2 : List Act} :
    ∀ (n : Nat) (s : Hidden σ) (es : List Event) (acts : List Act), Ready c.env (k + 1) base s.des →
    (nextLoop c.env (k + 1) base n s.des).1 = es ++ .packet v :: evs → (nextLoop c.env (k + 1) base n s.des).2.2 = true →
    hideAll c main s.up s.w (packets es) = (w1, acts, false) → hide c main s.up w1 v = (w2, acts2, true) →
    ∃ d m, hideLoop c main base n s = (⟨d, s.up, w2⟩, acts ++ acts2) ∧ Ready c.env (k + 1) base d ∧
      (nextLoop c.env (k + 1) base m d).1 = evs ∧ (nextLoop c.env (k + 1) base m d).2.2 = true
  | 0, s, es, acts, _, he, _, _, _ => by simp [nextLoop] at he
  | n + 1, s, es, acts, hr, he, ht, h1, h2 => by
    have hri := hr.iter.1
    rw [nextLoop] at he ht
    unfold hideLoop
    rw [hd]
    cases hi : s.des.iter c.env (k + 1) base with
    | mk o d =>
      rw [hi] at he ht hri
      cases o with
      | none => simp at he
      | some e =>
        dsimp only at he ht hri ⊢
        cases es with
        | nil =>
          simp only [List.nil_append, List.cons.injEq] at he
          obtain ⟨rfl, he⟩ := he
          dsimp only
          rw [packets, hideAll] at h1
          cases h1
          rw [h2]
          exact ⟨d, n, rfl, hri, he, ht⟩
        | cons e' es =>
          simp only [List.cons_append, List.cons.injEq] at he
          obtain ⟨rfl, he⟩ := he
          cases e with
          | error x =>
            dsimp only
            exact hideLoop_raise c main base hd n { s with des := d } es acts hri he ht h1 h2
          | packet p =>
            dsimp only
            rw [packets, hideAll] at h1
            cases hp : hide c main s.up s.w p with
            | mk w' r =>
              obtain ⟨a, raised⟩ := r
              rw [hp] at h1
              cases raised with
              | true => simp at h1
              | false =>
                dsimp only at h1 ⊢
                obtain ⟨e1, e2⟩ := Prod.mk.inj h1
                obtain ⟨e2, e3⟩ := Prod.mk.inj e2
                subst e2
                obtain ⟨d', m, g1, g2, g3, g4⟩ := hideLoop_raise c main base hd n { s with des := d, w := w' } es _ hri he ht
                  (Prod.ext e1 (Prod.ext rfl e3)) h2
                refine ⟨d', m, ?_, g2, g3, g4⟩
                rw [g1]
                simp

theorem hideLoop_ready {σ : Type} (c : Cfg σ) (main : Main σ) (base : Cls) {k : Nat} (hd : c.depth = k + 1) :
    ∀ (n : Nat) (s : Hidden σ), Ready c.env (k + 1) base s.des → Ready c.env (k + 1) base (hideLoop c main base n s).1.des
  | 0, _, hr => hr
  | n + 1, s, hr => by
    have hri := hr.iter.1
    unfold hideLoop
    rw [hd]
    cases hi : s.des.iter c.env (k + 1) base with
    | mk o d =>
      rw [hi] at hri
      cases o with
      | none => exact hri
      | some e =>
        cases e with
        | error x => exact hideLoop_ready c main base hd n _ hri
        | packet p =>
          dsimp only
          split
          · exact hri
          · exact hideLoop_ready c main base hd n _ hri

theorem recv_ready {σ : Type} (c : Cfg σ) (main : Main σ) (base : Cls) {k : Nat} (hd : c.depth = k + 1) :
    ∀ (bs : List Bytes) (s : Hidden σ), Ready c.env (k + 1) base s.des → Ready c.env (k + 1) base (s.recv c main base bs).1.des
  | [], _, hr => hr
  | b :: bs, s, hr => recv_ready c main base hd bs _ (hideLoop_ready c main base hd _ _ (hr.update b))

/-- C44 on a connection of another protocol. Whatever has been received: if among the packets of the next data there is one, not a request, that cannot be serialized again
(as one without a required field) or that makes the main protocol raise, the packets ahead of it are dealt with, then the protocol stops; nothing is done for those behind it,
and they are not lost: they are what comes out of the deserializer next. -/
theorem C44_hidden_raise {σ : Type} (c : Cfg σ) (main : Main σ) {k : Nat} (hd : c.depth = k + 1) (base : Cls) (w : σ) (bs : List Bytes) (b : Bytes)
    (s : Hidden σ) (hs : s = ((Hidden.init c base w).recv c main base bs).1) (es evs : List Event) (v : Val)
    (he : ((s.des.update b).next c.env c.depth base).1 = es ++ .packet v :: evs) (w1 w2 : σ) (acts acts2 : List Act)
    (h1 : hideAll c main s.up s.w (packets es) = (w1, acts, false)) (hv : ofVal c.cls v = none)
    (h2 : ((∃ e, serialize c.env 0 v = .error e) ∧ w2 = w1 ∧ acts2 = []) ∨ ∃ x, serialize c.env 0 v = .ok x ∧ main w1 x = (w2, acts2, true)) :
    (s.data c main base b).2 = acts ++ acts2 ∧ (s.data c main base b).1.w = w2 ∧ ((s.data c main base b).1.des.next c.env c.depth base).1 = evs := by
  have hh : hide c main s.up w1 v = (w2, acts2, true) := by
    unfold hide
    rw [hv]
    dsimp only
    rcases h2 with ⟨⟨e, h⟩, rfl, rfl⟩ | ⟨x, h, hm⟩
    · rw [h]
    · rw [h]; exact hm
  have hr : Ready c.env (k + 1) base (s.des.update b) := by
    rw [hs]
    refine (recv_ready c main base hd bs _ ?_).update b
    unfold Hidden.init
    rw [hd]
    exact .init ..
  rw [hd] at he ⊢
  unfold DState.next at he
  obtain ⟨d, m, g1, g2, g3, g4⟩ := hideLoop_raise c main base hd _ { s with des := s.des.update b } es acts hr he
    (Ready.next _ _ hr (by omega)).1 h1 hh
  have e : s.data c main base b = (⟨d, s.up, w2⟩, acts ++ acts2) := g1
  rw [e]
  refine ⟨rfl, rfl, ?_⟩
  have ht := (Ready.next (d.buf.length + 1) d g2 (by omega)).1
  unfold DState.next
  rcases Nat.le_total m (d.buf.length + 1) with h | h
  · rw [nextLoop_more h g4, g3]
  · rw [← nextLoop_more h ht, g3]

theorem plain7_sent : ofVal 1 (plain 7) = none ∧ Sendable fEnv 0 (plain 7) ∧ Decodes fEnv 2 0 (ser fEnv (plain 7)) (plain 7) := by
  have hs : Sendable fEnv 0 (plain 7) := by
    refine ⟨by decide +kernel, ?_⟩
    cases hf : serialize fEnv 0 (plain 7) with
    | ok b => exact ⟨b, rfl⟩
    | error e =>
      have : (match serialize fEnv 0 (plain 7) with | .ok _ => true | .error _ => false) = true := by decide +kernel
      rw [hf] at this
      cases this
  exact ⟨rfl, hs, C01_roundtrip_flat_partial fRegistered hs (by simp [flatF, flatV]) (by simp [asciiF, asciiV])⟩

/-- The main protocol raises on the first of two packets that come together; the second waits. -/
theorem raise_two {σ : Type} (c : Cfg σ) (main : Main σ) (hm : ∀ w b, main w b = (w, [], true)) {k : Nat} (hd : c.depth = k + 1) (hr : c.env.Registered) (base : Cls)
    (v : Val) (h1 : ofVal c.cls v = none) (h2 : Sendable c.env base v) (h3 : Decodes c.env (k + 1) base (ser c.env v) v) (w : σ) :
    (((Hidden.init c base w).data c main base (ser c.env v ++ ser c.env v)).1.des.next c.env c.depth base).1 = [.packet v] := by
  have hn := chunks_vals hr (depth := k) (base := base) [v, v] (fun p hp => by
    have : p = v := by simpa using hp
    subst this
    exact ⟨h2, h3⟩) [ser c.env v ++ ser c.env v] (by simp)
  obtain ⟨x, hx⟩ := h2.2
  simp only [opsOf, List.flatMap_cons, List.flatMap_nil, List.append_nil, runOps] at hn
  rw [← hd] at hn
  exact (C44_hidden_raise c main hd base w [] _ _ rfl [] [.packet v] v hn w w [] [] rfl h1 (.inr ⟨x, hx, hm _ _⟩)).2.2

example (w : Str) (main : Main Str) (hm : ∀ w b, main w b = (w, [], true)) :
    (((Hidden.init (fCfg fun _ => true) 0 w).data (fCfg fun _ => true) main 0 (ser fEnv (plain 7) ++ ser fEnv (plain 7))).1.des.next fEnv 2 0).1 = [.packet (plain 7)] :=
  raise_two (fCfg fun _ => true) main hm (k := 1) rfl fRegistered 0 (plain 7) plain7_sent.1 plain7_sent.2.1 plain7_sent.2.2 w

end Verif.Spmp
