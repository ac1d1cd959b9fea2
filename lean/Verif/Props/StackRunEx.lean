import Verif.Props.StackRun
/-! # C80: layers that keep their promise, and cases in which the stack does not -/
namespace Verif.StackRun
open Stack (Tgt Heap Path Factory attach layers flat)

/-! ## Layers that answer each call with at most one call -/

/-- A layer that answers each call with at most one call. -/
def oneShot {σ} (g : Msg → σ → σ × Option Cmd) (m : Msg) (_ : σ) : Prog σ := .ins (g m) fun e _ => .ret e

theorem oneShot_inv {σ} (g : Msg → σ → σ × Option Cmd) (I : σ → List LEv → Prop)
    (hq : ∀ m s l s', I s l → g m s = (s', none) → I s' (l ++ [.inp m]))
    (ho : ∀ m s l s' c, I s l → g m s = (s', some c) → I s' (l ++ [.inp m, .out c]))
    (hb : ∀ r s l, I s l → I s (l ++ [.back r])) (hd : ∀ r s l, I s l → I s (l ++ [.done r])) {s s' : σ} {t : List LEv} (h : Env (oneShot g) s t s')
    (l : List LEv) (hl : I s l) : I s' (l ++ t) := by
  match h with
  | .nil _ => simpa using hl
  | .cons (.quiet hf (.ret _ _)) e =>
    have h1 := hd none _ _ (hq _ _ _ _ hl hf)
    have := oneShot_inv g I hq ho hb hd e _ h1
    simpa [List.append_assoc] using this
  | .cons (.out (r0 := r0) hf e1 (.ret _ _)) e =>
    have h1 := oneShot_inv g I hq ho hb hd e1 _ (ho _ _ _ _ _ hl hf)
    have h2 := hd r0 _ _ (hb r0 _ _ h1)
    have := oneShot_inv g I hq ho hb hd e _ h2
    simpa [List.append_assoc] using this

/-- A layer that is a plain `StackingTransport` (Protocol.py:72-83) and passes everything up. -/
def plain {σ} : Msg → σ → Prog σ := oneShot fun m s => match m with
  | .up u => (s, some (.up u))
  | .dn d => (s, some (.down d))
  | .tick _ => (s, none)

/-- C80. A plain layer keeps every relation. -/
theorem C80_plain {σ} (R : Bytes → Bytes → Prop) (a b : σ) : Keeps R plain a plain b := by
  have key : ∀ {s : σ} {t s'}, Env plain s t s' → t.flatMap LEv.passed = t.flatMap LEv.got ∧ t.flatMap LEv.sent = t.flatMap LEv.wrote := by
    intro s t s' h
    have := oneShot_inv _ (fun (_ : σ) l => l.flatMap LEv.passed = l.flatMap LEv.got ∧ l.flatMap LEv.sent = l.flatMap LEv.wrote)
      (fun m s l s' hl hg => by
        cases m with
        | tick k => simpa [LEv.passed, LEv.got, LEv.sent, LEv.wrote] using hl
        | up u => cases hg
        | dn d => cases hg)
      (fun m s l s' c hl hg => by
        cases m with
        | tick k => cases hg
        | up u =>
          cases hg
          simp only [List.flatMap_append, hl.1, hl.2]
          cases u <;> simp [LEv.passed, LEv.got, LEv.sent, LEv.wrote]
        | dn d =>
          cases hg
          simp only [List.flatMap_append, hl.1, hl.2]
          cases d <;> simp [LEv.passed, LEv.got, LEv.sent, LEv.wrote])
      (fun r s l hl => by simpa [LEv.passed, LEv.got, LEv.sent, LEv.wrote] using hl)
      (fun r s l hl => by simpa [LEv.passed, LEv.got, LEv.sent, LEv.wrote] using hl) h [] ⟨rfl, rfl⟩
    exact this
  intro la lb sa sb ha hb _ _ r1 r2
  rw [(key ha).1, (key hb).1, ← (key ha).2, ← (key hb).2]
  exact ⟨r1, r2⟩

/-! A stream cipher: the position in the key stream is kept for each direction. -/

def cipher (key : Nat → UInt8) : Nat → Bytes → Bytes
  | _, [] => []
  | n, b :: d => (b ^^^ key n) :: cipher key (n + 1) d

theorem cipher_append (key : Nat → UInt8) : ∀ (n : Nat) (a b : Bytes), cipher key n (a ++ b) = cipher key n a ++ cipher key (n + a.length) b
  | n, [], b => by simp [cipher]
  | n, x :: a, b => by
    rw [List.cons_append, cipher, cipher_append key (n + 1) a b, cipher, List.length_cons, Nat.add_right_comm]
    rfl

theorem cipher_cipher (key : Nat → UInt8) : ∀ (n : Nat) (d : Bytes), cipher key n (cipher key n d) = d
  | _, [] => rfl
  | n, b :: d => by
    rw [cipher, cipher, cipher_cipher key (n + 1) d, UInt8.xor_assoc]
    simp

/-- The layer: the number of bytes received and sent so far is its state. -/
def cipherLayer (key : Nat → UInt8) : Msg → Nat × Nat → Prog (Nat × Nat) := oneShot fun m s => match m with
  | .up (.data d) => ((s.1 + d.length, s.2), some (.up (.data (cipher key s.1 d))))
  | .up u => (s, some (.up u))
  | .dn (.write d) => ((s.1, s.2 + d.length), some (.down (.write (cipher key s.2 d))))
  | .dn m => (s, some (.down m))
  | .tick _ => (s, none)

theorem cipher_trace (key : Nat → UInt8) {t s'} (h : Env (cipherLayer key) (0, 0) t s') :
    t.flatMap LEv.passed = cipher key 0 (t.flatMap LEv.got) ∧ t.flatMap LEv.sent = cipher key 0 (t.flatMap LEv.wrote) := by
  have := oneShot_inv _ (fun (s : Nat × Nat) l => (l.flatMap LEv.passed = cipher key 0 (l.flatMap LEv.got) ∧ l.flatMap LEv.sent = cipher key 0 (l.flatMap LEv.wrote)) ∧
      s.1 = (l.flatMap LEv.got).length ∧ s.2 = (l.flatMap LEv.wrote).length)
    (fun m s l s' hl hg => by
      cases m with
      | tick k => cases hg; simpa [LEv.passed, LEv.got, LEv.sent, LEv.wrote] using hl
      | up u => cases u <;> cases hg
      | dn d => cases d <;> cases hg)
    (fun m s l s' c hl hg => by
      obtain ⟨⟨h1, h2⟩, h3, h4⟩ := hl
      cases m with
      | tick k => cases hg
      | up u =>
        cases u <;> cases hg <;> simp [List.flatMap_append, LEv.passed, LEv.got, LEv.sent, LEv.wrote, h1, h2, h3, h4, cipher_append]
      | dn d =>
        cases d <;> cases hg <;> simp [List.flatMap_append, LEv.passed, LEv.got, LEv.sent, LEv.wrote, h1, h2, h3, h4, cipher_append])
    (fun r s l hl => by simpa [LEv.passed, LEv.got, LEv.sent, LEv.wrote] using hl)
    (fun r s l hl => by simpa [LEv.passed, LEv.got, LEv.sent, LEv.wrote] using hl) h [] ⟨⟨rfl, rfl⟩, rfl, rfl⟩
  exact this.1

/-- The cipher keeps "the same bytes", in every environment. -/
theorem cipher_keeps (key : Nat → UInt8) : Keeps (· = ·) (cipherLayer key) (0, 0) (cipherLayer key) (0, 0) := by
  intro la lb sa sb ha hb _ _ r1 r2
  obtain ⟨a1, a2⟩ := cipher_trace key ha
  obtain ⟨b1, b2⟩ := cipher_trace key hb
  rw [a1, b1, r1, r2, a2, b2, cipher_cipher, cipher_cipher]
  exact ⟨rfl, rfl⟩

/-! ## Layers that pass up several chunks -/

/-- Pass up the bytes one by one. -/
def splitUp {σ} : Bytes → Prog σ
  | [] => .ret none
  | b :: d => .up (.data [b]) (splitUp d)

def split {σ} : Msg → σ → Prog σ
  | .up (.data d), _ => splitUp d
  | .up u, _ => .up u (.ret none)
  | .dn m, _ => delegate m
  | .tick _, _ => .ret none

theorem split_polite {σ} : Polite (split (σ := σ)) := fun d s => by
  refine ⟨fun _ _ => nofun, fun e _ => ?_⟩
  cases e <;> trivial

theorem CleanL.append {a b : List LEv} (h : CleanL (a ++ b)) : CleanL a ∧ CleanL b :=
  ⟨fun r hr => h r (hr.imp (List.mem_append_left _) (List.mem_append_left _)), fun r hr => h r (hr.imp (List.mem_append_right _) (List.mem_append_right _))⟩

theorem CleanL.cons {a : LEv} {b : List LEv} (h : CleanL (a :: b)) : CleanL b :=
  fun r hr => h r (hr.imp (List.mem_cons_of_mem _) (List.mem_cons_of_mem _))

theorem CleanL.back {r : Option Err} {b : List LEv} (h : CleanL (.back r :: b)) : r = none := h r (.inl (List.mem_cons_self ..))

def Flows (t : List LEv) (got passed wrote sent : Bytes) : Prop :=
  t.flatMap LEv.got = got ∧ t.flatMap LEv.passed = passed ∧ t.flatMap LEv.wrote = wrote ∧ t.flatMap LEv.sent = sent

/-- While only the transport is called, what is written is sent. -/
theorem split_dn {σ} {A : Msg → Prop} (hA : ∀ m, A m → IsDn m) {s s' : σ} {t : List LEv} (h : Calm split A s t s') (hc : CleanL t) : ∃ w, Flows t [] [] w w := by
  match h with
  | .nil _ _ => exact ⟨[], rfl, rfl, rfl, rfl⟩
  | .cons (t2 := t2) hm cd e =>
    obtain ⟨d, hd⟩ := hA _ hm
    subst hd
    obtain ⟨w, h1, h2, h3, h4⟩ := split_dn hA e (hc.append.2.cons)
    match cd with
    | .down (r0 := r0) (m := m) hf cd' =>
      cases hf
      have hr : r0 = none := hc r0 (.inl (by simp))
      subst hr
      match cd' with
      | .ret _ _ =>
        refine ⟨dnBytes d ++ w, ?_, ?_, ?_, ?_⟩ <;> cases d <;>
          simp [List.flatMap_cons, List.flatMap_append, LEv.got, LEv.passed, LEv.wrote, LEv.sent, dnBytes, h1, h2, h3, h4]
    | .quiet hf _ => cases hf
    | .up hf _ _ => cases hf

theorem splitUp_flows {σ} : ∀ (d : Bytes) {s s' : σ} {t : List LEv} {r : Option Err}, CDoes split (splitUp d) s t s' r → CleanL t → ∃ w, Flows t [] d w w
  | [], _, _, _, _, h, _ => by
    match h with
    | .ret _ _ => exact ⟨[], rfl, rfl, rfl, rfl⟩
  | b :: d, _, _, _, _, h, hc => by
    match h with
    | .quiet hf _ => cases hf
    | .down hf _ => cases hf
    | .up (r0 := r0) hf e cd =>
      cases hf
      have hr : r0 = none := hc r0 (.inl (by simp))
      subst hr
      obtain ⟨w1, a1, a2, a3, a4⟩ := split_dn (fun _ h => h) e (hc.append.1.cons)
      obtain ⟨w2, b1, b2, b3, b4⟩ := splitUp_flows d cd (hc.append.2.cons)
      refine ⟨w1 ++ w2, ?_, ?_, ?_, ?_⟩ <;>
        simp [List.flatMap_cons, List.flatMap_append, LEv.got, LEv.passed, LEv.wrote, LEv.sent, a1, a2, a3, a4, b1, b2, b3, b4]

theorem passUp_flows {σ} (u : Up) (hu : ∀ d, u ≠ .data d) {s s' : σ} {t : List LEv} {r : Option Err} (h : CDoes split (.up u (.ret none)) s t s' r)
    (hc : CleanL t) : ∃ w, Flows t [] [] w w := by
  match h with
  | .quiet hf _ => cases hf
  | .down hf _ => cases hf
  | .up (r0 := r0) hf e cd =>
    cases hf
    have hr : r0 = none := hc r0 (.inl (by simp))
    subst hr
    obtain ⟨w1, a1, a2, a3, a4⟩ := split_dn (fun _ h => h) e (hc.append.1.cons)
    match cd with
    | .ret _ _ =>
      refine ⟨w1, ?_, ?_, ?_, ?_⟩ <;> cases u <;>
        simp_all [List.flatMap_cons, List.flatMap_append, LEv.got, LEv.passed, LEv.wrote, LEv.sent]

theorem Flows.append {a b : List LEv} {g g' p p' w w' s s' : Bytes} (ha : Flows a g p w s) (hb : Flows b g' p' w' s') :
    Flows (a ++ b) (g ++ g') (p ++ p') (w ++ w') (s ++ s') := by
  obtain ⟨a1, a2, a3, a4⟩ := ha
  obtain ⟨b1, b2, b3, b4⟩ := hb
  refine ⟨?_, ?_, ?_, ?_⟩ <;> simp [List.flatMap_append, a1, a2, a3, a4, b1, b2, b3, b4]

theorem split_flows {σ} {A : Msg → Prop} {s s' : σ} {t : List LEv} (h : Calm split A s t s') (hc : CleanL t) : ∃ g w, Flows t g g w w := by
  match h with
  | .nil _ _ => exact ⟨[], [], rfl, rfl, rfl, rfl⟩
  | .cons (m := m) (t1 := t1) (r := r) (t2 := t2) _ cd e =>
    obtain ⟨g, w, hf⟩ := split_flows e (hc.append.2.cons)
    have hdone : Flows (.done r :: t2) g g w w := hf
    have hc1 : CleanL t1 := hc.append.1.cons
    have key : ∃ g' w', Flows (.inp m :: t1) g' g' w' w' := by
      cases m with
      | tick k =>
        match cd with
        | .ret _ _ => exact ⟨[], [], rfl, rfl, rfl, rfl⟩
      | up u =>
        cases u with
        | data d =>
          obtain ⟨w', h1, h2, h3, h4⟩ := splitUp_flows d cd hc1
          refine ⟨d, w', ?_, ?_, ?_, ?_⟩ <;> simp [List.flatMap_cons, LEv.got, LEv.passed, LEv.wrote, LEv.sent, h1, h2, h3, h4]
        | made =>
          obtain ⟨w', h1, h2, h3, h4⟩ := passUp_flows .made nofun cd hc1
          exact ⟨[], w', h1, h2, h3, h4⟩
        | lost =>
          obtain ⟨w', h1, h2, h3, h4⟩ := passUp_flows .lost nofun cd hc1
          exact ⟨[], w', h1, h2, h3, h4⟩
      | dn d =>
        have hc' : CleanL (.inp (.dn d) :: t1 ++ .done r :: []) := by
          intro r' hr'
          apply hc r'
          simp only [List.cons_append, List.mem_cons, List.mem_append, List.not_mem_nil, or_false] at hr' ⊢
          rcases hr' with hh | hh
          · exact .inl (by rcases hh with hh | hh | hh <;> first | exact .inl hh | exact .inr (.inl hh) | exact .inr (.inr (.inl hh)))
          · exact .inr (by rcases hh with hh | hh | hh <;> first | exact .inl hh | exact .inr (.inl hh) | exact .inr (.inr (.inl hh)))
        obtain ⟨w', h1, h2, h3, h4⟩ := split_dn (A := IsDn) (fun _ h => h) (.cons ⟨d, rfl⟩ cd (.nil _ _)) hc'
        refine ⟨[], w', ?_, ?_, ?_, ?_⟩
        · simpa [List.flatMap_append, LEv.got] using h1
        · simpa [List.flatMap_append, LEv.passed] using h2
        · simpa [List.flatMap_append, LEv.wrote] using h3
        · simpa [List.flatMap_append, LEv.sent] using h4
    obtain ⟨g', w', hk⟩ := key
    exact ⟨_, _, hk.append hdone⟩

/-- A layer that passes up each byte on its own keeps every relation, in calm environments. -/
theorem split_keeps {σ} (R : Bytes → Bytes → Prop) (a b : σ) : KeepsCalm R split a split b := by
  intro la lb sa sb ha hb ca cb r1 r2
  obtain ⟨ga, wa, a1, a2, a3, a4⟩ := split_flows ha ca
  obtain ⟨gb, wb, b1, b2, b3, b4⟩ := split_flows hb cb
  rw [a1, b4] at r2
  rw [b1, a4] at r1
  rw [a2, a3, b2, b3]
  exact ⟨r1, r2⟩

/-- C80 needs calm environments for such layers: when the layer below passes up data while this one is passing up (because the application wrote, say), the
bytes arrive in another order. -/
theorem C80_false_reentered : ¬ Keeps (· = ·) (split (σ := Unit)) () split () := by
  intro h
  have inner : Env split () [.inp (.up (.data [3])), .out (.up (.data [3])), .back none, .done none] () :=
    .cons (t1 := [.out (.up (.data [3])), .back none]) (t2 := [])
      (.out (t1 := []) (t2 := []) (r0 := none) rfl (.nil ()) (.ret () none)) (.nil ())
  have last : Does split (splitUp [2]) () [.out (.up (.data [2])), .back none] () none :=
    .out (t1 := []) (t2 := []) (r0 := none) rfl (.nil ()) (.ret () none)
  have hb : Env split () (.inp (.up (.data [1, 2])) ::
      (.out (.up (.data [1])) :: [.inp (.up (.data [3])), .out (.up (.data [3])), .back none, .done none] ++ .back none :: [.out (.up (.data [2])), .back none])
      ++ .done none :: []) () :=
    .cons (.out (r0 := none) rfl inner last) (.nil ())
  have ha : Env split () (.inp (.dn (.write [1, 2, 3])) :: [.out (.down (.write [1, 2, 3])), .back none] ++ .done none :: []) () :=
    .cons (.out (t1 := []) (t2 := []) (r0 := none) rfl (.nil ()) (.ret () none)) (.nil ())
  have hr := h _ _ () () ha hb (by intro r hr; simpa using hr) (by intro r hr; simpa using hr) rfl rfl
  exact absurd hr.1 (by decide)

/-! ## Cases of the theorems, and exceptions -/

def heap1 : Heap := ⟨1, fun _ => 0, fun _ => .nobody, fun _ => .nobody⟩

/-- The heap after `attach` on `heap1`. -/
def attached (f : Option Factory) : Heap := match attach heap1 0 f with
  | .ok (H, _) => H
  | .error _ => heap1

/-- Two layers of the cipher and an application that writes back what it gets; `tick 0` makes it write. -/
def echoCfg : Cfg (Nat × Nat) where
  layer := fun k => cipherLayer fun n => UInt8.ofNat (k + 7 * n)
  app := fun m _ => match m with
    | .up (.data d) => .down (.write d) (.ret none)
    | .tick _ => writelines (.ret none) [[104], [105]]
    | _ => .ret none
  depth := 20

/-- A case of the theorem: the two sides of a connection with two layers, an application that writes while it receives. -/
example : attach heap1 0 (some (flat [1, 2])) = .ok (attached (some (flat [1, 2])), .obj 1) ∧
    (∀ k k', (some k, some k') ∈ (layers (some (flat [1, 2]))).zip (layers (some (flat [1, 2]))) →
      Keeps (· = ·) (echoCfg.layer k) (0, 0) (echoCfg.layer k') (0, 0)) ∧
    (let H := attached (some (flat [1, 2]))
     let s := acts H echoCfg 0 (.start fun _ => (0, 0)) [.wire .made, .tick .app 0]
     let out := onWire s.log
     let s' := acts H echoCfg 0 (.start fun _ => (0, 0)) [.wire .made, .wire (.data out)]
     let s'' := acts H echoCfg 0 s [.wire (.data (onWire s'.log))]
     appWrote s.log = [104, 105] ∧ out ≠ [104, 105] ∧ appGot s'.log = [104, 105] ∧ appGot s''.log = [104, 105]) := by
  refine ⟨rfl, fun k k' h => ?_, by decide +kernel⟩
  have h' : (some k, some k') ∈ [(some 1, some 1), (some 2, some 2)] := h
  simp only [List.mem_cons, Prod.mk.injEq, Option.some.injEq, List.not_mem_nil, or_false] at h'
  rcases h' with ⟨rfl, rfl⟩ | ⟨rfl, rfl⟩ <;> exact cipher_keeps _

/-- An application that raises an exception when it gets the byte 1. -/
def touchy : Cfg Unit where
  layer := fun _ => split
  app := fun m _ => match m with
    | .up (.data [1]) => .ret (some (.own 0))
    | .tick _ => writelines (.ret none) [[1, 2], [3]]
    | _ => .ret none
  depth := 20

/-- C80 is false when protocols raise exceptions: the callback protocol catches them and goes on, and so the application loses data in the middle of the
stream, although the wire and all the layers are good and the connection stays open. -/
theorem C80_false_exception :
    KeepsCalm (· = ·) (touchy.layer 1) () (touchy.layer 1) () ∧ Polite (touchy.layer 1) ∧
    (let H := attached (some (flat [1]))
     let a := acts H touchy 0 (.start fun _ => ()) [.wire .made, .tick .app 0]
     let b := acts H touchy 0 (.start fun _ => ()) [.wire .made, .wire (.data [1, 2]), .wire (.data [3])]
     onWire a.log = [1, 2, 3] ∧ appWrote a.log = [1, 2, 3] ∧ appGot b.log = [1, 3]) :=
  ⟨split_keeps _ _ _, split_polite, by decide +kernel⟩

/-- `StackingTransport.close`, `abort` and `write` (Protocol.py:72-83) reach the wire through any number of plain layers, in the order of the calls. -/
example : (acts (attached (some (flat [1, 2, 3]))) (σ := Unit)
      ⟨fun _ => plain, fun m _ => match m with | .tick _ => .down (.write [9]) (.down .close (.down .abort (.ret none))) | _ => .ret none, 20⟩ 0
      (.start fun _ => ()) [.wire .made, .tick .app 0]).log.filterMap (fun | .inp _ .wire (.dn m) => some m | _ => none) = [.write [9], .close, .abort] := by
  decide +kernel

end Verif.StackRun
