import Verif.Lemmas.StackRun
/-! # Stacks whose layers do not call up while they are called from above -/
namespace Verif.StackRun
open Stack (Tgt Heap Path)

theorem Calm.append {σ} {code : Msg → σ → Prog σ} {A : Msg → Prop} {s s1 s2 : σ} {a b : List LEv} (h : Calm code A s a s1) (h2 : Calm code A s1 b s2) :
    Calm code A s (a ++ b) s2 := by
  match h with
  | .nil _ _ => exact h2
  | .cons hm d e =>
    have := Calm.cons hm d (Calm.append e h2)
    simpa [List.append_assoc] using this

theorem Calm.mono {σ} {code : Msg → σ → Prog σ} {A B : Msg → Prop} (hAB : ∀ m, A m → B m) {s s1 : σ} {a : List LEv} (h : Calm code A s a s1) :
    Calm code B s a s1 := by
  match h with
  | .nil _ _ => exact .nil _ _
  | .cons hm d e => exact .cons (hAB _ hm) d (Calm.mono hAB e)

abbrev All : Msg → Prop := fun _ => True

theorem Calm.all {σ} {code : Msg → σ → Prog σ} {A : Msg → Prop} {s s1 : σ} {a : List LEv} (h : Calm code A s a s1) : Calm code All s a s1 :=
  h.mono fun _ _ => trivial

/-- Positions in the stack. -/
def Ranked (H : Heap) (cb : Nat) (M : Tgt → Prop) (pos : Tgt → Nat) : Prop := ∀ t, M t → pos t < pos (next H cb t)

/-- What a call does to protocol `t`. -/
def Eff {σ} (H : Heap) (c : Cfg σ) (pos : Tgt → Nat) (dst : Tgt) (s s' : St σ) (new : List Ev) (t : Tgt) : Msg → Prop
  | .dn _ => (pos dst < pos t → loc t new = [] ∧ s'.st t = s.st t) ∧ Calm (codeOf H c t) IsDn (s.st t) (loc t new) (s'.st t)
  | _ => (pos t < pos dst → Calm (codeOf H c t) IsDn (s.st t) (loc t new) (s'.st t)) ∧ Calm (codeOf H c t) All (s.st t) (loc t new) (s'.st t)

def RecOk3 {σ} (H : Heap) (c : Cfg σ) (cb : Nat) (M : Tgt → Prop) (pos : Tgt → Nat) (rec : Rec σ) : Prop :=
  ∀ s src dst m, Lo H cb M s → Pre H cb M src dst m → ∃ new, (rec s src dst m).1.log = s.log ++ new ∧
    ∀ t, Node t → M t → Eff H c pos dst s (rec s src dst m).1 new t m

/-- The callee of a call down, and of a call up. -/
theorem send_down {σ} (H : Heap) (rec : Rec σ) (s : St σ) (t : Tgt) (m : Dn) : send H rec s t (.down m) = rec s t (s.lower t) (.dn m) := by
  cases t <;> rfl

theorem send_up {σ} (H : Heap) (cb : Nat) (rec : Rec σ) (s : St σ) {t : Tgt} (ht : t ≠ .wire) (u : Up) :
    send H rec s t (.up u) = rec s t (next H cb t) (.up u) := by
  cases t with
  | wire => exact absurd rfl ht
  | _ => rfl

/-- What a program at `t0` does to another protocol. -/
def EffX {σ} (H : Heap) (c : Cfg σ) (pos : Tgt → Nat) (t0 : Tgt) (quiet : Prop) (s s' : St σ) (new : List Ev) (t : Tgt) : Prop :=
  (quiet → (pos t0 < pos t → loc t new = [] ∧ s'.st t = s.st t) ∧ Calm (codeOf H c t) IsDn (s.st t) (loc t new) (s'.st t)) ∧
  (pos t < pos t0 → Calm (codeOf H c t) IsDn (s.st t) (loc t new) (s'.st t)) ∧ Calm (codeOf H c t) All (s.st t) (loc t new) (s'.st t)

theorem exec_calm {σ} {H : Heap} {c : Cfg σ} {cb : Nat} {M : Tgt → Prop} {pos : Tgt → Nat} (hR : Ranked H cb M pos) (hC : Closed H cb M) {rec : Rec σ}
    (hN : ∀ s src m, rec s src .nobody m = (s, (rec s src .nobody m).2)) (h2 : RecOk2 H cb M rec) (h3 : RecOk3 H c cb M pos rec) (t0 : Tgt) (ht0 : Node t0) (hM : M t0) : ∀ (p : Prog σ) (s : St σ), Lo H cb M s →
    ∃ new, (exec H rec t0 p s).1.log = s.log ++ new ∧
      CDoes (codeOf H c t0) p (s.st t0) (loc t0 new) ((exec H rec t0 p s).1.st t0) (exec H rec t0 p s).2 ∧
      ∀ t, t ≠ t0 → Node t → M t → EffX H c pos t0 (NoUp p) s (exec H rec t0 p s).1 new t
  | .ret r, s, _ => ⟨[], by simp [exec], .ret _ _, fun t _ _ _ => ⟨fun _ => ⟨fun _ => ⟨rfl, rfl⟩, .nil _ _⟩, fun _ => .nil _ _, .nil _ _⟩⟩
  | .ins f k, s, hl => by
    rw [exec]
    rcases hf : f (s.st t0) with ⟨x, _ | cmd⟩
    · dsimp only
      obtain ⟨new, g1, g2, g3⟩ := exec_calm hR hC hN h2 h3 t0 ht0 hM (k none x) (s.set t0 x) hl
      refine ⟨new, g1, ?_, fun t ht hn hMt => ?_⟩
      · rw [set_self] at g2
        exact .quiet hf g2
      · have := g3 t ht hn hMt
        unfold EffX at this ⊢
        rw [set_ne _ _ ht] at this
        exact ⟨fun hq => this.1 (hq.2 none x), this.2⟩
    · dsimp only
      have hl1 : Lo H cb M ((s.set t0 x).add (.outp t0 cmd)) := hl
      obtain ⟨_, _, _, _, hlp, _⟩ := send_ok2 h2 hl1 ht0 hM cmd
      have hs1 : ∀ t, t ≠ t0 → ((s.set t0 x).add (.outp t0 cmd)).st t = s.st t := fun t ht => set_ne _ _ ht
      have hs0 : ((s.set t0 x).add (.outp t0 cmd)).st t0 = x := set_self ..
      have hlog : ((s.set t0 x).add (.outp t0 cmd)).log = s.log ++ [.outp t0 cmd] := rfl
      cases cmd with
      | up u =>
        have hpre : Pre H cb M t0 (next H cb t0) (.up u) := ⟨hM, rfl⟩
        rw [send_up H cb rec _ ht0.1] at hlp ⊢
        obtain ⟨n1, e1, e2⟩ := h3 ((s.set t0 x).add (.outp t0 (.up u))) t0 (next H cb t0) (.up u) hl1 hpre
        generalize rec ((s.set t0 x).add (.outp t0 (.up u))) t0 (next H cb t0) (.up u) = p at e1 e2 hlp
        obtain ⟨n2, g1, g2, g3⟩ := exec_calm hR hC hN h2 h3 t0 ht0 hM (k p.2 (p.1.st t0)) (p.1.add (.back t0 p.2)) hlp
        refine ⟨.outp t0 (.up u) :: n1 ++ .back t0 p.2 :: n2, ?_, ?_, fun t ht hn hMt => ?_⟩
        · rw [g1]
          show (p.1.log ++ _) ++ _ = _
          rw [e1, hlog]
          simp
        · have e := e2 t0 ht0 hM
          have hcalm : Calm (codeOf H c t0) IsDn x (loc t0 n1) (p.1.st t0) := by
            have := e.1 (hR t0 hM)
            rwa [hs0] at this
          have := CDoes.up (code := codeOf H c t0) hf hcalm g2
          simpa [loc, localEv] using this
        · have ht' : t0 ≠ t := fun hh => ht hh.symm
          have e := e2 t hn hMt
          have g := g3 t ht hn hMt
          unfold Eff at e
          unfold EffX at g ⊢
          rw [hs1 t ht] at e
          have hloc : loc t (.outp t0 (.up u) :: n1 ++ .back t0 p.2 :: n2) = loc t n1 ++ loc t n2 := by simp [loc, localEv, ht']
          rw [hloc]
          refine ⟨fun hq => absurd (by rw [hf]) (hq.1 (s.st t0) u), fun hlt => ?_, e.2.append g.2.2⟩
          exact (e.1 (Nat.lt_trans hlt (hR t0 hM))).append (g.2.1 hlt)
      | down m =>
        have hpre : Pre H cb M t0 (s.lower t0) (.dn m) := fun hh => ⟨hM, (hl t0 hh).1, (hl t0 hh).2⟩
        rw [send_down] at hlp ⊢
        obtain ⟨n1, e1, e2⟩ := h3 ((s.set t0 x).add (.outp t0 (.down m))) t0 (s.lower t0) (.dn m) hl1 hpre
        have hempty : s.lower t0 = .nobody → n1 = [] ∧ (rec ((s.set t0 x).add (.outp t0 (.down m))) t0 (s.lower t0) (.dn m)).1.st = (s.set t0 x).st := by
          intro hh
          have := hN ((s.set t0 x).add (.outp t0 (.down m))) t0 (.dn m)
          rw [hh] at e1 ⊢
          rw [this] at e1 ⊢
          exact ⟨by simpa using e1, rfl⟩
        have hlt0 : s.lower t0 ≠ .nobody → pos (s.lower t0) < pos t0 := fun hh => by
          have := hR (s.lower t0) (hl t0 hh).1
          rwa [(hl t0 hh).2] at this
        change ∃ new, (exec H rec t0 (k (rec ((s.set t0 x).add (.outp t0 (.down m))) t0 (s.lower t0) (.dn m)).2 _) _).1.log = _ ∧ _
        change Lo H cb M (rec ((s.set t0 x).add (.outp t0 (.down m))) t0 (s.lower t0) (.dn m)).1 at hlp
        change ∃ new, (exec H rec t0 (k _ ((rec ((s.set t0 x).add (.outp t0 (.down m))) t0 (s.lower t0) (.dn m)).1.st t0)) _).1.log = _ ∧ _
        generalize hp : rec ((s.set t0 x).add (.outp t0 (.down m))) t0 (s.lower t0) (.dn m) = p at e1 e2 hlp hempty
        have hp' : rec ((s.set t0 x).add (.outp t0 (.down m))) t0 (((s.set t0 x).add (.outp t0 (.down m))).lower t0) (.dn m) = p := hp
        rw [hp']
        obtain ⟨n2, g1, g2, g3⟩ := exec_calm hR hC hN h2 h3 t0 ht0 hM (k p.2 (p.1.st t0)) (p.1.add (.back t0 p.2)) hlp
        -- nothing happens above
        have above : ∀ t, Node t → M t → pos t0 ≤ pos t → loc t n1 = [] ∧ p.1.st t = (s.set t0 x).st t := by
          intro t hn hMt hle
          by_cases hh : s.lower t0 = .nobody
          · obtain ⟨q1, q2⟩ := hempty hh
            exact ⟨by rw [q1]; rfl, by rw [q2]⟩
          · exact (e2 t hn hMt).1 (Nat.lt_of_lt_of_le (hlt0 hh) hle)
        refine ⟨.outp t0 (.down m) :: n1 ++ .back t0 p.2 :: n2, ?_, ?_, fun t ht hn hMt => ?_⟩
        · rw [g1]
          show (p.1.log ++ _) ++ _ = _
          rw [e1, hlog]
          simp
        · obtain ⟨q1, q2⟩ := above t0 ht0 hM (Nat.le_refl _)
          rw [set_self] at q2
          have g2' : CDoes (codeOf H c t0) (k p.2 (p.1.st t0)) (p.1.st t0) (loc t0 n2) _ _ := g2
          rw [q2] at g2' ⊢
          have := CDoes.down (code := codeOf H c t0) hf g2'
          have hloc : loc t0 (.outp t0 (.down m) :: n1 ++ .back t0 p.2 :: n2) = .out (.down m) :: .back p.2 :: loc t0 n2 := by
            have : loc t0 (.outp t0 (.down m) :: n1 ++ .back t0 p.2 :: n2) = .out (.down m) :: (loc t0 n1 ++ .back p.2 :: loc t0 n2) := by
              simp [loc, localEv]
            rw [this, q1]
            rfl
          rw [hloc]
          exact this
        · have ht' : t0 ≠ t := fun hh => ht hh.symm
          have e := e2 t hn hMt
          have g := g3 t ht hn hMt
          unfold Eff at e
          unfold EffX at g ⊢
          rw [hs1 t ht] at e
          have hloc : loc t (.outp t0 (.down m) :: n1 ++ .back t0 p.2 :: n2) = loc t n1 ++ loc t n2 := by simp [loc, localEv, ht']
          rw [hloc]
          refine ⟨fun hq => ⟨fun hlt => ?_, e.2.append (g.1 (hq.2 _ _)).2⟩, fun hlt => e.2.append (g.2.1 hlt), e.2.all.append g.2.2⟩
          obtain ⟨q1, q2⟩ := above t hn hMt (Nat.le_of_lt hlt)
          obtain ⟨r1, r2⟩ := (g.1 (hq.2 _ _)).1 hlt
          refine ⟨by rw [q1, r1]; rfl, r2.trans ?_⟩
          show p.1.st t = _
          rw [q2, set_ne _ _ ht]

theorem call_calm {σ} {H : Heap} {c : Cfg σ} {cb : Nat} {M : Tgt → Prop} {pos : Tgt → Nat} (hR : Ranked H cb M pos) (hC : Closed H cb M) {rec : Rec σ}
    (hN : ∀ s src m, rec s src .nobody m = (s, (rec s src .nobody m).2)) (h2 : RecOk2 H cb M rec) (h3 : RecOk3 H c cb M pos rec) {s : St σ}
    (hl : Lo H cb M s) {src dst : Tgt} (hd : Node dst) (hM : M dst) (m : Msg) (hpre : Pre H cb M src dst m)
    (hpol : ∀ d, m = .dn d → NoUp (codeOf H c dst m (s.st dst))) (p : St σ × Option Err)
    (hp : p = finish dst (exec H rec dst (codeOf H c dst m (s.st dst)) ((arrive s src dst m).add (.inp src dst m)))) :
    ∃ new, p.1.log = s.log ++ new ∧ ∀ t, Node t → M t → Eff H c pos dst s p.1 new t m := by
  subst hp
  have hl' := arrive_lo hl hpre
  obtain ⟨new, g1, g2, g3⟩ := exec_calm hR hC hN h2 h3 dst hd hM (codeOf H c dst m (s.st dst)) ((arrive s src dst m).add (.inp src dst m)) hl'
  have hst : ((arrive s src dst m).add (.inp src dst m)).st = s.st := arrive_st ..
  unfold EffX at g3
  rw [hst] at g2 g3
  generalize exec H rec dst (codeOf H c dst m (s.st dst)) ((arrive s src dst m).add (.inp src dst m)) = q at g1 g2 g3
  refine ⟨.inp src dst m :: new ++ [.done dst q.2], ?_, fun t ht hMt => ?_⟩
  · show q.1.log ++ _ = _
    rw [g1]
    show ((arrive s src dst m).log ++ _) ++ _ ++ _ = _
    rw [arrive_log]
    simp
  · by_cases htd : t = dst
    · subst htd
      have hloc : loc t (.inp src t m :: new ++ [.done t q.2]) = .inp m :: loc t new ++ .done q.2 :: [] := by simp [loc, localEv]
      have hall : ∀ A : Msg → Prop, A m → Calm (codeOf H c t) A (s.st t) (loc t (.inp src t m :: new ++ [.done t q.2])) (q.1.st t) := fun A hA => by
        rw [hloc]
        exact .cons hA g2 (.nil _ _)
      cases m with
      | dn d => exact ⟨fun hh => absurd hh (Nat.lt_irrefl _), hall _ ⟨d, rfl⟩⟩
      | up u => exact ⟨fun hh => absurd hh (Nat.lt_irrefl _), hall _ trivial⟩
      | tick k => exact ⟨fun hh => absurd hh (Nat.lt_irrefl _), hall _ trivial⟩
    · have htd' : dst ≠ t := fun hh => htd hh.symm
      have g := g3 t htd ht hMt
      have hloc : loc t (.inp src dst m :: new ++ [.done dst q.2]) = loc t new := by simp [loc, localEv, htd']
      cases m with
      | dn d =>
        unfold Eff
        rw [hloc]
        exact g.1 (hpol d rfl)
      | up u =>
        unfold Eff
        rw [hloc]
        exact g.2
      | tick k =>
        unfold Eff
        rw [hloc]
        exact g.2

theorem run_nobody {σ} (H : Heap) (c : Cfg σ) : ∀ f (s : St σ) (src : Tgt) (m : Msg), run H c f s src .nobody m = (s, (run H c f s src .nobody m).2)
  | 0, _, _, _ => rfl
  | _ + 1, _, _, _ => rfl

theorem run_calm {σ} {H : Heap} {c : Cfg σ} {cb : Nat} {M : Tgt → Prop} {pos : Tgt → Nat} (hR : Ranked H cb M pos) (hC : Closed H cb M)
    (hW : NoWire H cb M) (hP : ∀ o, M (.obj o) → Polite (c.layer (H.kind o))) : ∀ f, RecOk3 H c cb M pos (run H c f)
  | 0 => fun s src dst m _ _ => ⟨[], by simp [run], fun t _ _ => by
      cases m <;> exact ⟨fun _ => by first | exact ⟨rfl, rfl⟩ | exact .nil _ _, .nil _ _⟩⟩
  | f + 1 => fun s src dst m hl hpre => by
    have none' : ∀ s' : St σ, s'.st = s.st → ∀ new : List Ev, (∀ t, Node t → loc t new = []) → ∀ t, Node t → Eff H c pos dst s s' new t m := by
      intro s' h1 new h2 t ht
      unfold Eff
      rw [h1, h2 t ht]
      cases m <;> exact ⟨fun _ => by first | exact ⟨rfl, rfl⟩ | exact .nil _ _, .nil _ _⟩
    have hM : dst ≠ .nobody → M dst := fun hd => by
      cases m with
      | up u =>
        have h1 : next H cb src = dst := hpre.2.symm
        by_cases hs : src = .app
        · subst hs
          exact absurd h1.symm hd
        · rw [← h1]
          exact hC.up src hpre.1 hs
      | dn m => exact (hpre hd).2.1
      | tick k => exact hpre
    have ih := run_calm hR hC hW hP f
    have hN := run_nobody H c f
    have h2 := run_bal c hC hW f
    rw [run]
    cases dst with
    | obj o =>
      exact call_calm (dst := .obj o) hR hC hN h2 ih hl ⟨nofun, nofun⟩ (hM nofun) m hpre (fun d hd => by
        subst hd
        exact hP o (hM nofun) d _) _ rfl
    | app =>
      exact call_calm (dst := .app) hR hC hN h2 ih hl ⟨nofun, nofun⟩ (hM nofun) m hpre (fun d hd => by
        subst hd
        have := hpre nofun
        have hs : Tgt.nobody = src := this.2.2
        exact absurd (hs ▸ this.1) hC.no) _ rfl
    | wire =>
      refine ⟨[.inp src .wire m], rfl, fun t ht _ => none' _ rfl _ (fun t' ht' => ?_) t ht⟩
      have : Tgt.wire ≠ t' := fun hh => ht'.1 hh.symm
      simp [loc, localEv, this]
    | nobody => exact ⟨[], by simp [body], fun t ht _ => none' _ rfl _ (fun _ _ => rfl) t ht⟩

theorem acts_calm {σ} {H : Heap} {c : Cfg σ} {cb : Nat} {M : Tgt → Prop} {pos : Tgt → Nat} (hR : Ranked H cb M pos) (hC : Closed H cb M)
    (hW : NoWire H cb M) (hP : ∀ o, M (.obj o) → Polite (c.layer (H.kind o))) : ∀ (h : List Act) (s : St σ), (∀ t k, .tick t k ∈ h → M t) → Lo H cb M s →
    ∃ new, (acts H c cb s h).log = s.log ++ new ∧
      ∀ t, Node t → M t → Calm (codeOf H c t) All (s.st t) (loc t new) ((acts H c cb s h).st t)
  | [], s, _, _ => ⟨[], by simp [acts], fun _ _ _ => .nil _ _⟩
  | a :: h, s, hM, hl => by
    have h1 : Lo H cb M (act H c cb s a) ∧ ∃ new, (act H c cb s a).log = s.log ++ new ∧
        ∀ t, Node t → M t → Calm (codeOf H c t) All (s.st t) (loc t new) ((act H c cb s a).st t) := by
      cases a with
      | wire u =>
        have hpre : Pre H cb M .wire (H.higher cb) (.up u) := ⟨hC.wire, rfl⟩
        obtain ⟨_, _, _, hl', _⟩ := run_bal c hC hW (c.depth + 1) s .wire (H.higher cb) (.up u) hl hpre
        obtain ⟨new, e1, e2⟩ := run_calm hR hC hW hP (c.depth + 1) s .wire (H.higher cb) (.up u) hl hpre
        exact ⟨hl', new, e1, fun t ht hMt => (e2 t ht hMt).2⟩
      | tick t0 k =>
        have hpre : Pre H cb M .nobody t0 (.tick k) := hM t0 k (List.mem_cons_self ..)
        obtain ⟨_, _, _, hl', _⟩ := run_bal c hC hW (c.depth + 1) s .nobody t0 (.tick k) hl hpre
        obtain ⟨new, e1, e2⟩ := run_calm hR hC hW hP (c.depth + 1) s .nobody t0 (.tick k) hl hpre
        exact ⟨hl', new, e1, fun t ht hMt => (e2 t ht hMt).2⟩
    obtain ⟨hl', n1, g1, g2⟩ := h1
    obtain ⟨n2, k1, k2⟩ := acts_calm hR hC hW hP h (act H c cb s a) (fun t k ht => hM t k (List.mem_cons_of_mem _ ht)) hl'
    refine ⟨n1 ++ n2, ?_, fun t ht hMt => ?_⟩
    · show (acts H c cb (act H c cb s a) h).log = _
      rw [k1, g1, List.append_assoc]
    · rw [loc_append]
      exact (g2 t ht hMt).append (k2 t ht hMt)

end Verif.StackRun
