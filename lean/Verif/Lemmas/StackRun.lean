import Verif.Spec.StackRun
import Verif.Props.Stack
/-! # Lemmas about running stacks -/
namespace Verif.StackRun
open Stack (Tgt Heap Path)

/-! ## Histories of the protocols -/

theorem Env.append {σ} {code : Msg → σ → Prog σ} {s s1 s2 : σ} {a b : List LEv} (h : Env code s a s1) (h2 : Env code s1 b s2) :
    Env code s (a ++ b) s2 := by
  match h with
  | .nil _ => exact h2
  | .cons d e =>
    have := Env.cons d (Env.append e h2)
    simpa [List.append_assoc] using this

def Node (t : Tgt) : Prop := t ≠ .wire ∧ t ≠ .nobody

abbrev loc (t : Tgt) (l : List Ev) : List LEv := l.filterMap (localEv t)

theorem loc_append (t : Tgt) (a b : List Ev) : loc t (a ++ b) = loc t a ++ loc t b := List.filterMap_append ..

def RecOk {σ} (H : Heap) (c : Cfg σ) (rec : Rec σ) : Prop :=
  ∀ s src dst m, ∃ new, (rec s src dst m).1.log = s.log ++ new ∧
    ∀ t, Node t → Env (codeOf H c t) (s.st t) (loc t new) ((rec s src dst m).1.st t)

theorem set_self {σ} (s : St σ) (t : Tgt) (x : σ) : (s.set t x).st t = x := by simp [St.set]
theorem set_ne {σ} (s : St σ) {t t' : Tgt} (x : σ) (h : t' ≠ t) : (s.set t x).st t' = s.st t' := by simp [St.set, h]

theorem send_ok {σ} {H : Heap} {c : Cfg σ} {rec : Rec σ} (h : RecOk H c rec) (s : St σ) (t : Tgt) (cmd : Cmd) :
    ∃ new, (send H rec s t cmd).1.log = s.log ++ new ∧
      ∀ t', Node t' → Env (codeOf H c t') (s.st t') (loc t' new) ((send H rec s t cmd).1.st t') := by
  cases t <;> cases cmd <;> exact h _ _ _ _

theorem exec_local {σ} {H : Heap} {c : Cfg σ} {rec : Rec σ} (h : RecOk H c rec) (t0 : Tgt) (ht0 : Node t0) : ∀ (p : Prog σ) (s : St σ),
    ∃ new, (exec H rec t0 p s).1.log = s.log ++ new ∧
      Does (codeOf H c t0) p (s.st t0) (loc t0 new) ((exec H rec t0 p s).1.st t0) (exec H rec t0 p s).2 ∧
      ∀ t, t ≠ t0 → Node t → Env (codeOf H c t) (s.st t) (loc t new) ((exec H rec t0 p s).1.st t)
  | .ret r, s => ⟨[], by simp [exec], .ret _ _, fun t _ _ => .nil _⟩
  | .ins f k, s => by
    rw [exec]
    rcases hf : f (s.st t0) with ⟨x, _ | cmd⟩
    · dsimp only
      obtain ⟨new, h1, h2, h3⟩ := exec_local h t0 ht0 (k none x) (s.set t0 x)
      refine ⟨new, h1, ?_, fun t ht hn => ?_⟩
      · rw [set_self] at h2
        exact .quiet hf h2
      · have := h3 t ht hn
        rwa [set_ne _ _ ht] at this
    · dsimp only
      obtain ⟨n1, g1, g2⟩ := send_ok h ((s.set t0 x).add (.outp t0 cmd)) t0 cmd
      generalize send H rec ((s.set t0 x).add (.outp t0 cmd)) t0 cmd = p at g1 g2
      obtain ⟨n2, h1, h2, h3⟩ := exec_local h t0 ht0 (k p.2 (p.1.st t0)) (p.1.add (.back t0 p.2))
      refine ⟨.outp t0 cmd :: n1 ++ .back t0 p.2 :: n2, ?_, ?_, fun t ht hn => ?_⟩
      · rw [h1]
        show (p.1.log ++ _) ++ _ = _
        rw [g1]
        simp [St.add, St.set]
      · have e := g2 t0 ht0
        have e1 : ((s.set t0 x).add (.outp t0 cmd)).st t0 = x := set_self ..
        rw [e1] at e
        have := Does.out (code := codeOf H c t0) hf e h2
        simpa [loc, localEv] using this
      · have e := g2 t hn
        have e1 : ((s.set t0 x).add (.outp t0 cmd)).st t = s.st t := set_ne _ _ ht
        rw [e1] at e
        have := e.append (h3 t ht hn)
        have ht' : t0 ≠ t := fun hh => ht hh.symm
        simpa [loc, localEv, ht'] using this

theorem arrive_st {σ} (s : St σ) (src dst : Tgt) (m : Msg) : (arrive s src dst m).st = s.st := by
  cases m with
  | up u => cases u <;> rfl
  | _ => rfl

theorem arrive_log {σ} (s : St σ) (src dst : Tgt) (m : Msg) : (arrive s src dst m).log = s.log := by
  cases m with
  | up u => cases u <;> rfl
  | _ => rfl

/-- A call of a protocol with code. -/
theorem call_local {σ} {H : Heap} {c : Cfg σ} {rec : Rec σ} (h : RecOk H c rec) (s : St σ) (src dst : Tgt) (hd : Node dst) (m : Msg)
    (p : St σ × Option Err)
    (hp : p = finish dst (exec H rec dst (codeOf H c dst m (s.st dst)) ((arrive s src dst m).add (.inp src dst m)))) :
    ∃ new, p.1.log = s.log ++ new ∧ ∀ t, Node t → Env (codeOf H c t) (s.st t) (loc t new) (p.1.st t) := by
  subst hp
  obtain ⟨new, h1, h2, h3⟩ := exec_local h dst hd (codeOf H c dst m (s.st dst)) ((arrive s src dst m).add (.inp src dst m))
  have hst : ((arrive s src dst m).add (.inp src dst m)).st = s.st := arrive_st ..
  rw [hst] at h2 h3
  generalize exec H rec dst (codeOf H c dst m (s.st dst)) ((arrive s src dst m).add (.inp src dst m)) = q at h1 h2 h3
  refine ⟨.inp src dst m :: new ++ [.done dst q.2], ?_, fun t ht => ?_⟩
  · show q.1.log ++ _ = _
    rw [h1]
    show ((arrive s src dst m).log ++ _) ++ _ ++ _ = _
    rw [arrive_log]
    simp
  · by_cases htd : t = dst
    · subst htd
      have := Env.cons h2 (.nil _)
      show Env _ _ _ (q.1.st t)
      simpa [loc, localEv] using this
    · have htd' : dst ≠ t := fun hh => htd hh.symm
      have := h3 t htd ht
      show Env _ _ _ (q.1.st t)
      simpa [loc, localEv, htd'] using this

theorem run_local {σ} (H : Heap) (c : Cfg σ) : ∀ f, RecOk H c (run H c f)
  | 0 => fun s _ _ _ => ⟨[], by simp [run], fun _ _ => .nil _⟩
  | f + 1 => fun s src dst m => by
    rw [run]
    cases dst with
    | obj o => exact call_local (run_local H c f) s src (.obj o) ⟨nofun, nofun⟩ m _ rfl
    | app => exact call_local (run_local H c f) s src .app ⟨nofun, nofun⟩ m _ rfl
    | wire =>
      refine ⟨[.inp src .wire m], rfl, fun t ht => ?_⟩
      have : Tgt.wire ≠ t := fun hh => ht.1 hh.symm
      have e : loc t [.inp src .wire m] = [] := by simp [loc, localEv, this]
      rw [e]
      exact .nil _
    | nobody => exact ⟨[], by simp [body], fun _ _ => .nil _⟩

theorem acts_local {σ} (H : Heap) (c : Cfg σ) (cb : Nat) : ∀ (h : List Act) (s : St σ), ∃ new, (acts H c cb s h).log = s.log ++ new ∧
    ∀ t, Node t → Env (codeOf H c t) (s.st t) (loc t new) ((acts H c cb s h).st t)
  | [], s => ⟨[], by simp [acts], fun _ _ => .nil _⟩
  | a :: h, s => by
    have h1 : ∃ new, (act H c cb s a).log = s.log ++ new ∧ ∀ t, Node t → Env (codeOf H c t) (s.st t) (loc t new) ((act H c cb s a).st t) := by
      cases a <;> exact run_local H c _ _ _ _ _
    obtain ⟨n1, g1, g2⟩ := h1
    obtain ⟨n2, h1, h2⟩ := acts_local H c cb h (act H c cb s a)
    refine ⟨n1 ++ n2, ?_, fun t ht => ?_⟩
    · show (acts H c cb (act H c cb s a) h).log = _
      rw [h1, g1, List.append_assoc]
    · rw [loc_append]
      exact (g2 t ht).append (h2 t ht)

/-! ## What is called is what arrives -/

/-- Up from `t`; the wire stands for the callback protocol. -/
def next (H : Heap) (cb : Nat) : Tgt → Tgt
  | .wire => H.higher cb
  | .obj o => H.higher o
  | _ => .nobody

def Wf (H : Heap) (cb : Nat) (M : Tgt → Prop) : Ev → Prop
  | .inp src dst (.up _) => M src ∧ M dst ∧ dst = next H cb src
  | .inp src dst (.dn _) => M src ∧ M dst ∧ next H cb dst = src
  | .inp _ dst (.tick _) => M dst
  | .outp t _ => t ≠ .wire
  | _ => True

def Lo {σ} (H : Heap) (cb : Nat) (M : Tgt → Prop) (s : St σ) : Prop := ∀ t, s.lower t ≠ .nobody → M (s.lower t) ∧ next H cb (s.lower t) = t

/-- The protocols of the stack: nothing leads out of it. -/
structure Closed (H : Heap) (cb : Nat) (M : Tgt → Prop) : Prop where
  up : ∀ t, M t → t ≠ .app → M (next H cb t)
  no : ¬ M .nobody
  wire : M .wire

def evOutUp (t : Tgt) : Ev → Option Up | .outp t' (.up u) => if t' = t then some u else none | _ => none
def evInUp (t : Tgt) : Ev → Option Up | .inp t' _ (.up u) => if t' = t then some u else none | _ => none
def evOutDn (t : Tgt) : Ev → Option Dn | .outp t' (.down u) => if t' = t then some u else none | _ => none
def evInDn (t : Tgt) : Ev → Option Dn | .inp t' _ (.dn u) => if t' = t then some u else none | _ => none

def Bal (l : List Ev) : Prop := ∀ t, l.filterMap (evOutUp t) = l.filterMap (evInUp t) ∧ l.filterMap (evOutDn t) = l.filterMap (evInDn t)

theorem Bal.nil : Bal [] := fun _ => ⟨rfl, rfl⟩
theorem Bal.append {a b : List Ev} (ha : Bal a) (hb : Bal b) : Bal (a ++ b) := fun t => by
  simp only [List.filterMap_append, (ha t).1, (ha t).2, (hb t).1, (hb t).2]
  exact ⟨trivial, trivial⟩

def Pre (H : Heap) (cb : Nat) (M : Tgt → Prop) (src dst : Tgt) : Msg → Prop
  | .up _ => M src ∧ dst = next H cb src
  | .dn _ => dst ≠ .nobody → M src ∧ M dst ∧ next H cb dst = src
  | .tick _ => M dst

def Sent (src dst : Tgt) (m : Msg) (new : List Ev) (r : Option Err) : Prop :=
  (new = [] ∧ r ≠ none) ∨ ∃ E, new = .inp src dst m :: E ∧ (Clean E → Bal E)

def RecOk2 {σ} (H : Heap) (cb : Nat) (M : Tgt → Prop) (rec : Rec σ) : Prop :=
  ∀ s src dst m, Lo H cb M s → Pre H cb M src dst m → ∃ new, (rec s src dst m).1.log = s.log ++ new ∧ (∀ e ∈ new, Wf H cb M e) ∧
    Lo H cb M (rec s src dst m).1 ∧ Sent src dst m new (rec s src dst m).2

theorem Clean.of_append {a b : List Ev} (h : Clean (a ++ b)) : Clean a ∧ Clean b :=
  ⟨fun t r hr => h t r (hr.imp (List.mem_append_left _) (List.mem_append_left _)), fun t r hr => h t r (hr.imp (List.mem_append_right _) (List.mem_append_right _))⟩

def Cmd.msg : Cmd → Msg | .up u => .up u | .down m => .dn m

theorem send_ok2 {σ} {H : Heap} {cb : Nat} {M : Tgt → Prop} {rec : Rec σ} (h : RecOk2 H cb M rec) {s : St σ} (hl : Lo H cb M s)
    {t : Tgt} (ht : Node t) (hM : M t) (cmd : Cmd) : ∃ new dst, (send H rec s t cmd).1.log = s.log ++ new ∧ (∀ e ∈ new, Wf H cb M e) ∧
      Lo H cb M (send H rec s t cmd).1 ∧ Sent t dst cmd.msg new (send H rec s t cmd).2 := by
  have key : ∀ dst, send H rec s t cmd = rec s t dst cmd.msg → Pre H cb M t dst cmd.msg → ∃ new dst, (send H rec s t cmd).1.log = s.log ++ new ∧
      (∀ e ∈ new, Wf H cb M e) ∧ Lo H cb M (send H rec s t cmd).1 ∧ Sent t dst cmd.msg new (send H rec s t cmd).2 := by
    intro dst he hp
    rw [he]
    obtain ⟨new, h1⟩ := h s t dst cmd.msg hl hp
    exact ⟨new, dst, h1⟩
  have hdn : ∀ m, Pre H cb M t (s.lower t) (.dn m) := fun m hh => ⟨hM, (hl t hh).1, (hl t hh).2⟩
  cases t with
  | obj o => cases cmd with
    | up u => exact key (H.higher o) rfl ⟨hM, rfl⟩
    | down m => exact key _ rfl (hdn m)
  | app => cases cmd with
    | up u => exact key .nobody rfl ⟨hM, rfl⟩
    | down m => exact key _ rfl (hdn m)
  | wire => exact absurd rfl ht.1
  | nobody => exact absurd rfl ht.2

theorem exec_bal {σ} {H : Heap} {cb : Nat} {M : Tgt → Prop} {rec : Rec σ} (h : RecOk2 H cb M rec) (t : Tgt) (ht : Node t) (hM : M t) :
    ∀ (p : Prog σ) (s : St σ), Lo H cb M s → ∃ new, (exec H rec t p s).1.log = s.log ++ new ∧ (∀ e ∈ new, Wf H cb M e) ∧
      Lo H cb M (exec H rec t p s).1 ∧ (Clean new → Bal new)
  | .ret r, s, hl => ⟨[], by simp [exec], by simp, hl, fun _ => .nil⟩
  | .ins f k, s, hl => by
    rw [exec]
    rcases hf : f (s.st t) with ⟨x, _ | cmd⟩
    · dsimp only
      exact exec_bal h t ht hM (k none x) (s.set t x) hl
    · dsimp only
      obtain ⟨n1, dst, g1, g2, g3, g4⟩ := send_ok2 h (s := (s.set t x).add (.outp t cmd)) hl ht hM cmd
      generalize send H rec ((s.set t x).add (.outp t cmd)) t cmd = p at g1 g2 g3 g4
      obtain ⟨n2, h1, h2, h3, h4⟩ := exec_bal h t ht hM (k p.2 (p.1.st t)) (p.1.add (.back t p.2)) g3
      refine ⟨.outp t cmd :: n1 ++ .back t p.2 :: n2, ?_, ?_, h3, fun hc => ?_⟩
      · rw [h1]
        show (p.1.log ++ _) ++ _ = _
        rw [g1]
        simp [St.add, St.set]
      · intro e he
        simp only [List.cons_append, List.mem_cons, List.mem_append] at he
        rcases he with rfl | he | rfl | he
        · exact ht.1
        · exact g2 e he
        · trivial
        · exact h2 e he
      · have hr : p.2 = none := hc t p.2 (by simp)
        rcases g4 with ⟨_, hh⟩ | ⟨E, hE, hb⟩
        · exact absurd hr hh
        · have hcE : Clean E := fun t' r hr => hc t' r (by simp only [hE, List.cons_append, List.mem_cons, List.mem_append]; exact hr.imp (fun h => .inr (.inr (.inl h))) fun h => .inr (.inr (.inl h)))
          have hc2 : Clean n2 := fun t' r hr => hc t' r (by simp only [List.cons_append, List.mem_cons, List.mem_append]; exact hr.imp (fun h => .inr (.inr (.inr h))) fun h => .inr (.inr (.inr h)))
          have b := (hb hcE).append (h4 hc2)
          intro t'
          have b1 := (b t').1
          have b2 := (b t').2
          rw [List.filterMap_append, List.filterMap_append] at b1 b2
          subst hE
          cases cmd with
          | up u =>
            simp only [Cmd.msg, List.cons_append, List.filterMap_cons, List.filterMap_append, evOutUp, evInUp, evOutDn, evInDn]
            refine ⟨?_, b2⟩
            by_cases htt : t = t'
            · simp only [htt, if_true]
              rw [b1]
            · simp only [htt, if_false]
              exact b1
          | down m =>
            simp only [Cmd.msg, List.cons_append, List.filterMap_cons, List.filterMap_append, evOutUp, evInUp, evOutDn, evInDn]
            refine ⟨b1, ?_⟩
            by_cases htt : t = t'
            · simp only [htt, if_true]
              rw [b2]
            · simp only [htt, if_false]
              exact b2

theorem arrive_lo {σ} {H : Heap} {cb : Nat} {M : Tgt → Prop} {s : St σ} (hl : Lo H cb M s) {src dst : Tgt} {m : Msg} (hpre : Pre H cb M src dst m) :
    Lo H cb M ((arrive s src dst m).add (.inp src dst m)) := by
  cases m with
  | up u =>
    cases u with
    | made =>
      intro t
      show (if t = dst then src else s.lower t) ≠ .nobody → M (if t = dst then src else s.lower t) ∧ next H cb (if t = dst then src else s.lower t) = t
      by_cases htd : t = dst
      · simp only [htd, if_true]
        intro _
        exact ⟨hpre.1, hpre.2.symm⟩
      · simp only [htd, if_false]
        exact hl t
    | _ => exact hl
  | _ => exact hl

theorem call_bal {σ} {H : Heap} {cb : Nat} {M : Tgt → Prop} {rec : Rec σ} (h : RecOk2 H cb M rec) {s : St σ} (hl : Lo H cb M s)
    {src dst : Tgt} (hd : Node dst) (hM : M dst) (m : Msg) (hpre : Pre H cb M src dst m) (P : Prog σ) (p : St σ × Option Err)
    (hp : p = finish dst (exec H rec dst P ((arrive s src dst m).add (.inp src dst m)))) :
    ∃ new, p.1.log = s.log ++ new ∧ (∀ e ∈ new, Wf H cb M e) ∧ Lo H cb M p.1 ∧ ∃ E, new = .inp src dst m :: E ∧ (Clean E → Bal E) := by
  subst hp
  have hl' := arrive_lo hl hpre
  obtain ⟨new, h1, h2, h3, h4⟩ := exec_bal h dst hd hM P _ hl'
  generalize exec H rec dst P ((arrive s src dst m).add (.inp src dst m)) = q at h1 h3
  refine ⟨.inp src dst m :: (new ++ [.done dst q.2]), ?_, ?_, h3, _, rfl, fun hc => ?_⟩
  · show q.1.log ++ _ = _
    rw [h1]
    show ((arrive s src dst m).log ++ _) ++ _ ++ _ = _
    rw [arrive_log]
    simp
  · intro e he
    simp only [List.mem_cons, List.mem_append, List.not_mem_nil, or_false] at he
    rcases he with rfl | he | rfl
    · cases m with
      | up u => exact ⟨hpre.1, hM, hpre.2⟩
      | dn m => exact hpre hd.2
      | tick k => exact hM
    · exact h2 e he
    · trivial
  · have := h4 hc.of_append.1
    exact this.append fun t => ⟨rfl, rfl⟩

/-- A call with a frame left and somebody to call. -/
theorem body_bal {σ} {H : Heap} {c : Cfg σ} {cb : Nat} {M : Tgt → Prop} (hC : Closed H cb M) {rec : Rec σ} (h : RecOk2 H cb M rec) {s : St σ}
    (hl : Lo H cb M s) {src dst : Tgt} (hd : dst ≠ .nobody) (m : Msg) (hpre : Pre H cb M src dst m) (hw : dst = .wire → ∀ u, m ≠ .up u) :
    ∃ new, (body H c rec s src dst m).1.log = s.log ++ new ∧ (∀ e ∈ new, Wf H cb M e) ∧ Lo H cb M (body H c rec s src dst m).1 ∧
      ∃ E, new = .inp src dst m :: E ∧ (Clean E → Bal E) := by
  have hM : dst ≠ .wire → M dst := fun _ => by
    cases m with
    | up u =>
      have h1 : next H cb src = dst := hpre.2.symm
      by_cases hs : src = .app
      · subst hs
        exact absurd h1.symm hd
      · rw [← h1]
        exact hC.up src hpre.1 hs
    | dn m => exact (hpre hd).2.1
    | tick k => exact hpre
  cases dst with
  | obj o => exact call_bal (dst := .obj o) h hl ⟨nofun, nofun⟩ (hM nofun) m hpre _ _ rfl
  | app => exact call_bal (dst := .app) h hl ⟨nofun, nofun⟩ (hM nofun) m hpre _ _ rfl
  | wire =>
    refine ⟨[.inp src .wire m], rfl, ?_, hl, [], rfl, fun _ => .nil⟩
    intro e he
    rw [List.mem_singleton] at he
    subst he
    cases m with
    | up u => exact absurd rfl (hw rfl u)
    | dn m => exact hpre hd
    | tick k => exact hC.wire
  | nobody => exact absurd rfl hd

/-- No protocol is below the wire. -/
def NoWire (H : Heap) (cb : Nat) (M : Tgt → Prop) : Prop := ∀ t, M t → next H cb t ≠ .wire

theorem run_bal {σ} {H : Heap} (c : Cfg σ) {cb : Nat} {M : Tgt → Prop} (hC : Closed H cb M) (hW : NoWire H cb M) : ∀ f, RecOk2 H cb M (run H c f)
  | 0 => fun s _ _ _ hl _ => ⟨[], by simp [run], by simp, hl, .inl ⟨rfl, nofun⟩⟩
  | f + 1 => fun s src dst m hl hp => by
    rw [run]
    by_cases hd : dst = .nobody
    · subst hd
      exact ⟨[], by simp [body], by simp, hl, .inl ⟨rfl, nofun⟩⟩
    · obtain ⟨new, h1, h2, h3, h4⟩ := body_bal (c := c) hC (run_bal c hC hW f) hl hd m hp (fun hh u hm => by
        subst hm
        exact hW src hp.1 (hp.2 ▸ hh))
      exact ⟨new, h1, h2, h3, .inr h4⟩

def wireUps (h : List Act) : List Up := h.filterMap fun | .wire u => some u | _ => none

theorem acts_bal {σ} {H : Heap} (c : Cfg σ) {cb : Nat} {M : Tgt → Prop} (hC : Closed H cb M) (hW : NoWire H cb M) (hcb : H.higher cb ≠ .nobody) :
    ∀ (h : List Act) (s : St σ), (∀ t k, .tick t k ∈ h → M t) → (∀ k, .tick .wire k ∉ h) → Lo H cb M s →
    ∃ new, (acts H c cb s h).log = s.log ++ new ∧ (∀ e ∈ new, Wf H cb M e) ∧
      (Clean new → (∀ t, t ≠ .wire → new.filterMap (evOutUp t) = new.filterMap (evInUp t)) ∧ (∀ t, new.filterMap (evOutDn t) = new.filterMap (evInDn t)) ∧
        new.filterMap (evInUp .wire) = wireUps h)
  | [], s, _, _, _ => ⟨[], by simp [acts], by simp, fun _ => ⟨fun _ _ => rfl, fun _ => rfl, rfl⟩⟩
  | a :: h, s, hM, hT, hl => by
    have h1 : ∃ new, (act H c cb s a).log = s.log ++ new ∧ (∀ e ∈ new, Wf H cb M e) ∧ Lo H cb M (act H c cb s a) ∧
        (Clean new → (∀ t, t ≠ .wire → new.filterMap (evOutUp t) = new.filterMap (evInUp t)) ∧ (∀ t, new.filterMap (evOutDn t) = new.filterMap (evInDn t)) ∧
          new.filterMap (evInUp .wire) = wireUps [a]) := by
      have hout : ∀ l : List Ev, (∀ e ∈ l, Wf H cb M e) → l.filterMap (evOutUp .wire) = [] := by
        intro l hl'
        rw [List.filterMap_eq_nil_iff]
        intro e he
        have := hl' e he
        cases e with
        | outp t c =>
          cases c with
          | up u =>
            have ht : t ≠ .wire := this
            simp [evOutUp, ht]
          | down m => rfl
        | _ => rfl
      cases a with
      | wire u =>
        obtain ⟨new, h1, h2, h3, E, rfl, h4⟩ := body_bal (c := c) hC (run_bal c hC hW c.depth) hl hcb (.up u) (src := .wire) ⟨hC.wire, rfl⟩
          (fun hh => absurd hh (hW .wire hC.wire))
        refine ⟨_, h1, h2, h3, fun hc => ?_⟩
        have hcE : Clean E := fun t r hr => hc t r (hr.imp (List.mem_cons_of_mem _) (List.mem_cons_of_mem _))
        have b := h4 hcE
        refine ⟨fun t ht => ?_, fun t => ?_, ?_⟩
        · have ht' : Tgt.wire ≠ t := fun hh => ht hh.symm
          simp only [List.filterMap_cons, evOutUp, evInUp, ht', if_false]
          exact (b t).1
        · simp only [List.filterMap_cons, evOutDn, evInDn]
          exact (b t).2
        · simp only [List.filterMap_cons, evInUp, if_true, wireUps, List.filterMap_nil]
          have := (b .wire).1
          rw [hout E (fun e he => h2 e (List.mem_cons_of_mem _ he))] at this
          rw [show List.filterMap _ E = [] from this.symm]
      | tick t k =>
        have hMt := hM t k (List.mem_cons_self ..)
        have hn : t ≠ .nobody := fun hh => hC.no (hh ▸ hMt)
        obtain ⟨new, h1, h2, h3, E, rfl, h4⟩ := body_bal (c := c) hC (run_bal c hC hW c.depth) hl hn (.tick k) (src := .nobody) hMt (fun _ _ => nofun)
        refine ⟨_, h1, h2, h3, fun hc => ?_⟩
        have hcE : Clean E := fun t r hr => hc t r (hr.imp (List.mem_cons_of_mem _) (List.mem_cons_of_mem _))
        have b := h4 hcE
        refine ⟨fun t _ => ?_, fun t => ?_, ?_⟩
        · simp only [List.filterMap_cons, evOutUp, evInUp]
          exact (b t).1
        · simp only [List.filterMap_cons, evOutDn, evInDn]
          exact (b t).2
        · simp only [List.filterMap_cons, evInUp, wireUps, List.filterMap_nil]
          have := (b .wire).1
          rw [hout E (fun e he => h2 e (List.mem_cons_of_mem _ he))] at this
          exact this.symm
    obtain ⟨n1, g1, g2, g3, g4⟩ := h1
    obtain ⟨n2, k1, k2, k3⟩ := acts_bal c hC hW hcb h (act H c cb s a) (fun t k ht => hM t k (List.mem_cons_of_mem _ ht))
      (fun k hk => hT k (List.mem_cons_of_mem _ hk)) g3
    refine ⟨n1 ++ n2, ?_, ?_, fun hc => ?_⟩
    · show (acts H c cb (act H c cb s a) h).log = _
      rw [k1, g1, List.append_assoc]
    · intro e he
      rcases List.mem_append.mp he with he | he
      · exact g2 e he
      · exact k2 e he
    · obtain ⟨a1, a2, a3⟩ := g4 hc.of_append.1
      obtain ⟨b1, b2, b3⟩ := k3 hc.of_append.2
      refine ⟨fun t ht => ?_, fun t => ?_, ?_⟩
      · rw [List.filterMap_append, List.filterMap_append, a1 t ht, b1 t ht]
      · rw [List.filterMap_append, List.filterMap_append, a2 t, b2 t]
      · rw [List.filterMap_append, a3, b3]
        show wireUps [a] ++ wireUps h = wireUps ([a] ++ h)
        exact (List.filterMap_append ..).symm

end Verif.StackRun
