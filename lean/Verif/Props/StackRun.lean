import Verif.Lemmas.StackCalm
/-! # C80: a stack is as good as its layers -/
namespace Verif.StackRun
open Stack (Tgt Heap Path Factory attach layers flat)

/-- The stack on the callback protocol `cb`: up through `os` to the application. -/
def Chain (H : Heap) (cb : Nat) (os : List Nat) : Prop := Path H.higher (.obj cb) (cb :: os) .app ∧ (cb :: os).Nodup

/-- The wire, the layers and the application. -/
def Mem (os : List Nat) (t : Tgt) : Prop := t = .wire ∨ t = .app ∨ ∃ o ∈ os, t = .obj o

theorem path_image {h : Nat → Tgt} : ∀ {os : List Nat} {p : Nat}, Path h (.obj p) (p :: os) .app → ∀ a ∈ p :: os, h a = .app ∨ ∃ b ∈ os, h a = .obj b
  | [], p, hp, a, ha => by
    rw [List.mem_singleton] at ha
    subst ha
    exact .inl hp.2
  | q :: os, p, hp, a, ha => by
    have hq : h p = .obj q := hp.2.1
    have hp' : Path h (.obj q) (q :: os) .app := ⟨rfl, hp.2.2⟩
    rcases List.mem_cons.mp ha with rfl | ha
    · exact .inr ⟨q, List.mem_cons_self .., hq⟩
    · rcases path_image hp' a ha with h1 | ⟨b, hb, h1⟩
      · exact .inl h1
      · exact .inr ⟨b, List.mem_cons_of_mem _ hb, h1⟩

theorem path_inj {h : Nat → Tgt} : ∀ {os : List Nat} {p : Nat}, Path h (.obj p) (p :: os) .app → (p :: os).Nodup →
    ∀ a ∈ p :: os, ∀ b ∈ p :: os, h a = h b → a = b
  | [], p, _, _, a, ha, b, hb, _ => by
    rw [List.mem_singleton] at ha hb
    rw [ha, hb]
  | q :: os, p, hp, hn, a, ha, b, hb, hab => by
    have hq : h p = .obj q := hp.2.1
    have hp' : Path h (.obj q) (q :: os) .app := ⟨rfl, hp.2.2⟩
    have hn' := (List.nodup_cons.mp hn).2
    have key : ∀ x ∈ q :: os, h x ≠ h p := by
      intro x hx hh
      rw [hq] at hh
      rcases path_image hp' x hx with h1 | ⟨y, hy, h1⟩
      · rw [h1] at hh
        cases hh
      · rw [h1] at hh
        cases hh
        exact (List.nodup_cons.mp hn').1 hy
    rcases List.mem_cons.mp ha with rfl | ha' <;> rcases List.mem_cons.mp hb with rfl | hb'
    · rfl
    · exact absurd hab.symm (key b hb')
    · exact absurd hab (key a ha')
    · exact path_inj hp' hn' a ha' b hb' hab

theorem Chain.image {H : Heap} {cb : Nat} {os : List Nat} (h : Chain H cb os) {t : Tgt} (ht : Mem os t) (hta : t ≠ .app) :
    next H cb t = .app ∨ ∃ b ∈ os, next H cb t = .obj b := by
  rcases ht with rfl | rfl | ⟨o, ho, rfl⟩
  · exact path_image h.1 cb (List.mem_cons_self ..)
  · exact absurd rfl hta
  · exact path_image h.1 o (List.mem_cons_of_mem _ ho)

theorem Chain.closed {H : Heap} {cb : Nat} {os : List Nat} (h : Chain H cb os) : Closed H cb (Mem os) where
  up t ht hta := (h.image ht hta).elim (fun hh => .inr (.inl hh)) fun ⟨b, hb, hh⟩ => .inr (.inr ⟨b, hb, hh⟩)
  no := by rintro (hh | hh | ⟨_, _, hh⟩) <;> cases hh
  wire := .inl rfl

theorem Chain.noWire {H : Heap} {cb : Nat} {os : List Nat} (h : Chain H cb os) : NoWire H cb (Mem os) := by
  intro t ht hh
  by_cases hta : t = .app
  · subst hta
    cases hh
  · rcases h.image ht hta with h1 | ⟨b, _, h1⟩ <;> rw [h1] at hh <;> cases hh

theorem Chain.ne {H : Heap} {cb : Nat} {os : List Nat} (h : Chain H cb os) : H.higher cb ≠ .nobody := by
  intro hh
  rcases h.image (t := .wire) (.inl rfl) nofun with h1 | ⟨b, _, h1⟩ <;> rw [show next H cb .wire = .nobody from hh] at h1 <;> cases h1

theorem Chain.inj {H : Heap} {cb : Nat} {os : List Nat} (h : Chain H cb os) {s t : Tgt} (hs : Mem os s) (ht : Mem os t) (hsa : s ≠ .app) (hta : t ≠ .app)
    (he : next H cb s = next H cb t) : s = t := by
  have hcb : cb ∉ os := (List.nodup_cons.mp h.2).1
  have hi := path_inj h.1 h.2
  rcases hs with rfl | rfl | ⟨a, ha, rfl⟩
  · rcases ht with rfl | rfl | ⟨b, hb, rfl⟩
    · rfl
    · exact absurd rfl hta
    · have := hi cb (List.mem_cons_self ..) b (List.mem_cons_of_mem _ hb) he
      exact absurd (this ▸ hb) hcb
  · exact absurd rfl hsa
  · rcases ht with rfl | rfl | ⟨b, hb, rfl⟩
    · have := hi cb (List.mem_cons_self ..) a (List.mem_cons_of_mem _ ha) he.symm
      exact absurd (this ▸ ha) hcb
    · exact absurd rfl hta
    · rw [hi a (List.mem_cons_of_mem _ ha) b (List.mem_cons_of_mem _ hb) he]

theorem attach_chain {H H' : Heap} {cb : Nat} {f : Option Factory} {low : Tgt} (hcb : cb < H.n) (h : attach H cb f = .ok (H', low)) :
    ∃ os, os.map (fun o => some (H'.kind o)) = layers f ∧ Chain H' cb os := by
  obtain ⟨os, h1, h2, h3, _⟩ := Stack.C47_attached hcb h
  exact ⟨os, h1, h3, h2⟩

/-! ## Interfaces -/

def bRecv (t : Tgt) : Ev → Bytes | .inp _ dst (.up (.data d)) => if dst = t then d else [] | _ => []
def bOutUp (t : Tgt) : Ev → Bytes | .outp t' (.up (.data d)) => if t' = t then d else [] | _ => []
def bOutDn (t : Tgt) : Ev → Bytes | .outp t' (.down (.write d)) => if t' = t then d else [] | _ => []
def bInDn (t : Tgt) : Ev → Bytes | .inp _ dst (.dn (.write d)) => if dst = t then d else [] | _ => []

def upBytes : Up → Bytes | .data d => d | _ => []
def dnBytes : Dn → Bytes | .write d => d | _ => []

theorem flatMap_filterMap {α β} (f : α → Option β) (g : β → Bytes) : ∀ l : List α,
    (l.filterMap f).flatMap g = l.flatMap fun e => (f e).elim [] g
  | [] => rfl
  | e :: l => by
    rw [List.filterMap_cons, List.flatMap_cons]
    cases h : f e with
    | none => exact flatMap_filterMap f g l
    | some x =>
      dsimp only
      rw [List.flatMap_cons, flatMap_filterMap f g l]
      rfl

theorem flatMap_congr' {α} {f g : α → Bytes} : ∀ {l : List α}, (∀ e ∈ l, f e = g e) → l.flatMap f = l.flatMap g
  | [], _ => rfl
  | e :: l, h => by
    rw [List.flatMap_cons, List.flatMap_cons, h e (List.mem_cons_self ..), flatMap_congr' fun e' he => h e' (List.mem_cons_of_mem _ he)]

structure Wired (H : Heap) (cb : Nat) (os : List Nat) (log : List Ev) (h : List Act) : Prop where
  wf : ∀ e ∈ log, Wf H cb (Mem os) e
  up : ∀ t, t ≠ .wire → log.filterMap (evOutUp t) = log.filterMap (evInUp t)
  dn : ∀ t, log.filterMap (evOutDn t) = log.filterMap (evInDn t)
  wire : log.filterMap (evInUp .wire) = wireUps h

theorem mem_up {H : Heap} {cb : Nat} {os : List Nat} (hc : Chain H cb os) {src dst t : Tgt} {u : Up} (hw : Wf H cb (Mem os) (.inp src dst (.up u)))
    (ht : Mem os t) (hta : t ≠ .app) : src = t ↔ dst = next H cb t := by
  obtain ⟨h1, h2, h3⟩ := hw
  constructor
  · rintro rfl
    exact h3
  · intro hd
    have hs : src ≠ .app := by
      rintro rfl
      have : dst = .nobody := h3
      exact hc.closed.no (this ▸ h2)
    exact hc.inj h1 ht hs hta (h3.symm.trans hd)

theorem mem_dn {H : Heap} {cb : Nat} {os : List Nat} (hc : Chain H cb os) {src dst t : Tgt} {m : Dn} (hw : Wf H cb (Mem os) (.inp src dst (.dn m)))
    (ht : Mem os t) (hta : t ≠ .app) : src = next H cb t ↔ dst = t := by
  obtain ⟨h1, h2, h3⟩ := hw
  constructor
  · intro hs
    have hd : dst ≠ .app := by
      rintro rfl
      have : Tgt.nobody = src := h3
      exact hc.closed.no (this ▸ h1)
    exact hc.inj h2 ht hd hta (h3.trans hs)
  · rintro rfl
    exact h3.symm

theorem Wired.recv {H : Heap} {cb : Nat} {os : List Nat} {log : List Ev} {h : List Act} (w : Wired H cb os log h) (hc : Chain H cb os) {t : Tgt}
    (ht : Mem os t) (hta : t ≠ .app) : log.flatMap (bRecv (next H cb t)) = (log.filterMap (evInUp t)).flatMap upBytes := by
  rw [flatMap_filterMap]
  apply flatMap_congr'
  intro e he
  have hw := w.wf e he
  cases e with
  | inp src dst m =>
    cases m with
    | up u =>
      have hm := mem_up hc hw ht hta
      by_cases hs : src = t
      · have hd := hm.mp hs
        cases u <;> simp [bRecv, evInUp, upBytes, hs, hd]
      · have hd : ¬ dst = next H cb t := fun hh => hs (hm.mpr hh)
        cases u <;> simp [bRecv, evInUp, hs, hd]
    | _ => rfl
  | _ => rfl

/-- What the layer below passes up is what the protocol above receives. -/
theorem Wired.up_eq {H : Heap} {cb : Nat} {os : List Nat} {log : List Ev} {h : List Act} (w : Wired H cb os log h) (hc : Chain H cb os) {o : Nat}
    (ho : o ∈ os) : log.flatMap (bOutUp (.obj o)) = log.flatMap (bRecv (H.higher o)) := by
  have h1 : log.flatMap (bRecv (H.higher o)) = _ := w.recv (t := .obj o) hc (.inr (.inr ⟨o, ho, rfl⟩)) nofun
  rw [h1, ← w.up (.obj o) nofun, flatMap_filterMap]
  apply flatMap_congr'
  intro e _
  cases e with
  | outp t c =>
    cases c with
    | up u =>
      by_cases ht : t = .obj o
      · subst ht
        cases u <;> simp [bOutUp, evOutUp, upBytes]
      · cases u <;> simp [bOutUp, evOutUp, ht]
    | down m => rfl
  | _ => rfl

theorem Wired.fed_eq {H : Heap} {cb : Nat} {os : List Nat} {log : List Ev} {h : List Act} (w : Wired H cb os log h) (hc : Chain H cb os) :
    fed h = log.flatMap (bRecv (H.higher cb)) := by
  have h1 : log.flatMap (bRecv (H.higher cb)) = _ := w.recv (t := .wire) hc (.inl rfl) nofun
  rw [h1, w.wire, wireUps, flatMap_filterMap]
  apply flatMap_congr'
  intro e _
  cases e with
  | wire u => cases u <;> rfl
  | tick t k => rfl

/-- What the protocol above writes is what the layer below (or the wire) is given. -/
theorem Wired.dn_eq {H : Heap} {cb : Nat} {os : List Nat} {log : List Ev} {h : List Act} (w : Wired H cb os log h) (hc : Chain H cb os) {t : Tgt}
    (ht : Mem os t) (hta : t ≠ .app) : log.flatMap (bOutDn (next H cb t)) = log.flatMap (bInDn t) := by
  have h1 : log.flatMap (bOutDn (next H cb t)) = (log.filterMap (evOutDn (next H cb t))).flatMap dnBytes := by
    rw [flatMap_filterMap]
    apply flatMap_congr'
    intro e _
    cases e with
    | outp t' c =>
      cases c with
      | up u => rfl
      | down m =>
        by_cases hh : t' = next H cb t
        · subst hh
          cases m <;> simp [bOutDn, evOutDn, dnBytes]
        · cases m <;> simp [bOutDn, evOutDn, hh]
    | _ => rfl
  rw [h1, w.dn, flatMap_filterMap]
  apply flatMap_congr'
  intro e he
  have hw := w.wf e he
  cases e with
  | inp src dst m =>
    cases m with
    | dn m =>
      have hm := mem_dn hc hw ht hta
      by_cases hs : dst = t
      · have hd := hm.mpr hs
        subst hs
        cases m <;> simp [bInDn, evInDn, dnBytes, hd]
      · have hd : ¬ src = next H cb t := fun hh => hs (hm.mp hh)
        cases m <;> simp [bInDn, evInDn, hs, hd]
    | _ => rfl
  | _ => rfl

theorem wired {σ} {H : Heap} (c : Cfg σ) {cb : Nat} {os : List Nat} (hc : Chain H cb os) (init : Tgt → σ) {h : List Act} (hT : Ticks os h)
    (hcl : Clean (acts H c cb (.start init) h).log) : Wired H cb os (acts H c cb (.start init) h).log h := by
  obtain ⟨new, h1, h2, h3⟩ := acts_bal c hc.closed hc.noWire hc.ne h (.start init)
    (fun t k ht => (hT t k ht).elim (fun hh => .inr (.inl hh)) fun hh => .inr (.inr hh))
    (fun k hk => by rcases hT .wire k hk with hh | ⟨_, _, hh⟩ <;> cases hh) (fun t ht => absurd rfl ht)
  have h1' : (acts H c cb (.start init) h).log = new := by rw [h1]; rfl
  rw [h1'] at hcl ⊢
  obtain ⟨a, b, d⟩ := h3 hcl
  exact ⟨h2, a, b, d⟩

/-! ## Local histories -/

theorem loc_flatMap (t : Tgt) (g : LEv → Bytes) : ∀ l : List Ev, (loc t l).flatMap g = l.flatMap fun e => (localEv t e).elim [] g :=
  fun l => flatMap_filterMap (localEv t) g l

theorem loc_got (t : Tgt) (l : List Ev) : (loc t l).flatMap LEv.got = l.flatMap (bRecv t) := by
  rw [loc_flatMap]
  apply flatMap_congr'
  intro e he
  cases e with
  | inp src dst m =>
    by_cases h : dst = t
    · subst h
      cases m with
      | up u => cases u <;> simp [localEv, LEv.got, bRecv]
      | _ => simp [localEv, LEv.got, bRecv]
    · cases m with
      | up u => cases u <;> simp [localEv, bRecv, h]
      | _ => simp [localEv, bRecv, h]
  | _ => rename_i t' _; by_cases h : t' = t <;> simp [localEv, h, LEv.got, bRecv]

theorem loc_wrote (t : Tgt) (l : List Ev) : (loc t l).flatMap LEv.wrote = l.flatMap (bInDn t) := by
  rw [loc_flatMap]
  apply flatMap_congr'
  intro e he
  cases e with
  | inp src dst m =>
    by_cases h : dst = t
    · subst h
      cases m with
      | dn u => cases u <;> simp [localEv, LEv.wrote, bInDn]
      | _ => simp [localEv, LEv.wrote, bInDn]
    · cases m with
      | dn u => cases u <;> simp [localEv, bInDn, h]
      | _ => simp [localEv, bInDn, h]
  | _ => rename_i t' _; by_cases h : t' = t <;> simp [localEv, h, LEv.wrote, bInDn]

theorem loc_sent (t : Tgt) (l : List Ev) : (loc t l).flatMap LEv.sent = l.flatMap (bOutDn t) := by
  rw [loc_flatMap]
  apply flatMap_congr'
  intro e he
  cases e with
  | outp t' c =>
    by_cases h : t' = t
    · subst h
      cases c with
      | down u => cases u <;> simp [localEv, LEv.sent, bOutDn]
      | _ => simp [localEv, LEv.sent, bOutDn]
    · cases c with
      | down u => cases u <;> simp [localEv, bOutDn, h]
      | _ => simp [localEv, bOutDn, h]
  | _ => rename_i t' _; by_cases h : t' = t <;> simp [localEv, h, LEv.sent, bOutDn]

theorem loc_passed (t : Tgt) (l : List Ev) : (loc t l).flatMap LEv.passed = l.flatMap (bOutUp t) := by
  rw [loc_flatMap]
  apply flatMap_congr'
  intro e he
  cases e with
  | outp t' c =>
    by_cases h : t' = t
    · subst h
      cases c with
      | up u => cases u <;> simp [localEv, LEv.passed, bOutUp]
      | _ => simp [localEv, LEv.passed, bOutUp]
    · cases c with
      | up u => cases u <;> simp [localEv, bOutUp, h]
      | _ => simp [localEv, bOutUp, h]
  | _ => rename_i t' _; by_cases h : t' = t <;> simp [localEv, h, LEv.passed, bOutUp]

theorem loc_clean {t : Tgt} {l : List Ev} (h : Clean l) : CleanL (loc t l) := by
  intro r hr
  rcases hr with hr | hr
  all_goals
    obtain ⟨e, he, hh⟩ := List.mem_filterMap.mp hr
    cases e with
    | back t' r' =>
      rw [localEv] at hh
      split at hh
      · cases hh; try exact h t' r (.inl he)
      · cases hh
    | done t' r' =>
      rw [localEv] at hh
      split at hh
      · cases hh; try exact h t' r (.inr he)
      · cases hh
    | inp => rw [localEv] at hh; split at hh <;> cases hh
    | outp => rw [localEv] at hh; split at hh <;> cases hh

/-- C80. In every history of a stack, each layer, and the application, has a history that its code could have on its own: whatever the others do, however
the calls are nested, no layer can be brought into a state that its author could not see by calling it. -/
theorem C80_local {σ} {H H' : Heap} {cb : Nat} {f : Option Factory} {low : Tgt} (hcb : cb < H.n) (ha : attach H cb f = .ok (H', low)) (c : Cfg σ)
    (init : Tgt → σ) (h : List Act) :
    ∃ os, os.map (fun o => some (H'.kind o)) = layers f ∧ Path H'.higher (H'.higher cb) os .app ∧
      (∀ o ∈ os, Env (c.layer (H'.kind o)) (init (.obj o)) (loc (.obj o) (acts H' c cb (.start init) h).log) ((acts H' c cb (.start init) h).st (.obj o))) ∧
      Env c.app (init .app) (loc .app (acts H' c cb (.start init) h).log) ((acts H' c cb (.start init) h).st .app) := by
  obtain ⟨os, h1, h2⟩ := attach_chain hcb ha
  obtain ⟨new, g1, g2⟩ := acts_local H' c cb h (.start init)
  have g1' : (acts H' c cb (.start init) h).log = new := by rw [g1]; rfl
  rw [g1']
  exact ⟨os, h1, h2.1.2, fun o _ => g2 (.obj o) ⟨nofun, nofun⟩, g2 .app ⟨nofun, nofun⟩⟩

/-- C80. As long as no call raises an exception, at every interface of the stack what is passed up on one side is what is received on the other, and what
is written on one side is what arrives on the other; and what arrives from the wire is what the lowest protocol receives. -/
theorem C80_interfaces {σ} {H H' : Heap} {cb : Nat} {f : Option Factory} {low : Tgt} (hcb : cb < H.n) (ha : attach H cb f = .ok (H', low)) (c : Cfg σ)
    (init : Tgt → σ) :
    ∃ os, os.map (fun o => some (H'.kind o)) = layers f ∧ Path H'.higher (H'.higher cb) os .app ∧
      ∀ h, Ticks os h → ∀ log, log = (acts H' c cb (.start init) h).log → Clean log →
        fed h = (loc (H'.higher cb) log).flatMap LEv.got ∧ onWire log = (loc (H'.higher cb) log).flatMap LEv.sent ∧
        ∀ o ∈ os, (loc (.obj o) log).flatMap LEv.passed = (loc (H'.higher o) log).flatMap LEv.got ∧
          (loc (.obj o) log).flatMap LEv.wrote = (loc (H'.higher o) log).flatMap LEv.sent := by
  obtain ⟨os, h1, h2⟩ := attach_chain hcb ha
  refine ⟨os, h1, h2.1.2, fun h hT log hlog hcl => ?_⟩
  subst hlog
  have w := wired c h2 init hT hcl
  refine ⟨?_, ?_, fun o ho => ⟨?_, ?_⟩⟩
  · rw [loc_got]
    exact w.fed_eq h2
  · rw [loc_sent]
    have h3 := w.dn_eq h2 (t := .wire) (.inl rfl) nofun
    rw [show H'.higher cb = next H' cb .wire from rfl, h3]
    apply flatMap_congr'
    intro e _
    cases e with
    | inp src dst m =>
      cases m with
      | dn m => cases m <;> cases dst <;> simp [bInDn]
      | _ => cases dst <;> rfl
    | _ => rfl
  · rw [loc_passed, loc_got]
    exact w.up_eq h2 ho
  · rw [loc_wrote, loc_sent]
    exact (w.dn_eq h2 (t := .obj o) (.inr (.inr ⟨o, ho, rfl⟩)) nofun).symm

/-- The layers keep the relation, for histories in `P` on one side and `Q` on the other. -/
def KeepsIn (R : Bytes → Bytes → Prop) (P Q : List LEv → Prop) : Prop :=
  ∀ la lb, P la → Q lb → CleanL la → CleanL lb →
    R (lb.flatMap LEv.got) (la.flatMap LEv.sent) → R (la.flatMap LEv.got) (lb.flatMap LEv.sent) →
    R (lb.flatMap LEv.passed) (la.flatMap LEv.wrote) ∧ R (la.flatMap LEv.passed) (lb.flatMap LEv.wrote)

/-- The relation goes up from layer to layer. -/
theorem climb {R : Bytes → Bytes → Prop} {A B : Heap} {P Q : Nat → List LEv → Prop} {la lb : List Ev}
    (hla : Clean la) (hlb : Clean lb) : ∀ (os ps : List Nat) (ta tb : Tgt), Path A.higher ta os .app → Path B.higher tb ps .app → os.length = ps.length →
    (∀ o ∈ os, P (A.kind o) (loc (.obj o) la)) →
    (∀ o ∈ ps, Q (B.kind o) (loc (.obj o) lb)) →
    (∀ o ∈ os, (loc (.obj o) la).flatMap LEv.passed = (loc (A.higher o) la).flatMap LEv.got ∧
      (loc (.obj o) la).flatMap LEv.wrote = (loc (A.higher o) la).flatMap LEv.sent) →
    (∀ o ∈ ps, (loc (.obj o) lb).flatMap LEv.passed = (loc (B.higher o) lb).flatMap LEv.got ∧
      (loc (.obj o) lb).flatMap LEv.wrote = (loc (B.higher o) lb).flatMap LEv.sent) →
    (∀ x ∈ os.zip ps, KeepsIn R (P (A.kind x.1)) (Q (B.kind x.2))) →
    R ((loc tb lb).flatMap LEv.got) ((loc ta la).flatMap LEv.sent) → R ((loc ta la).flatMap LEv.got) ((loc tb lb).flatMap LEv.sent) →
    R ((loc .app lb).flatMap LEv.got) ((loc .app la).flatMap LEv.sent) ∧ R ((loc .app la).flatMap LEv.got) ((loc .app lb).flatMap LEv.sent)
  | [], [], ta, tb, pa, pb, _, _, _, _, _, _, r1, r2 => by
    have pa : ta = .app := pa
    have pb : tb = .app := pb
    subst pa pb
    exact ⟨r1, r2⟩
  | [], _ :: _, _, _, _, _, hl, _, _, _, _, _, _, _ => by cases hl
  | _ :: _, [], _, _, _, _, hl, _, _, _, _, _, _, _ => by cases hl
  | o :: os, p :: ps, ta, tb, pa, pb, hl, ea, eb, ja, jb, hk, r1, r2 => by
    obtain ⟨rfl, pa⟩ := pa
    obtain ⟨rfl, pb⟩ := pb
    have k := hk (o, p) (by rw [List.zip_cons_cons]; exact List.mem_cons_self ..) _ _ (ea o (List.mem_cons_self ..)) (eb p (List.mem_cons_self ..)) (loc_clean hla) (loc_clean hlb) r1 r2
    rw [(ja o (List.mem_cons_self ..)).1, (ja o (List.mem_cons_self ..)).2, (jb p (List.mem_cons_self ..)).1, (jb p (List.mem_cons_self ..)).2] at k
    exact climb hla hlb os ps _ _ pa pb (by simpa using hl) (fun x hx => ea x (List.mem_cons_of_mem _ hx)) (fun x hx => eb x (List.mem_cons_of_mem _ hx))
      (fun x hx => ja x (List.mem_cons_of_mem _ hx)) (fun x hx => jb x (List.mem_cons_of_mem _ hx))
      (fun x hx => hk x (by rw [List.zip_cons_cons]; exact List.mem_cons_of_mem _ hx)) k.1 k.2

theorem appGot_eq (l : List Ev) : appGot l = (loc .app l).flatMap LEv.got := by
  rw [loc_got]
  apply flatMap_congr'
  intro e _
  cases e with
  | inp src dst m =>
    cases m with
    | up u => cases u <;> cases dst <;> simp [bRecv]
    | _ => cases dst <;> rfl
  | _ => rfl

theorem appWrote_eq (l : List Ev) : appWrote l = (loc .app l).flatMap LEv.sent := by
  rw [loc_sent]
  apply flatMap_congr'
  intro e _
  cases e with
  | outp t c =>
    cases c with
    | down u => cases u <;> cases t <;> simp [bOutDn]
    | _ => cases t <;> rfl
  | _ => rfl

theorem onWire_eq (l : List Ev) : onWire l = l.flatMap (bInDn .wire) := by
  apply flatMap_congr'
  intro e _
  cases e with
  | inp src dst m =>
    cases m with
    | dn m => cases m <;> cases dst <;> simp [bInDn]
    | _ => cases dst <;> rfl
  | _ => rfl

theorem compose {σ} {R : Bytes → Bytes → Prop} {A B : Heap} {a b : Nat} {os ps : List Nat} (a2 : Chain A a os) (b2 : Chain B b ps)
    (hl : os.length = ps.length) (ca cb : Cfg σ) (initA initB : Tgt → σ) {hista histb : List Act} (hTa : Ticks os hista) (hTb : Ticks ps histb)
    {la lb : List Ev} (hla : la = (acts A ca a (.start initA) hista).log) (hlb : lb = (acts B cb b (.start initB) histb).log)
    (cla : Clean la) (clb : Clean lb) (P Q : Nat → List LEv → Prop) (ea : ∀ o ∈ os, P (A.kind o) (loc (.obj o) la))
    (eb : ∀ o ∈ ps, Q (B.kind o) (loc (.obj o) lb)) (hk : ∀ x ∈ os.zip ps, KeepsIn R (P (A.kind x.1)) (Q (B.kind x.2)))
    (r1 : R (fed histb) (onWire la)) (r2 : R (fed hista) (onWire lb)) : R (appGot lb) (appWrote la) ∧ R (appGot la) (appWrote lb) := by
  have wa : Wired A a os la hista := hla ▸ wired ca a2 initA hTa (hla ▸ cla)
  have wb : Wired B b ps lb histb := hlb ▸ wired cb b2 initB hTb (hlb ▸ clb)
  have oa : onWire la = (loc (A.higher a) la).flatMap LEv.sent := by
    rw [loc_sent, onWire_eq]
    exact (wa.dn_eq a2 (t := .wire) (.inl rfl) nofun).symm
  have ob : onWire lb = (loc (B.higher b) lb).flatMap LEv.sent := by
    rw [loc_sent, onWire_eq]
    exact (wb.dn_eq b2 (t := .wire) (.inl rfl) nofun).symm
  rw [oa, wb.fed_eq b2, ← loc_got] at r1
  rw [ob, wa.fed_eq a2, ← loc_got] at r2
  rw [appGot_eq, appGot_eq, appWrote_eq, appWrote_eq]
  refine climb (P := P) (Q := Q) cla clb os ps _ _ a2.1.2 b2.1.2 hl ea eb (fun o ho => ⟨?_, ?_⟩) (fun o ho => ⟨?_, ?_⟩) hk r1 r2
  · rw [loc_passed, loc_got]
    exact wa.up_eq a2 ho
  · rw [loc_wrote, loc_sent]
    exact (wa.dn_eq a2 (t := .obj o) (.inr (.inr ⟨o, ho, rfl⟩)) nofun).symm
  · rw [loc_passed, loc_got]
    exact wb.up_eq b2 ho
  · rw [loc_wrote, loc_sent]
    exact (wb.dn_eq b2 (t := .obj o) (.inr (.inr ⟨o, ho, rfl⟩)) nofun).symm

theorem zip_kinds {A B : Heap} {os ps : List Nat} {x : Nat × Nat} (hx : x ∈ os.zip ps) :
    (some (A.kind x.1), some (B.kind x.2)) ∈ (os.map fun o => some (A.kind o)).zip (ps.map fun o => some (B.kind o)) := by
  rw [List.zip_map]
  exact List.mem_map.mpr ⟨x, hx, rfl⟩

theorem len_kinds {A B : Heap} {os ps : List Nat} {xs ys : List (Option Nat)} (a1 : os.map (fun o => some (A.kind o)) = xs)
    (b1 : ps.map (fun o => some (B.kind o)) = ys) (h : xs.length = ys.length) : os.length = ps.length := by
  have h1 := congrArg List.length a1
  have h2 := congrArg List.length b1
  rw [List.length_map] at h1 h2
  omega

theorem env_of {σ} {A : Heap} {a : Nat} (c : Cfg σ) (init : Tgt → σ) (hist : List Act) {la : List Ev} (hla : la = (acts A c a (.start init) hist).log)
    (o : Nat) : ∃ s, Env (c.layer (A.kind o)) (init (.obj o)) (loc (.obj o) la) s := by
  obtain ⟨new, g1, g2⟩ := acts_local A c a hist (.start init)
  have g1' : la = new := by rw [hla, g1]; rfl
  have := g2 (.obj o) ⟨nofun, nofun⟩
  rw [← g1'] at this
  exact ⟨_, this⟩

/-- C80. Two endpoints with stacks of the same height, and a relation between bytes sent and bytes received (the same bytes, a prefix, …). If each layer,
together with its peer, keeps the relation in every environment, then the stacks keep it: when it holds for the bytes on the wire, it holds for the bytes
that the applications write and receive. For all layers (which may keep state, buffer, shake hands, use timers, and write while they receive), all
applications, and all histories of the two endpoints in which no call raised an exception. -/
theorem C80_composed {σ} (R : Bytes → Bytes → Prop) {A A' B B' : Heap} {a b : Nat} {fa fb : Option Factory} {lowA lowB : Tgt} (ha : a < A.n) (hb : b < B.n)
    (hA : attach A a fa = .ok (A', lowA)) (hB : attach B b fb = .ok (B', lowB)) (hlen : (layers fa).length = (layers fb).length)
    (ca cb : Cfg σ) (ia ib : Nat → σ)
    (hk : ∀ k k', (some k, some k') ∈ (layers fa).zip (layers fb) → Keeps R (ca.layer k) (ia k) (cb.layer k') (ib k')) :
    ∃ os ps, os.map (fun o => some (A'.kind o)) = layers fa ∧ ps.map (fun o => some (B'.kind o)) = layers fb ∧
      ∀ initA initB, (∀ o ∈ os, initA (.obj o) = ia (A'.kind o)) → (∀ o ∈ ps, initB (.obj o) = ib (B'.kind o)) →
        ∀ hista histb, Ticks os hista → Ticks ps histb →
        ∀ la lb, la = (acts A' ca a (.start initA) hista).log → lb = (acts B' cb b (.start initB) histb).log → Clean la → Clean lb →
          R (fed histb) (onWire la) → R (fed hista) (onWire lb) → R (appGot lb) (appWrote la) ∧ R (appGot la) (appWrote lb) := by
  obtain ⟨os, a1, a2⟩ := attach_chain ha hA
  obtain ⟨ps, b1, b2⟩ := attach_chain hb hB
  refine ⟨os, ps, a1, b1, fun initA initB hia hib hista histb hTa hTb la lb hla hlb cla clb r1 r2 => ?_⟩
  refine compose a2 b2 (len_kinds a1 b1 hlen) ca cb initA initB hTa hTb hla hlb cla clb (fun k l => ∃ s, Env (ca.layer k) (ia k) l s)
    (fun k l => ∃ s, Env (cb.layer k) (ib k) l s) (fun o ho => hia o ho ▸ env_of ca initA hista hla o) (fun o ho => hib o ho ▸ env_of cb initB histb hlb o)
    (fun x hx la lb ⟨_, h1⟩ ⟨_, h2⟩ => hk _ _ (by rw [← a1, ← b1]; exact zip_kinds hx) la lb _ _ h1 h2) r1 r2

/-! ## Layers that are called one at a time -/

theorem Chain.ranked {H : Heap} {cb : Nat} {os : List Nat} (h : Chain H cb os) : ∃ pos, Ranked H cb (Mem os) pos := by
  have key : ∀ (os : List Nat) (p : Nat), Path H.higher (.obj p) (p :: os) .app → (p :: os).Nodup → ∃ pos : Tgt → Nat,
      ∀ a ∈ p :: os, pos (.obj a) < pos (H.higher a) ∧ pos (H.higher a) ≤ pos .app := by
    intro os
    induction os with
    | nil =>
      intro p hp _
      refine ⟨fun t => if t = .app then 1 else 0, fun a ha => ?_⟩
      rw [List.mem_singleton] at ha
      subst ha
      have : H.higher a = .app := hp.2
      rw [this]
      exact ⟨by simp, Nat.le_refl _⟩
    | cons q os ih =>
      intro p hp hn
      have hq : H.higher p = .obj q := hp.2.1
      have hp' : Path H.higher (.obj q) (q :: os) .app := ⟨rfl, hp.2.2⟩
      have hn' := List.nodup_cons.mp hn
      obtain ⟨pos, hpos⟩ := ih q hp' hn'.2
      have himg := path_image hp'
      refine ⟨fun t => if t = .obj p then 0 else pos t + 1, fun a ha => ?_⟩
      have hne : ∀ a ∈ q :: os, H.higher a ≠ .obj p := by
        intro a ha hh
        rcases himg a ha with h1 | ⟨b, hb, h1⟩
        · rw [h1] at hh
          cases hh
        · rw [h1] at hh
          cases hh
          exact hn'.1 (List.mem_cons_of_mem _ hb)
      rcases List.mem_cons.mp ha with rfl | ha
      · have hqp : q ≠ a := fun hh => hn'.1 (by rw [← hh]; exact List.mem_cons_self ..)
        have h1 := hpos q (List.mem_cons_self ..)
        simp only [hq, if_true, Tgt.obj.injEq, hqp, if_false, reduceCtorEq]
        omega
      · have hap : a ≠ p := fun hh => hn'.1 (hh ▸ ha)
        have h1 := hpos a ha
        simp only [Tgt.obj.injEq, hap, if_false, hne a ha, reduceCtorEq]
        omega
  obtain ⟨pos, hpos⟩ := key os cb h.1 h.2
  refine ⟨fun t => match t with | .wire => pos (.obj cb) | .nobody => pos .app + 1 | t => pos t, fun t ht => ?_⟩
  rcases ht with rfl | rfl | ⟨o, ho, rfl⟩
  · have h1 := hpos cb (List.mem_cons_self ..)
    have h2 := h.image (t := .wire) (.inl rfl) nofun
    change H.higher cb = _ ∨ _ at h2
    show pos (.obj cb) < _
    simp only [next]
    rcases h2 with h2 | ⟨b, _, h2⟩
    · rw [h2] at h1 ⊢
      exact h1.1
    · have h2 : H.higher cb = .obj b := h2
      rw [h2] at h1 ⊢
      exact h1.1
  · show pos .app < pos .app + 1
    omega
  · have h1 := hpos o (List.mem_cons_of_mem _ ho)
    have h2 := path_image h.1 o (List.mem_cons_of_mem _ ho)
    show pos (.obj o) < _
    simp only [next]
    rcases h2 with h2 | ⟨b, _, h2⟩
    · rw [h2] at h1 ⊢
      exact h1.1
    · rw [h2] at h1 ⊢
      exact h1.1

theorem calm_of {σ} {H : Heap} {cb : Nat} {os : List Nat} (hc : Chain H cb os) (c : Cfg σ) (hP : ∀ o ∈ os, Polite (c.layer (H.kind o)))
    (init : Tgt → σ) {hist : List Act} (hT : Ticks os hist) {l : List Ev} (hl : l = (acts H c cb (.start init) hist).log) (o : Nat) (ho : o ∈ os) :
    ∃ s, Calm (c.layer (H.kind o)) (fun _ => True) (init (.obj o)) (loc (.obj o) l) s := by
  obtain ⟨pos, hR⟩ := hc.ranked
  obtain ⟨new, g1, g2⟩ := acts_calm hR hc.closed hc.noWire (c := c)
    (fun o ho => by
      rcases ho with hh | hh | ⟨p, hp, hh⟩
      · cases hh
      · cases hh
      · cases hh
        exact hP o hp)
    hist (.start init) (fun t k ht => (hT t k ht).elim (fun hh => .inr (.inl hh)) fun hh => .inr (.inr hh)) (fun t ht => absurd rfl ht)
  have g1' : l = new := by rw [hl, g1]; rfl
  have := g2 (.obj o) ⟨nofun, nofun⟩ (.inr (.inr ⟨o, ho, rfl⟩))
  rw [← g1'] at this
  exact ⟨_, this⟩

/-- C80. If the layers' transports do not call up when they are called, then in every history of the stack no layer is called while it calls its lower
transport, and while it calls its higher protocol only its transport is called: its author need only think of histories that are calm. -/
theorem C80_calm {σ} {H H' : Heap} {cb : Nat} {f : Option Factory} {low : Tgt} (hcb : cb < H.n) (ha : attach H cb f = .ok (H', low)) (c : Cfg σ)
    (hP : ∀ k, some k ∈ layers f → Polite (c.layer k)) (init : Tgt → σ) :
    ∃ os, os.map (fun o => some (H'.kind o)) = layers f ∧ Path H'.higher (H'.higher cb) os .app ∧ ∀ h, Ticks os h →
      ∀ o ∈ os, ∃ s, Calm (c.layer (H'.kind o)) (fun _ => True) (init (.obj o)) (loc (.obj o) (acts H' c cb (.start init) h).log) s := by
  obtain ⟨os, h1, h2⟩ := attach_chain hcb ha
  refine ⟨os, h1, h2.1.2, fun h hT o ho => ?_⟩
  exact calm_of h2 c (fun o ho => hP _ (by rw [← h1]; exact List.mem_map.mpr ⟨o, ho, rfl⟩)) init hT rfl o ho

/-- C80. The composition theorem for such layers: they only have to keep the relation in calm environments. -/
theorem C80_composed_calm {σ} (R : Bytes → Bytes → Prop) {A A' B B' : Heap} {a b : Nat} {fa fb : Option Factory} {lowA lowB : Tgt} (ha : a < A.n)
    (hb : b < B.n) (hA : attach A a fa = .ok (A', lowA)) (hB : attach B b fb = .ok (B', lowB)) (hlen : (layers fa).length = (layers fb).length)
    (ca cb : Cfg σ) (ia ib : Nat → σ) (hPa : ∀ k, some k ∈ layers fa → Polite (ca.layer k)) (hPb : ∀ k, some k ∈ layers fb → Polite (cb.layer k))
    (hk : ∀ k k', (some k, some k') ∈ (layers fa).zip (layers fb) → KeepsCalm R (ca.layer k) (ia k) (cb.layer k') (ib k')) :
    ∃ os ps, os.map (fun o => some (A'.kind o)) = layers fa ∧ ps.map (fun o => some (B'.kind o)) = layers fb ∧
      ∀ initA initB, (∀ o ∈ os, initA (.obj o) = ia (A'.kind o)) → (∀ o ∈ ps, initB (.obj o) = ib (B'.kind o)) →
        ∀ hista histb, Ticks os hista → Ticks ps histb →
        ∀ la lb, la = (acts A' ca a (.start initA) hista).log → lb = (acts B' cb b (.start initB) histb).log → Clean la → Clean lb →
          R (fed histb) (onWire la) → R (fed hista) (onWire lb) → R (appGot lb) (appWrote la) ∧ R (appGot la) (appWrote lb) := by
  obtain ⟨os, a1, a2⟩ := attach_chain ha hA
  obtain ⟨ps, b1, b2⟩ := attach_chain hb hB
  refine ⟨os, ps, a1, b1, fun initA initB hia hib hista histb hTa hTb la lb hla hlb cla clb r1 r2 => ?_⟩
  have pa : ∀ o ∈ os, Polite (ca.layer (A'.kind o)) := fun o ho => hPa _ (by rw [← a1]; exact List.mem_map.mpr ⟨o, ho, rfl⟩)
  have pb : ∀ o ∈ ps, Polite (cb.layer (B'.kind o)) := fun o ho => hPb _ (by rw [← b1]; exact List.mem_map.mpr ⟨o, ho, rfl⟩)
  refine compose a2 b2 (len_kinds a1 b1 hlen) ca cb initA initB hTa hTb hla hlb cla clb (fun k l => ∃ s, Calm (ca.layer k) (fun _ => True) (ia k) l s)
    (fun k l => ∃ s, Calm (cb.layer k) (fun _ => True) (ib k) l s) (fun o ho => hia o ho ▸ calm_of a2 ca pa initA hTa hla o ho)
    (fun o ho => hib o ho ▸ calm_of b2 cb pb initB hTb hlb o ho)
    (fun x hx la lb ⟨_, h1⟩ ⟨_, h2⟩ => hk _ _ (by rw [← a1, ← b1]; exact zip_kinds hx) la lb _ _ h1 h2) r1 r2

end Verif.StackRun
