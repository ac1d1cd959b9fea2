import Verif.Spec.Stack
/-! # C47: protocol stacks -/
namespace Verif.Stack

theorem upd_self {α} (f : Nat → α) (i : Nat) (x : α) : upd f i x i = x := by simp [upd]
theorem upd_ne {α} (f : Nat → α) {i j : Nat} (x : α) (h : j ≠ i) : upd f i x j = f j := by simp [upd, h]

theorem Path.congr {next next' : Nat → Tgt} : ∀ {os : List Nat} {t e : Tgt}, Path next t os e → (∀ o ∈ os, next' o = next o) →
    Path next' t os e
  | [], _, _, h, _ => h
  | o :: os, t, e, h, hh => ⟨h.1, by
      rw [hh o (List.mem_cons_self ..)]
      exact Path.congr h.2 fun o' ho => hh o' (List.mem_cons_of_mem _ ho)⟩

/-- Objects created before are not touched. -/
def Kept (H H' : Heap) : Prop := H.n ≤ H'.n ∧ ∀ j, j < H.n → H'.kind j = H.kind j ∧ H'.higher j = H.higher j ∧ H'.lower j = H.lower j

theorem Kept.refl (H : Heap) : Kept H H := ⟨Nat.le_refl _, fun _ _ => ⟨rfl, rfl, rfl⟩⟩
theorem Kept.trans {A B C : Heap} (h1 : Kept A B) (h2 : Kept B C) : Kept A C :=
  ⟨Nat.le_trans h1.1 h2.1, fun j hj => by
    obtain ⟨a1, a2, a3⟩ := h1.2 j hj
    obtain ⟨b1, b2, b3⟩ := h2.2 j (Nat.lt_of_lt_of_le hj h1.1)
    exact ⟨b1.trans a1, b2.trans a2, b3.trans a3⟩⟩

mutual
theorem call_spec : ∀ (f : Factory) {H H' : Heap} {p : Nat}, call f H = .ok (p, H') →
    Kept H H' ∧ H.n ≤ p ∧ p < H'.n ∧ bottom f = some (H'.kind p)
  | .layer k, H, H', p, h => by
    rw [call] at h
    cases h
    refine ⟨⟨Nat.le_succ _, fun j hj => ?_⟩, Nat.le_refl _, Nat.lt_succ_self _, ?_⟩
    · have : j ≠ H.n := by omega
      simp only [Heap.new, upd_ne _ _ this]
      exact ⟨trivial, trivial, trivial⟩
    · simp [bottom, Heap.new, upd_self]
  | .stack fs, H, H', p, h => by
    rw [call] at h
    split at h
    · cases h
    · next q H1 hr =>
      cases h
      obtain ⟨os, h1, h2, h3, h4, h5⟩ := callRest_spec fs hr
      cases os with
      | nil => cases h2
      | cons o os =>
        obtain ⟨ho, _⟩ := h2
        cases ho
        have := h5 p (List.mem_cons_self ..)
        refine ⟨h1, this.1, this.2, ?_⟩
        rw [bottom]
        cases fs with
        | nil => simp at h3
        | cons f fs => rw [bottomOf]; simp at h3; exact h3.1.symm
    · cases h

theorem callRest_spec : ∀ (fs : List Factory) {H H' : Heap} {t : Tgt}, callRest fs H = .ok (t, H') →
    ∃ os, Kept H H' ∧ Path H'.higher t os .nobody ∧ os.map (fun o => some (H'.kind o)) = fs.map bottom ∧ os.Nodup ∧
      ∀ o ∈ os, H.n ≤ o ∧ o < H'.n
  | [], H, H', t, h => by
    rw [callRest] at h
    cases h
    exact ⟨[], Kept.refl _, rfl, rfl, List.nodup_nil, by simp⟩
  | f :: fs, H, H', t, h => by
    rw [callRest] at h
    split at h
    · cases h
    · next top H1 hr =>
      split at h
      · cases h
      · next p H2 hc =>
        cases h
        obtain ⟨os, k1, k2, k3, k4, k5⟩ := callRest_spec fs hr
        obtain ⟨c1, c2, c3, c4⟩ := call_spec f hc
        have hne : ∀ o ∈ os, o ≠ p := fun o ho => by have := (k5 o ho).2; omega
        have hk1 := k1.1
        have hc1 := c1.1
        refine ⟨p :: os, ⟨Nat.le_trans hk1 hc1, fun j hj => ?_⟩, ⟨rfl, ?_⟩, ?_, ?_, ?_⟩
        · have hjp : j ≠ p := by omega
          obtain ⟨x1, x2, x3⟩ := (k1.trans c1).2 j hj
          exact ⟨x1, (upd_ne _ _ hjp).trans x2, x3⟩
        · show Path (upd H2.higher p top) (upd H2.higher p top p) os .nobody
          rw [upd_self]
          refine k2.congr fun o ho => ?_
          rw [upd_ne _ _ (hne o ho)]
          exact (c1.2 o (k5 o ho).2).2.1
        · rw [List.map_cons, List.map_cons, c4, ← k3]
          congr 1
          apply List.map_congr_left
          intro o ho
          show some (H2.kind o) = _
          rw [(c1.2 o (k5 o ho).2).1]
        · exact List.nodup_cons.mpr ⟨fun h => hne p h rfl, k4⟩
        · intro o ho
          rcases List.mem_cons.mp ho with rfl | ho
          · exact ⟨by omega, c3⟩
          · have := k5 o ho
            exact ⟨this.1, Nat.lt_of_lt_of_le this.2 hc1⟩
end

theorem callRest_flat : ∀ (ks : List Nat) (H : Heap), ∃ t H', callRest (ks.map .layer) H = .ok (t, H')
  | [], H => ⟨_, _, rfl⟩
  | k :: ks, H => by
    obtain ⟨t, H', h⟩ := callRest_flat ks H
    exact ⟨_, _, by rw [List.map_cons, callRest, h]; rfl⟩

/-- C47. A stacking factory makes new protocols, one for each of its factories, connected in the given order: from the protocol
returned one goes up through the layers in the order in which they were given, and above the last there is nothing yet. No protocol
that existed before is changed. -/
theorem C47_order (ks : List Nat) (hks : ks ≠ []) (H : Heap) :
    ∃ p H' os, call (flat ks) H = .ok (p, H') ∧ Path H'.higher (.obj p) os .nobody ∧ os.map H'.kind = ks ∧ os.Nodup ∧
      (∀ o ∈ os, H.n ≤ o ∧ o < H'.n) ∧ Kept H H' := by
  obtain ⟨t, H', h⟩ := callRest_flat ks H
  obtain ⟨os, h1, h2, h3, h4, h5⟩ := callRest_spec _ h
  have h3' : os.map H'.kind = ks := by
    rw [List.map_map, show (bottom ∘ Factory.layer) = some from funext fun k => by simp [bottom]] at h3
    have : (os.map H'.kind).map some = ks.map some := by rw [List.map_map]; exact h3
    exact (List.map_inj_right (fun _ _ h => Option.some.inj h)).mp this
  cases os with
  | nil => exact absurd h3'.symm hks
  | cons o os =>
    obtain ⟨ho, h2⟩ := h2
    subst ho
    exact ⟨o, H', o :: os, by rw [flat, call, h], ⟨rfl, h2⟩, h3', h4, h5, h1⟩

/-! ## Attaching the application -/

theorem Path.append {next : Nat → Tgt} : ∀ {xs ys : List Nat} {a b c : Tgt}, Path next a xs b → Path next b ys c → Path next a (xs ++ ys) c
  | [], _, _, _, _, h1, h2 => by cases h1; exact h2
  | _ :: _, _, _, _, _, h1, h2 => ⟨h1.1, Path.append h1.2 h2⟩

theorem top_spec (H : Heap) : ∀ (os : List Nat) (p f : Nat), Path H.higher (H.higher p) os .nobody → os.length ≤ f →
    top H f p = (p :: os).getLast (by simp)
  | [], p, f, h, _ => by
    have h : H.higher p = .nobody := h
    cases f with
    | zero => rfl
    | succ f => rw [top, h]; rfl
  | o :: os, p, 0, h, hf => by simp at hf
  | o :: os, p, f + 1, h, hf => by
    rw [top, h.1]
    show top H f o = _
    rw [top_spec H os o f h.2 (by simpa using hf)]
    rfl

theorem path_setLast {next : Nat → Tgt} {e e' : Tgt} : ∀ (os : List Nat) (p : Nat), Path next (.obj p) (p :: os) e → (p :: os).Nodup →
    Path (upd next ((p :: os).getLast (by simp)) e') (.obj p) (p :: os) e'
  | [], p, _, _ => ⟨rfl, by show upd next p e' p = e'; rw [upd_self]⟩
  | o :: os, p, h, hn => by
    have hn' := (List.nodup_cons.mp hn)
    have ho : next p = .obj o := h.2.1
    have ih := path_setLast (e' := e') os o ⟨rfl, h.2.2⟩ hn'.2
    refine ⟨rfl, ?_⟩
    have hl : (p :: o :: os).getLast (by simp) = (o :: os).getLast (by simp) := rfl
    rw [hl]
    have hne : p ≠ (o :: os).getLast (by simp) := fun hh => hn'.1 (by rw [hh]; exact List.getLast_mem _)
    rw [upd_ne _ _ hne, ho]
    exact ih

theorem connect_spec : ∀ (os : List Nat) (f : Nat) (H : Heap) (t low : Tgt), Path H.higher t os .app → os.Nodup → os.length ≤ f →
    (connect f H t low).1.kind = H.kind ∧ (connect f H t low).1.higher = H.higher ∧ (connect f H t low).1.n = H.n ∧
    (∀ j, j ∉ os → (connect f H t low).1.lower j = H.lower j) ∧
    Path (connect f H t low).1.lower (connect f H t low).2 os.reverse low
  | [], f, H, t, low, h, _, _ => by
    have h : t = .app := h
    subst h
    cases f <;> exact ⟨rfl, rfl, rfl, fun _ _ => rfl, rfl⟩
  | o :: os, 0, H, t, low, h, _, hf => by simp at hf
  | o :: os, f + 1, H, t, low, h, hn, hf => by
    obtain ⟨rfl, h⟩ := h
    have hn' := List.nodup_cons.mp hn
    rw [connect]
    obtain ⟨i1, i2, i3, i4, i5⟩ := connect_spec os f { H with lower := upd H.lower o low } (H.higher o) (.obj o) h hn'.2 (by simpa using hf)
    refine ⟨i1, i2, i3, fun j hj => ?_, ?_⟩
    · rw [i4 j (fun h => hj (List.mem_cons_of_mem _ h))]
      exact upd_ne _ _ (fun hh => hj (by rw [hh]; exact List.mem_cons_self ..))
    · rw [List.reverse_cons]
      refine Path.append i5 ⟨rfl, ?_⟩
      show _ = low
      rw [i4 o hn'.1]
      exact upd_self _ _ _

theorem nodup_length_le {n : Nat} : ∀ {l : List Nat}, l.Nodup → (∀ x ∈ l, x < n) → l.length ≤ n := by
  induction n with
  | zero =>
    intro l _ h
    cases l with
    | nil => simp
    | cons x l => exact absurd (h x (List.mem_cons_self ..)) (by omega)
  | succ n ih =>
    intro l hl h
    have := ih (hl.erase n) (fun x hx => by
      have h1 := h x (List.mem_of_mem_erase hx)
      have h2 : x ≠ n := fun hh => by rw [hh] at hx; exact (List.Nodup.not_mem_erase hl) hx
      omega)
    rw [List.length_erase] at this
    split at this <;> omega

/-- The layers of an optional factory. -/
def layers : Option Factory → List (Option Nat)
  | none => []
  | some (.layer k) => [some k]
  | some (.stack fs) => fs.map bottom

theorem makeStack_spec {H H1 : Heap} {t : Tgt} {f : Option Factory} (h : makeStack H f = .ok (t, H1)) :
    ∃ os, Kept H H1 ∧ Path H1.higher t os .nobody ∧ os.map (fun o => some (H1.kind o)) = layers f ∧ os.Nodup ∧
      ∀ o ∈ os, H.n ≤ o ∧ o < H1.n := by
  cases f with
  | none =>
    cases h
    exact ⟨[], Kept.refl _, rfl, rfl, List.nodup_nil, by simp⟩
  | some f =>
    rw [makeStack] at h
    split at h
    · cases h
    · next p H2 hc =>
      cases h
      cases f with
      | layer k =>
        obtain ⟨c1, c2, c3, c4⟩ := call_spec _ hc
        rw [call] at hc
        cases hc
        refine ⟨[H.n], c1, ⟨rfl, ?_⟩, ?_, by simp, ?_⟩
        · show upd H.higher H.n .nobody H.n = .nobody
          exact upd_self _ _ _
        · rw [bottom] at c4; simp [layers, ← c4]
        · simp [Heap.new]
      | stack fs =>
        rw [call] at hc
        split at hc
        · cases hc
        · next q H3 hr =>
          cases hc
          obtain ⟨os, h1, h2, h3, h4, h5⟩ := callRest_spec fs hr
          exact ⟨os, h1, h2, h3, h4, h5⟩
        · cases hc

/-- C47. When the stack is put on a callback connection, one goes up from the callback protocol through the layers in their order to the
application, and down from the transport of the application through the same layers in the opposite order to the wire. -/
theorem C47_attached {H H' : Heap} {cb : Nat} {f : Option Factory} {low : Tgt} (hcb : cb < H.n) (h : attach H cb f = .ok (H', low)) :
    ∃ os, os.map (fun o => some (H'.kind o)) = layers f ∧ (cb :: os).Nodup ∧ Path H'.higher (.obj cb) (cb :: os) .app ∧
      Path H'.lower low os.reverse .wire ∧ (∀ o ∈ os, H.n ≤ o ∧ o < H'.n) ∧
      ∀ j, j < H.n → H'.kind j = H.kind j ∧ H'.lower j = H.lower j ∧ (j ≠ cb → H'.higher j = H.higher j) := by
  rw [attach] at h
  split at h
  · cases h
  · next st H1 hm =>
    obtain ⟨os, m1, m2, m3, m4, m5⟩ := makeStack_spec hm
    dsimp only at h
    have hncb : cb ∉ os := fun hh => by have := (m5 cb hh).1; omega
    have hnd : (cb :: os).Nodup := List.nodup_cons.mpr ⟨hncb, m4⟩
    have hlen : (cb :: os).length ≤ H1.n := nodup_length_le hnd (by
      intro x hx
      rcases List.mem_cons.mp hx with rfl | hx
      · exact Nat.lt_of_lt_of_le hcb m1.1
      · exact (m5 x hx).2)
    have hlen' : os.length + 1 ≤ H1.n := by simpa using hlen
    have p2 : Path (H1.setHigher cb st).higher ((H1.setHigher cb st).higher cb) os .nobody := by
      show Path (upd H1.higher cb st) (upd H1.higher cb st cb) os .nobody
      rw [upd_self]
      exact m2.congr fun o ho => upd_ne _ _ (fun hh => hncb (hh ▸ ho))
    rw [top_spec _ os cb _ p2 (by show os.length ≤ H1.n; omega)] at h
    have p3 : Path (upd (H1.setHigher cb st).higher ((cb :: os).getLast (by simp)) .app) (.obj cb) (cb :: os) .app :=
      path_setLast os cb ⟨rfl, p2⟩ hnd
    generalize hH3 : (H1.setHigher cb st).setHigher ((cb :: os).getLast (by simp)) .app = H3 at h
    have hhigher : H3.higher = upd (H1.setHigher cb st).higher ((cb :: os).getLast (by simp)) .app := by rw [← hH3]; rfl
    have hkind : H3.kind = H1.kind := by rw [← hH3]; rfl
    have hn3 : H3.n = H1.n := by rw [← hH3]; rfl
    have hlow : H3.lower = H1.lower := by rw [← hH3]; rfl
    rw [← hhigher] at p3
    obtain ⟨c1, c2, c3, c4, c5⟩ := connect_spec os H3.n H3 (H3.higher cb) .wire p3.2 m4 (by omega)
    have hH' : H' = (connect H3.n H3 (H3.higher cb) .wire).1 := by
      have hh := Except.ok.inj h
      exact (congrArg Prod.fst hh).symm
    have hlw : low = (connect H3.n H3 (H3.higher cb) .wire).2 := by
      have hh := Except.ok.inj h
      exact (congrArg Prod.snd hh).symm
    rw [← hH'] at c1 c2 c3 c4 c5
    rw [← hlw] at c5
    refine ⟨os, ?_, hnd, ?_, c5, ?_, ?_⟩
    · rw [c1, hkind]; exact m3
    · rw [c2]; exact p3
    · intro o ho; rw [c3, hn3]; exact m5 o ho
    · intro j hj
      have hjo : j ∉ os := fun hh => by have := (m5 j hh).1; omega
      refine ⟨by rw [c1, hkind]; exact (m1.2 j hj).1, by rw [c4 j hjo, hlow]; exact (m1.2 j hj).2.2, fun hne => ?_⟩
      rw [c2, hhigher]
      have hl : j ≠ (cb :: os).getLast (by simp) := by
        intro hh
        have := List.getLast_mem (l := cb :: os) (by simp)
        rw [← hh] at this
        rcases List.mem_cons.mp this with h | h
        · exact hne h
        · exact hjo h
      rw [upd_ne _ _ hl]
      show upd H1.higher cb st j = _
      rw [upd_ne _ _ hne]
      exact (m1.2 j hj).2.1

/-! ## Data -/

theorem run1_append {σ : Type} (f : σ → Bytes → σ × List Bytes) : ∀ (a b : List Bytes) (s : σ),
    run1 f s (a ++ b) = ((run1 f (run1 f s a).1 b).1, (run1 f s a).2 ++ (run1 f (run1 f s a).1 b).2)
  | [], b, s => rfl
  | c :: a, b, s => by
    rw [List.cons_append, run1, run1_append f a b]
    simp [run1]

theorem through_append {σ : Type} (f : Nat → σ → Bytes → σ × List Bytes) : ∀ (ls : List (Nat × σ)) (a b : List Bytes),
    through f ls (a ++ b) = ((through f (through f ls a).1 b).1, (through f ls a).2 ++ (through f (through f ls a).1 b).2)
  | [], a, b => rfl
  | (k, s) :: r, a, b => by
    rw [through, run1_append]
    dsimp only
    rw [through_append f r]
    rfl

theorem through_nil {σ : Type} (f : Nat → σ → Bytes → σ × List Bytes) : ∀ (ls : List (Nat × σ)), through f ls [] = (ls, [])
  | [] => rfl
  | (k, s) :: r => by rw [through, run1]; simp [through_nil f r]

/-- The states of the objects `os` as a list of layers. -/
def view {σ : Type} (kind : Nat → Nat) (st : Nat → σ) (os : List Nat) : List (Nat × σ) := os.map fun o => (kind o, st o)

theorem view_upd {σ : Type} (kind : Nat → Nat) (st : Nat → σ) {os : List Nat} {o : Nat} (x : σ) (h : o ∉ os) :
    view kind (upd st o x) os = view kind st os := by
  apply List.map_congr_left
  intro a ha
  show (kind a, upd st o x a) = (kind a, st a)
  rw [upd_ne st x (fun hh : a = o => h (hh ▸ ha))]

/-- One chunk through the pointers is one chunk through the list of layers. -/
theorem passList_spec {σ : Type} (kind : Nat → Nat) (step : (Nat → σ) → Bytes → Option ((Nat → σ) × List Bytes))
    (f : Nat → σ → Bytes → σ × List Bytes) (os : List Nat)
    (hstep : ∀ st c, ∃ st', step st c = some (st', (through f (view kind st os) [c]).2) ∧
      view kind st' os = (through f (view kind st os) [c]).1 ∧ ∀ j, j ∉ os → st' j = st j) :
    ∀ (cs : List Bytes) (st : Nat → σ), ∃ st', passList step st cs = some (st', (through f (view kind st os) cs).2) ∧
      view kind st' os = (through f (view kind st os) cs).1 ∧ ∀ j, j ∉ os → st' j = st j
  | [], st => ⟨st, by rw [passList, through_nil], by rw [through_nil], fun _ _ => rfl⟩
  | c :: cs, st => by
    obtain ⟨st1, h1, h2, h3⟩ := hstep st c
    obtain ⟨st2, g1, g2, g3⟩ := passList_spec kind step f os hstep cs st1
    have ha := through_append f (view kind st os) [c] cs
    rw [List.singleton_append] at ha
    refine ⟨st2, ?_, ?_, fun j hj => (g3 j hj).trans (h3 j hj)⟩
    · rw [passList, h1]
      dsimp only
      rw [g1]
      dsimp only
      rw [ha, h2]
    · rw [ha, g2, h2]

theorem pass_spec {σ : Type} (f : Nat → σ → Bytes → σ × List Bytes) (kind : Nat → Nat) (next : Nat → Tgt) (e : Tgt)
    (he : e = .app ∨ e = .wire) : ∀ (os : List Nat) (fuel : Nat) (t : Tgt), Path next t os e → os.Nodup → os.length < fuel →
    ∀ (st : Nat → σ) (c : Bytes), ∃ st', pass f kind next fuel t st c = some (st', (through f (view kind st os) [c]).2) ∧
      view kind st' os = (through f (view kind st os) [c]).1 ∧ ∀ j, j ∉ os → st' j = st j
  | [], 0, _, _, _, hf, _, _ => by simp at hf
  | _ :: _, 0, _, _, _, hf, _, _ => by simp at hf
  | [], fuel + 1, t, h, _, _, st, c => by
    have h : t = e := h
    subst h
    rcases he with rfl | rfl <;> exact ⟨st, rfl, rfl, fun _ _ => rfl⟩
  | o :: os, fuel + 1, t, h, hn, hf, st, c => by
    obtain ⟨rfl, h⟩ := h
    have hn' := List.nodup_cons.mp hn
    have ih := pass_spec f kind next e he os fuel (next o) h hn'.2 (by simp at hf; omega)
    obtain ⟨st', h1, h2, h3⟩ := passList_spec kind (pass f kind next fuel (next o)) f os ih (f (kind o) (st o) c).2
      (upd st o (f (kind o) (st o) c).1)
    rw [view_upd kind st _ hn'.1] at h1 h2
    have hr : run1 (f (kind o)) (st o) [c] = f (kind o) (st o) c := by simp [run1]
    refine ⟨st', ?_, ?_, fun j hj => ?_⟩
    · rw [pass, h1]
      rw [show view kind st (o :: os) = (kind o, st o) :: view kind st os from rfl, through, hr]
    · rw [show view kind st (o :: os) = (kind o, st o) :: view kind st os from rfl, through, hr]
      show (kind o, st' o) :: view kind st' os = _
      rw [h2, h3 o hn'.1, upd_self]
    · rw [h3 j (fun hh => hj (List.mem_cons_of_mem _ hh))]
      exact upd_ne _ _ (fun hh => hj (hh ▸ List.mem_cons_self ..))

/-- C47. Data received on the callback connection goes up through all layers of the stack, in the order given to the factory, to the
application; data written by the application goes down through all of them in the opposite order to the wire. -/
theorem C47_data {σ : Type} {H H' : Heap} {cb : Nat} {f : Option Factory} {low : Tgt} (hcb : cb < H.n)
    (h : attach H cb f = .ok (H', low)) (up down : Nat → σ → Bytes → σ × List Bytes) :
    ∃ os, os.map (fun o => some (H'.kind o)) = layers f ∧
      (∀ (st : Nat → σ) (cs : List Bytes), ∃ st', passList (pass up H'.kind H'.higher H'.n (H'.higher cb)) st cs =
          some (st', (through up (view H'.kind st os) cs).2) ∧ view H'.kind st' os = (through up (view H'.kind st os) cs).1) ∧
      ∀ (st : Nat → σ) (ds : List Bytes), ∃ st', passList (pass down H'.kind H'.lower H'.n low) st ds =
          some (st', (through down (view H'.kind st os.reverse) ds).2) ∧
          view H'.kind st' os.reverse = (through down (view H'.kind st os.reverse) ds).1 := by
  obtain ⟨os, a1, a2, a3, a4, a5, _⟩ := C47_attached hcb h
  have hn := List.nodup_cons.mp a2
  have hle : H.n ≤ H'.n := by
    cases os with
    | nil =>
      rw [attach] at h
      split at h
      · cases h
      · next st H1 hm =>
        obtain ⟨os', m1, m2, m3, m4, m5⟩ := makeStack_spec hm
        dsimp only at h
        have : ∀ (f : Nat) (K : Heap) (t l : Tgt), (connect f K t l).1.n = K.n := by
          intro f
          induction f with
          | zero => intro K t l; cases t <;> rfl
          | succ f ih => intro K t l; cases t <;> first | rfl | exact ih _ _ _
        have h' := congrArg (fun x : Except Err (Heap × Tgt) => match x with | .ok y => y.1.n | .error _ => 0) h
        dsimp only at h'
        rw [this] at h'
        have : H1.n = H'.n := h'
        rw [← this]; exact m1.1
    | cons o os => have := a5 o (List.mem_cons_self ..); omega
  have hlen : os.length < H'.n := by
    have := nodup_length_le (n := H'.n) a2 (by
      intro x hx
      rcases List.mem_cons.mp hx with rfl | hx
      · omega
      · exact (a5 x hx).2)
    have : os.length + 1 ≤ H'.n := by simpa using this
    omega
  refine ⟨os, a1, fun st cs => ?_, fun st ds => ?_⟩
  · obtain ⟨st', h1, h2, _⟩ := passList_spec H'.kind _ up os (pass_spec up H'.kind H'.higher .app (Or.inl rfl) os H'.n _ a3.2 hn.2 hlen) cs st
    exact ⟨st', h1, h2⟩
  · obtain ⟨st', h1, h2, _⟩ := passList_spec H'.kind _ down os.reverse (pass_spec down H'.kind H'.lower .wire (Or.inr rfl) os.reverse H'.n _
      a4 (by have h3 := hn.2; unfold List.Nodup at *; rw [List.pairwise_reverse]; exact h3.imp fun h => h.symm) (by simpa using hlen)) ds st
    exact ⟨st', h1, h2⟩

/-- Through lossless layers and back. -/
theorem lossless_through {σ : Type} (up down : Nat → σ → Bytes → σ × List Bytes) (init : σ) : ∀ (ks : List Nat),
    (∀ k ∈ ks, Lossless up down init k) → ∀ (ds cs : List Bytes),
    cs.flatten = (through down (ks.reverse.map (·, init)) ds).2.flatten → (through up (ks.map (·, init)) cs).2.flatten = ds.flatten
  | [], _, ds, cs, h => h
  | k :: ks, hk, ds, cs, h => by
    rw [List.reverse_cons, List.map_append] at h
    have hap : ∀ (a b : List (Nat × σ)) (x : List Bytes), (through down (a ++ b) x).2 = (through down b (through down a x).2).2 := by
      intro a
      induction a with
      | nil => intro b x; rfl
      | cons y a ih => intro b x; obtain ⟨k, s⟩ := y; rw [List.cons_append, through, through]; exact ih b _
    rw [hap] at h
    rw [List.map_cons, through]
    have h1 := hk k (List.mem_cons_self ..) _ cs h
    exact lossless_through up down init ks (fun k' hk' => hk k' (List.mem_cons_of_mem _ hk')) ds _ h1

/-- C47. Two endpoints with the same stack, all of whose layers are lossless encodings: whatever is written on one side is received on
the other, whatever the layers, their number, the chunks written, and the chunks in which the data arrives. -/
theorem C47_end_to_end {σ : Type} {A A' B B' : Heap} {a b : Nat} {f : Option Factory} {lowA lowB : Tgt} (ha : a < A.n) (hb : b < B.n)
    (hA : attach A a f = .ok (A', lowA)) (hB : attach B b f = .ok (B', lowB)) (up down : Nat → σ → Bytes → σ × List Bytes) (init : σ)
    (hl : ∀ k, some k ∈ layers f → Lossless up down init k) (ds : List Bytes) :
    ∃ sa wire, passList (pass down A'.kind A'.lower A'.n lowA) (fun _ => init) ds = some (sa, wire) ∧
      ∀ cs : List Bytes, cs.flatten = wire.flatten →
        ∃ sb got, passList (pass up B'.kind B'.higher B'.n (B'.higher b)) (fun _ => init) cs = some (sb, got) ∧ got.flatten = ds.flatten := by
  obtain ⟨os, a1, _, a3⟩ := C47_data ha hA up down
  obtain ⟨os', b1, b2, _⟩ := C47_data hb hB up down
  obtain ⟨sa, w1, _⟩ := a3 (fun _ => init) ds
  refine ⟨sa, _, w1, fun cs hcs => ?_⟩
  obtain ⟨sb, g1, _⟩ := b2 (fun _ => init) cs
  refine ⟨sb, _, g1, ?_⟩
  have hk : os.map A'.kind = os'.map B'.kind := by
    have : (os.map A'.kind).map some = (os'.map B'.kind).map some := by
      rw [List.map_map, List.map_map]; exact a1.trans b1.symm
    exact (List.map_inj_right (fun _ _ h => Option.some.inj h)).mp this
  have hv : ∀ (kind : Nat → Nat) (l : List Nat), view kind (fun _ => init) l = (l.map kind).map (·, init) := by
    intro kind l; simp [view]
  rw [hv]
  rw [hv, List.map_reverse, hk] at hcs
  refine lossless_through up down init _ (fun k hk' => hl k ?_) ds cs hcs
  rw [← b1]
  obtain ⟨o, ho, hok⟩ := List.mem_map.mp hk'
  exact List.mem_map.mpr ⟨o, ho, by rw [hok]⟩

/-- A stack without factories raises `UnboundLocalError`. -/
theorem C47_false_empty (H : Heap) : call (flat []) H = .error .unbound := rfl

/-- C47 is false for nested stacks: of a stack used as a layer of another, only its lowest protocol stays in the stack; the layers
above it are dropped. -/
theorem C47_false_nested : (match attach ⟨1, fun _ => 0, fun _ => .nobody, fun _ => .nobody⟩ 0 (some (.stack [.layer 1, flat [2, 3], .layer 4])) with
    | .ok (H, _) => some ((H.higher 0, H.higher 4, H.higher 3, H.higher 1), (H.kind 4, H.kind 3, H.kind 1))
    | .error _ => none) = some ((.obj 4, .obj 3, .obj 1, .app), (1, 2, 4)) := by decide +kernel

/-- A case of the theorems: a stack of two lossless layers. -/
def xorLayer (k : Nat) (_ : Unit) (c : Bytes) : Unit × List Bytes := ((), [c.map (· ^^^ UInt8.ofNat k)])

theorem xor_lossless (k : Nat) : Lossless xorLayer xorLayer () k := by
  have hr : ∀ cs, (run1 (xorLayer k) () cs).2.flatten = cs.flatten.map (· ^^^ UInt8.ofNat k) := by
    intro cs
    induction cs with
    | nil => rfl
    | cons c cs ih =>
      show List.flatten (_ ++ _) = _
      rw [List.flatten_append, ih]
      simp [xorLayer]
  intro ds cs h
  rw [hr] at h
  rw [hr, h, List.map_map]
  have : ((fun x : UInt8 => x ^^^ UInt8.ofNat k) ∘ fun x => x ^^^ UInt8.ofNat k) = id := by
    funext x
    simp [UInt8.xor_assoc]
  rw [this, List.map_id]

example : ∃ H low, attach ⟨1, fun _ => 0, fun _ => .nobody, fun _ => .nobody⟩ 0 (some (flat [5, 6])) = .ok (H, low) ∧ low = .obj 1 ∧
    H.higher 0 = .obj 2 ∧ H.higher 2 = .obj 1 ∧ H.higher 1 = .app ∧ H.kind 2 = 5 ∧ H.kind 1 = 6 ∧ H.lower 1 = .obj 2 ∧ H.lower 2 = .wire :=
  ⟨_, _, rfl, rfl, rfl, rfl, rfl, rfl, rfl, rfl, rfl⟩

end Verif.Stack
