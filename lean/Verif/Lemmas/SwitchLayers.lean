import Verif.Lemmas.SwitchApi
import Verif.Props.Unreliable
import Verif.Props.Switch
/-! # The layers on the links of a switch -/
namespace Verif.SwitchApi

/-! ## Who receives -/

theorem registered_snoc {r : List Switch.Op} {o : Switch.Op} {l : Nat} {a : Str} (h : RegisteredAs (r ++ [o]) l a) :
    (o = .register a l) ∨ (RegisteredAs r l a ∧ o ≠ .unregister l) := by
  obtain ⟨hb, b, af, he, h1, h2⟩ := h
  rcases List.eq_nil_or_concat af with rfl | ⟨af', x, rfl⟩
  · have := List.append_inj_right' he (by simp)
    left; simpa using this
  · rw [List.concat_eq_append] at he h1 h2
    have he' : r ++ [o] = (b ++ .register a l :: af') ++ [x] := by rw [he]; simp
    have e1 := List.append_inj_left' he' (by simp)
    have e2 := List.append_inj_right' he' (by simp)
    simp only [List.cons.injEq, and_true] at e2
    subst e2
    right
    refine ⟨⟨hb, b, af', e1, fun hm => h1 (by simp [hm]), fun a' ha hm => h2 a' ha (by simp [hm])⟩, ?_⟩
    rintro rfl; exact h1 (by simp)

theorem receivers_registered {r : List Switch.Op} {d : Str} {j : Nat} (h : j ∈ receivers r d) : ∃ a, RegisteredAs r j a := by
  unfold receivers at h
  cases hx : Switch.new.exec r with
  | error e => rw [hx] at h; cases h
  | ok s =>
    rw [hx] at h
    dsimp only at h
    cases hb : Addr.blockFromString d with
    | ok a =>
      obtain ⟨ls, h1, _, h2⟩ := C27_links_block r s hx d a hb
      rw [h1] at h
      obtain ⟨b, _, hr⟩ := (h2 j).mp h
      exact ⟨_, hr⟩
    | error e =>
      unfold Switch.getOutboundLinks at h
      rw [hb] at h
      split at h
      · cases h
      · next heq =>
        split at heq
        · cases heq
        · cases heq; cases h

theorem registered_up (c : Cfg) : ∀ (es : List Ev) (h : List Ev), (∀ i a, RegisteredAs (ops c h) i a → phase h i = .up) →
    ∀ i a, RegisteredAs (ops c (h ++ es)) i a → phase (h ++ es) i = .up
  | [], h, hi => by rw [List.append_nil]; exact hi
  | e :: es, h, hi => by
    have := registered_up c es (h ++ [e]) (fun i a hr => by
      rw [ops_snoc] at hr
      rw [phase_snoc]
      cases e with
      | announce k b =>
        rw [if_neg (by simp), if_neg (by simp)]
        rw [opsOf] at hr
        split at hr
        · next hp =>
          rcases registered_snoc hr with h' | h'
          · cases h'; exact hp.1
          · exact hi i a h'.1
        · rw [List.append_nil] at hr; exact hi i a hr
      | lost k =>
        rw [if_neg (by simp)]
        rw [opsOf] at hr
        split at hr
        · rcases registered_snoc hr with h' | ⟨h', hne⟩
          · cases h'
          · rw [if_neg (fun x => hne (by have := x.1; simp only [Ev.lost.injEq] at this; rw [this]))]; exact hi i a h'
        · next hp =>
          rw [List.append_nil] at hr
          rw [if_neg (fun x => hp (by have := x.1; simp only [Ev.lost.injEq] at this; rw [this]; exact x.2))]; exact hi i a hr
      | connect k =>
        rw [show opsOf c h (.connect k) = [] from rfl, List.append_nil] at hr
        have := hi i a hr
        rw [if_neg (fun x => by rw [x.2] at this; cases this), if_neg (by simp)]; exact this
      | send k d b =>
        rw [show opsOf c h (.send k d b) = [] from rfl, List.append_nil] at hr
        rw [if_neg (by simp), if_neg (by simp)]; exact hi i a hr
      | timer k m n =>
        rw [show opsOf c h (.timer k m n) = [] from rfl, List.append_nil] at hr
        rw [if_neg (by simp), if_neg (by simp)]; exact hi i a hr
      | request v args =>
        rw [show opsOf c h (.request v args) = [] from rfl, List.append_nil] at hr
        rw [if_neg (by simp), if_neg (by simp)]; exact hi i a hr)
    rw [List.append_assoc] at this
    exact this

theorem registered_nil {l : Nat} {a : Str} (h : RegisteredAs [] l a) : False := by
  obtain ⟨_, b, af, he, _⟩ := h
  simp at he

theorem receivers_up {c : Cfg} {h : List Ev} {d : Str} {j : Nat} (hj : j ∈ receivers (ops c h) d) : phase h j = .up := by
  obtain ⟨a, ha⟩ := receivers_registered hj
  have := registered_up c h [] (fun i a hr => (registered_nil hr).elim) j a
  rw [List.nil_append] at this
  exact this ha

theorem registered_mem {r : List Switch.Op} {l : Nat} {a : Str} (h : RegisteredAs r l a) : .register a l ∈ r := by
  obtain ⟨_, b, af, he, _⟩ := h
  rw [he]; simp

/-! ## What one event does to one link -/

theorem link_connect (c : Cfg) (s : St) (i j : Nat) : (step c s (.connect i)).link j = if j = i ∧ (s.link j).phase = .fresh then { s.link j with phase := .up } else s.link j := by
  show (if j = i then _ else _ : Link) = _
  by_cases h : j = i
  · rw [if_pos h]
    by_cases hf : (s.link j).phase = .fresh
    · rw [if_pos hf, if_pos ⟨h, hf⟩]
    · rw [if_neg hf, if_neg fun x => hf x.2]
  · rw [if_neg h, if_neg fun x => h x.1]

theorem link_lost (c : Cfg) (s : St) (i j : Nat) : (step c s (.lost i)).link j = if j = i ∧ (s.link j).phase = .up then { s.link j with phase := .gone } else s.link j := by
  show (s.lost i).link j = _
  unfold St.lost
  by_cases h : j = i
  · subst h
    by_cases hf : (s.link j).phase = .up
    · rw [if_pos hf, if_pos ⟨rfl, hf⟩]
      split
      · show (if j = j then _ else _ : Link) = _
        rw [if_pos rfl]
      · show (if j = j then _ else _ : Link) = _
        rw [if_pos rfl]
    · rw [if_neg hf, if_neg fun x => hf x.2]
  · have hn : ¬ (j = i ∧ (s.link j).phase = .up) := fun x => h x.1
    rw [if_neg hn]
    split
    · split
      · show (if j = i then _ else _ : Link) = _
        rw [if_neg h]
      · show (if j = i then _ else _ : Link) = _
        rw [if_neg h]
    · rfl

theorem link_announce (c : Cfg) (s : St) (i j : Nat) (a : Str) : (step c s (.announce i a)).link j =
    if j = i ∧ (s.link j).phase = .up ∧ c.unreliable = true then
      (match Err.make (c.rnd j (s.link j).stack.length) s.set with
        | none => s.link j
        | some e => { s.link j with stack := ⟨e, 0, [], 0⟩ :: (s.link j).stack })
    else s.link j := by
  show (s.announce c i a).link j = _
  unfold St.announce
  by_cases h : j = i
  · subst h
    by_cases hf : (s.link j).phase = .up
    · rw [if_pos hf]
      cases hu : c.unreliable with
      | false => rw [if_neg (by simp), if_neg (by simp), (register_set s a j).1]
      | true =>
        rw [if_pos rfl, if_pos ⟨rfl, hf, rfl⟩]
        cases Err.make (c.rnd j (s.link j).stack.length) s.set with
        | none => rfl
        | some e =>
          dsimp only
          rw [(register_set _ a j).1]
          show (if j = j then _ else _ : Link) = _
          rw [if_pos rfl]
    · rw [if_neg hf, if_neg fun x => hf x.2.1]
  · have hn : ¬ (j = i ∧ (s.link j).phase = .up ∧ c.unreliable = true) := fun x => h x.1
    rw [if_neg hn]
    split
    · split
      · split
        · rfl
        · rw [(register_set _ a i).1]
          show (if j = i then _ else _ : Link) = _
          rw [if_neg h]
      · rw [(register_set s a i).1]
    · rfl

theorem link_send {c : Cfg} {h : List Ev} {s : St} (hr : Run c h s) (i j : Nat) (d : Str) (data : Bytes) : (step c s (.send i d data)).link j =
    if phase h i = .up ∧ j ∈ receivers (ops c h) d then (s.link j).put (write c s.set j (s.link j).stack data) else s.link j := by
  rw [← hr.phase]; exact (send_spec hr.switch i d data).2.2.2 j

theorem link_timer (c : Cfg) (s : St) (i j k n : Nat) : (step c s (.timer i k n)).link j =
    if j = i then (s.link j).put (fire c s.set j k n (s.link j).stack) else s.link j := by
  show (if j = i then _ else _ : Link) = _
  by_cases h : j = i
  · rw [if_pos h, if_pos h, h]
  · rw [if_neg h, if_neg h]

theorem link_request (c : Cfg) (s : St) (j : Nat) (v : Str) (args : List Str) : (step c s (.request v args)).link j = s.link j := by
  show ((call c s v args).1).link j = _
  rw [call_set]; rfl

/-! ## The stack -/

theorem pass_length {rnd : Nat → Nat → Nat} {s : Settings} {below : Bytes → List Layer × Option Bytes} {ls : List Layer}
    (hb : ∀ d, (below d).1.length = ls.length) (l : Layer) (data : Bytes) : (pass rnd s below l ls data).1.length = ls.length + 1 := by
  unfold pass
  split
  · rfl
  · next e d he =>
    cases hx : below d with
    | mk ls' o =>
      have := hb d
      rw [hx] at this
      simp [this]

theorem write_length (c : Cfg) (s : Settings) (i : Nat) : ∀ (ls : List Layer) (data : Bytes), (write c s i ls data).1.length = ls.length
  | [], _ => rfl
  | l :: ls, data => by
    unfold write
    split
    · rfl
    · exact pass_length (fun d => write_length c s i ls d) _ _

theorem fire_length (c : Cfg) (s : Settings) (i k n : Nat) : ∀ (ls : List Layer), (fire c s i k n ls).1.length = ls.length
  | [] => rfl
  | l :: ls => by
    unfold fire
    split
    · split
      · rfl
      · exact pass_length (fun d => write_length c s i ls d) _ _
    · have := fire_length c s i k n ls
      cases hx : fire c s i k n ls with
      | mk ls' o => rw [hx] at this; simp [this]

theorem put_stack (l : Link) (w : List Layer × Option Bytes) : (l.put w).stack = w.1 := by
  unfold Link.put; split <;> rfl

theorem announcements_append (r r' : List Switch.Op) (j : Nat) : announcements (r ++ r') j = announcements r j + announcements r' j := by
  unfold announcements; rw [List.filter_append, List.length_append]

/-- Each announcement that counts has put another layer on the link. -/
theorem layers (c : Cfg) : ∀ (es h : List Ev) (s : St), Run c h s → (∀ j, (s.link j).stack.length =
      if c.unreliable then announcements (ops c h) j else 0) →
    ∀ j, ((exec c s es).link j).stack.length =
      if c.unreliable then announcements (ops c (h ++ es)) j else 0
  | [], h, s, _, hs => by rw [List.append_nil]; exact hs
  | e :: es, h, s, hr, hs => by
    have := layers c es (h ++ [e]) (step c s e) (hr.step e) (fun j => by
      rw [ops_snoc, announcements_append]
      cases e with
      | connect i =>
        rw [link_connect, show opsOf c h (.connect i) = [] from rfl]
        split <;> exact hs j
      | lost i =>
        have h0 : announcements (opsOf c h (.lost i)) j = 0 := by
          rw [opsOf]; split <;> rfl
        rw [link_lost, h0]
        split <;> exact hs j
      | announce i a =>
        rw [link_announce, opsOf]
        by_cases hj : j = i ∧ (s.link j).phase = .up ∧ c.unreliable = true
        · rw [if_pos hj, if_pos hj.2.2]
          have hp : phase h i = .up := by rw [← hr.phase, ← hj.1]; exact hj.2.1
          have hl := hs j
          rw [if_pos hj.2.2] at hl
          cases hm : Err.make (c.rnd j (s.link j).stack.length) s.set with
          | none =>
            dsimp only
            rw [if_neg (fun x => x.2 ((make_none hr hj.2.2 _).mp hm)), hl]; rfl
          | some e =>
            dsimp only
            rw [if_pos ⟨hp, fun x => by rw [(make_none hr hj.2.2 _).mpr x] at hm; cases hm⟩, List.length_cons, hl]
            simp [hj.1, announcements]
        · rw [if_neg hj, hs]
          cases hu : c.unreliable with
          | false => simp
          | true =>
            rw [if_pos rfl, if_pos rfl]
            split
            · next hp =>
              have : i ≠ j := fun x => hj ⟨x.symm, by rw [hr.phase, ← x]; exact hp.1, hu⟩
              simp [this, announcements]
            · simp [announcements]
      | send i d b =>
        rw [link_send hr, show opsOf c h (.send i d b) = [] from rfl]
        split
        · rw [put_stack, write_length]; exact hs j
        · exact hs j
      | timer i k n =>
        rw [link_timer, show opsOf c h (.timer i k n) = [] from rfl]
        split
        · rw [put_stack, fire_length]; exact hs j
        · exact hs j
      | request v args =>
        rw [link_request, show opsOf c h (.request v args) = [] from rfl]
        exact hs j)
    rw [List.append_assoc] at this
    exact this

/-! ## Conservation -/

/-- A transport that works with the settings `s`: it never raises, keeps `P`, and what it writes has the same `g`. -/
def Works {γ : Type} (P : Err → Prop) (g : Bytes → γ) (s : Settings) : Prop :=
  ∀ (rnd : Nat → Nat → Nat) (e : Err) (data : Bytes), P e → ∃ e' d, Err.write rnd s e data = (e', some d) ∧ P e' ∧ g d = g data

/-- The numbers of the delayed writes are different. -/
structure LayerOk (P : Err → Prop) (l : Layer) : Prop where
  err : P l.err
  nodup : (l.pending.map (·.1)).Nodup
  lt : ∀ e ∈ l.pending, e.1 < l.next

def waits (ls : List Layer) : List Bytes := ls.flatMap fun y => y.pending.map (·.2)

theorem pass_perm {γ : Type} {P : Err → Prop} {g : Bytes → γ} {s : Settings} (hw : Works P g s) {rnd : Nat → Nat → Nat} {below : Bytes → List Layer × Option Bytes}
    {ls : List Layer} (hb : ∀ d, (∀ l ∈ (below d).1, LayerOk P l) ∧ (((below d).2.toList ++ waits (below d).1).map g).Perm ((d :: waits ls).map g))
    {l : Layer} (hl : LayerOk P l) (data : Bytes) : (∀ x ∈ (pass rnd s below l ls data).1, LayerOk P x) ∧
      (((pass rnd s below l ls data).2.toList ++ waits (pass rnd s below l ls data).1).map g).Perm ((data :: waits (l :: ls)).map g) := by
  obtain ⟨e', d, h1, h2, h3⟩ := hw rnd l.err data hl.err
  unfold pass
  rw [h1]
  dsimp only
  cases hx : below d with
  | mk ls' o =>
    obtain ⟨b1, b2⟩ := hb d
    rw [hx] at b1 b2
    dsimp only at b1 b2 ⊢
    refine ⟨fun x hm => ?_, ?_⟩
    · rcases List.mem_cons.mp hm with rfl | hm
      · exact ⟨h2, hl.nodup, hl.lt⟩
      · exact b1 x hm
    · simp only [waits, List.flatMap_cons, List.map_append, List.map_cons] at b2 ⊢
      rw [h3] at b2
      exact (List.perm_append_comm_assoc _ _ _).trans ((b2.append_left _).trans List.perm_middle)

theorem write_perm {γ : Type} {P : Err → Prop} {g : Bytes → γ} {s : Settings} (hw : Works P g s) (c : Cfg) (i : Nat) :
    ∀ (ls : List Layer) (data : Bytes), (∀ l ∈ ls, LayerOk P l) → (∀ l ∈ (write c s i ls data).1, LayerOk P l) ∧
      (((write c s i ls data).2.toList ++ waits (write c s i ls data).1).map g).Perm ((data :: waits ls).map g)
  | [], data, _ => ⟨by simp [write], List.Perm.refl _⟩
  | l :: ls, data, hl => by
    have h0 := hl l (List.mem_cons_self ..)
    unfold write
    split
    · refine ⟨fun x hm => ?_, ?_⟩
      · rcases List.mem_cons.mp hm with rfl | hm
        · refine ⟨h0.err, ?_, fun e he => ?_⟩
          · dsimp only
            rw [List.map_append, List.nodup_append]
            refine ⟨h0.nodup, by simp, fun a ha b hb => ?_⟩
            obtain ⟨y, hy, rfl⟩ := List.mem_map.mp ha
            have := h0.lt y hy
            simp at hb
            omega
          · dsimp only at he ⊢
            rcases List.mem_append.mp he with he | he
            · have := h0.lt e he; omega
            · simp at he; subst he; simp
        · exact hl x (List.mem_cons_of_mem _ hm)
      · simp only [waits, List.flatMap_cons, Option.toList_none, List.nil_append, List.map_append, List.map_cons, List.map_nil]
        rw [List.append_assoc]
        exact List.perm_middle
    · exact pass_perm hw (ls := ls) (fun d => write_perm hw c i ls d fun x hx => hl x (List.mem_cons_of_mem _ hx)) (l := { l with coins := l.coins + 1 }) ⟨h0.err, h0.nodup, h0.lt⟩ data

theorem filter_perm {e : Nat × Bytes} : ∀ {l : List (Nat × Bytes)}, (l.map (·.1)).Nodup → e ∈ l → l.Perm (e :: l.filter (fun x => decide (x.1 ≠ e.1)))
  | x :: l, hn, hm => by
    rw [List.map_cons] at hn
    have hn' := List.nodup_cons.mp hn
    by_cases hx : x.1 = e.1
    · have hxe : x = e := by
        rcases List.mem_cons.mp hm with h | h
        · exact h.symm
        · exact absurd (List.mem_map.mpr ⟨e, h, hx.symm⟩) hn'.1
      subst hxe
      rw [List.filter_cons_of_neg (by simp), List.filter_eq_self.mpr]
      intro y hy
      simp only [decide_eq_true_eq]
      exact fun h => hn'.1 (List.mem_map.mpr ⟨y, hy, h⟩)
    · rw [List.filter_cons_of_pos (by simpa using hx)]
      have hm' : e ∈ l := by
        rcases List.mem_cons.mp hm with h | h
        · rw [h] at hx; exact absurd rfl hx
        · exact h
      exact ((filter_perm hn'.2 hm').cons x).trans (List.Perm.swap ..)

theorem fire_perm {γ : Type} {P : Err → Prop} {g : Bytes → γ} {s : Settings} (hw : Works P g s) (c : Cfg) (i k n : Nat) :
    ∀ (ls : List Layer), (∀ l ∈ ls, LayerOk P l) → (∀ l ∈ (fire c s i k n ls).1, LayerOk P l) ∧
      (((fire c s i k n ls).2.toList ++ waits (fire c s i k n ls).1).map g).Perm ((waits ls).map g)
  | [], _ => ⟨by simp [fire], List.Perm.refl _⟩
  | l :: ls, hl => by
    have h0 := hl l (List.mem_cons_self ..)
    have ht : ∀ x ∈ ls, LayerOk P x := fun x hx => hl x (List.mem_cons_of_mem _ hx)
    unfold fire
    split
    · cases hf : l.pending.find? (fun e => decide (e.1 = n)) with
      | none => exact ⟨hl, List.Perm.refl _⟩
      | some e =>
        dsimp only
        have hm := List.mem_of_find?_eq_some hf
        have hen : e.1 = n := by simpa using List.find?_some hf
        subst hen
        obtain ⟨p1, p2⟩ := pass_perm hw (rnd := c.rnd i ls.length) (ls := ls) (fun d => write_perm hw c i ls d ht)
          (l := { l with pending := l.pending.filter (fun x => decide (x.1 ≠ e.1)) })
          ⟨h0.err, h0.nodup.sublist (List.filter_sublist.map _), fun x hx => h0.lt x (List.mem_filter.mp hx).1⟩ e.2
        refine ⟨p1, p2.trans ?_⟩
        have := ((filter_perm h0.nodup hm).map (·.2)).symm
        simp only [waits, List.flatMap_cons]
        rw [← List.cons_append]
        exact (this.append_right _).map g
    · have ih := fire_perm hw c i k n ls ht
      cases hx : fire c s i k n ls with
      | mk ls' o =>
        rw [hx] at ih
        dsimp only at ih ⊢
        refine ⟨fun x hm => ?_, ?_⟩
        · rcases List.mem_cons.mp hm with rfl | hm
          · exact h0
          · exact ih.1 x hm
        · simp only [waits, List.flatMap_cons, List.map_append] at ih ⊢
          exact (List.perm_append_comm_assoc _ _ _).trans (ih.2.append_left _)

/-- The history of one link: everything for it has been written or waits, up to `g`. -/
structure Kept {γ : Type} (c : Cfg) (P : Err → Prop) (g : Bytes → γ) (j : Nat) (h : List Ev) (s : St) : Prop where
  fresh : phase h j = .fresh → (s.link j).stack = [] ∧ (s.link j).out = [] ∧ packets c j h = []
  up : phase h j = .up → (∀ l ∈ (s.link j).stack, LayerOk P l) ∧ (((s.link j).out ++ waits (s.link j).stack).map g).Perm ((packets c j h).map g)

theorem packets_snoc (c : Cfg) (j : Nat) (h : List Ev) (e : Ev) : packets c j (h ++ [e]) = packets c j h ++ forLink c h j e := by
  unfold packets; rw [packetsFrom_append]; simp [packetsFrom]

theorem put_perm {γ : Type} {g : Bytes → γ} {l : Link} (hu : l.phase = .up) {w : List Layer × Option Bytes} {x : List γ}
    (h : ((w.2.toList ++ waits w.1).map g).Perm (x ++ (waits l.stack).map g)) :
    (((l.put w).out ++ waits (l.put w).stack).map g).Perm ((l.out ++ waits l.stack).map g ++ x) := by
  cases w with
  | mk st o =>
    cases o with
    | none =>
      simp only [Option.toList_none, List.nil_append] at h
      show ((l.out ++ waits st).map g).Perm _
      rw [List.map_append, List.map_append, List.append_assoc]
      exact (h.trans List.perm_append_comm).append_left _
    | some d =>
      show (((if l.phase = .up then l.out ++ [d] else l.out) ++ waits st).map g).Perm _
      rw [if_pos hu, List.append_assoc, List.map_append, List.map_append (l₂ := waits l.stack), List.append_assoc]
      exact (h.trans List.perm_append_comm).append_left _

theorem Kept.step {γ : Type} {c : Cfg} {P : Err → Prop} {g : Bytes → γ} {j : Nat} {h : List Ev} {s : St} (hr : Run c h s) (hk : Kept c P g j h s)
    (hw : phase h j = .up → Works P g s.set) (hm : phase h j = .up → ∀ rnd e, Err.make rnd s.set = some e → P e) (e : Ev) :
    Kept c P g j (h ++ [e]) (step c s e) := by
  cases e with
  | connect i =>
    have hp : packets c j (h ++ [.connect i]) = packets c j h := by rw [packets_snoc]; exact List.append_nil _
    constructor
    · intro hf
      rw [phase_snoc] at hf
      split at hf
      · cases hf
      · next hne =>
        rw [if_neg (by simp)] at hf
        rw [link_connect, hp, if_neg (fun x => hne ⟨by rw [x.1], hf⟩)]
        exact hk.fresh hf
    · intro hu
      rw [phase_snoc] at hu
      rw [link_connect, hp]
      split at hu
      · next hx =>
        obtain ⟨k1, k2, k3⟩ := hk.fresh hx.2
        have hij : j = i := by have := hx.1; simp only [Ev.connect.injEq] at this; exact this.symm
        rw [if_pos ⟨hij, by rw [hr.phase]; exact hx.2⟩, k1, k2, k3]
        exact ⟨by simp, List.Perm.refl _⟩
      · rw [if_neg (by simp)] at hu
        rw [if_neg (fun x => by rw [hr.phase, hu] at x; cases x.2)]
        exact hk.up hu
  | lost i =>
    have hp : packets c j (h ++ [.lost i]) = packets c j h := by rw [packets_snoc]; exact List.append_nil _
    constructor
    · intro hf
      rw [phase_snoc, if_neg (by simp)] at hf
      split at hf
      · cases hf
      · rw [link_lost, hp, if_neg (fun x => by rw [hr.phase, hf] at x; cases x.2)]
        exact hk.fresh hf
    · intro hu
      rw [phase_snoc, if_neg (by simp)] at hu
      split at hu
      · cases hu
      · next hne =>
        rw [link_lost, hp, if_neg (fun x => hne ⟨by rw [x.1], hu⟩)]
        exact hk.up hu
  | announce i a =>
    have hp : packets c j (h ++ [.announce i a]) = packets c j h := by rw [packets_snoc]; exact List.append_nil _
    have hph : phase (h ++ [.announce i a]) j = phase h j := by rw [phase_snoc, if_neg (by simp), if_neg (by simp)]
    constructor
    · intro hf
      rw [hph] at hf
      rw [link_announce, hp, if_neg (fun x => by rw [hr.phase, hf] at x; cases x.2.1)]
      exact hk.fresh hf
    · intro hu
      rw [hph] at hu
      rw [link_announce, hp]
      split
      · split
        · exact hk.up hu
        · next e he =>
          refine ⟨fun l hl => ?_, ?_⟩
          · rcases List.mem_cons.mp hl with rfl | hl
            · exact ⟨hm hu _ e he, by simp, by simp⟩
            · exact (hk.up hu).1 l hl
          · exact (hk.up hu).2
      · exact hk.up hu
  | send i d data =>
    have hph : phase (h ++ [.send i d data]) j = phase h j := by rw [phase_snoc, if_neg (by simp), if_neg (by simp)]
    rw [show Kept c P g j (h ++ [.send i d data]) = Kept c P g j (h ++ [.send i d data]) from rfl]
    constructor
    · intro hf
      rw [hph] at hf
      have hn : ¬ (phase h i = .up ∧ j ∈ receivers (ops c h) d) := fun x => by have := receivers_up x.2; rw [hf] at this; cases this
      rw [link_send hr, if_neg hn, packets_snoc, forLink, if_neg hn, List.append_nil]
      exact hk.fresh hf
    · intro hu
      rw [hph] at hu
      obtain ⟨k1, k2⟩ := hk.up hu
      rw [link_send hr, packets_snoc, forLink]
      by_cases hn : phase h i = .up ∧ j ∈ receivers (ops c h) d
      · rw [if_pos hn, if_pos hn]
        obtain ⟨w1, w2⟩ := write_perm (hw hu) c j (s.link j).stack data k1
        refine ⟨by rw [put_stack]; exact w1, ?_⟩
        refine (put_perm (by rw [hr.phase]; exact hu) (x := [g data]) w2).trans ?_
        rw [List.map_append (l₁ := packets c j h)]
        exact k2.append_right _
      · rw [if_neg hn, if_neg hn, List.append_nil]
        exact ⟨k1, k2⟩
  | timer i k n =>
    have hp : packets c j (h ++ [.timer i k n]) = packets c j h := by rw [packets_snoc]; exact List.append_nil _
    have hph : phase (h ++ [.timer i k n]) j = phase h j := by rw [phase_snoc, if_neg (by simp), if_neg (by simp)]
    constructor
    · intro hf
      rw [hph] at hf
      obtain ⟨k1, k2, k3⟩ := hk.fresh hf
      rw [link_timer, hp]
      split
      · rw [k1]
        exact ⟨rfl, k2, k3⟩
      · exact ⟨k1, k2, k3⟩
    · intro hu
      rw [hph] at hu
      obtain ⟨k1, k2⟩ := hk.up hu
      rw [link_timer, hp]
      split
      · obtain ⟨w1, w2⟩ := fire_perm (hw hu) c j k n (s.link j).stack k1
        refine ⟨by rw [put_stack]; exact w1, ?_⟩
        have := put_perm (by rw [hr.phase]; exact hu) (x := []) w2
        rw [List.append_nil] at this
        exact this.trans k2
      · exact ⟨k1, k2⟩
  | request v args =>
    have hp : packets c j (h ++ [.request v args]) = packets c j h := by rw [packets_snoc]; exact List.append_nil _
    have hph : phase (h ++ [.request v args]) j = phase h j := by rw [phase_snoc, if_neg (by simp), if_neg (by simp)]
    constructor
    · intro hf; rw [hph] at hf; rw [link_request, hp]; exact hk.fresh hf
    · intro hu; rw [hph] at hu; rw [link_request, hp]; exact hk.up hu

theorem Kept.exec {γ : Type} {c : Cfg} {P : Err → Prop} {g : Bytes → γ} {j : Nat} : ∀ (es h : List Ev) (s : St), Run c h s → Kept c P g j h s →
    (∀ p q, es = p ++ q → phase (h ++ p) j = .up → Works P g (SwitchApi.exec c s p).set ∧ ∀ rnd e, Err.make rnd (SwitchApi.exec c s p).set = some e → P e) →
    Kept c P g j (h ++ es) (SwitchApi.exec c s es)
  | [], h, s, _, hk, _ => by rw [List.append_nil]; exact hk
  | e :: es, h, s, hr, hk, hw => by
    have h0 := hw [] (e :: es) rfl
    rw [List.append_nil] at h0
    have := Kept.exec es (h ++ [e]) (SwitchApi.step c s e) (hr.step e) (hk.step hr (fun x => (h0 x).1) (fun x => (h0 x).2) e) (fun p q hpq hu => by
      refine hw (e :: p) q (by rw [hpq]; rfl) ?_
      rw [List.append_assoc] at hu; exact hu)
    rw [List.append_assoc] at this
    exact this

theorem kept {γ : Type} {c : Cfg} {P : Err → Prop} {g : Bytes → γ} {j : Nat} (h : List Ev)
    (hw : ∀ p q, h = p ++ q → phase p j = .up → Works P g (SwitchApi.exec c .init p).set ∧ ∀ rnd e, Err.make rnd (SwitchApi.exec c .init p).set = some e → P e) :
    Kept c P g j h (SwitchApi.exec c .init h) := by
  have := Kept.exec h [] .init (Run.init c) (⟨fun _ => ⟨rfl, rfl, rfl⟩, fun hu => by cases hu⟩ : Kept c P g j [] .init) (fun p q hpq hu => hw p q hpq hu)
  exact this

/-! ## The transports -/

/-- No byte is to be inverted while no errors are asked for. -/
def Calm (e : Err) : Prop := e.cur.1 ≤ 0 → e.bad = []

theorem reset_calm (rnd : Nat → Nat → Nat) (s : Settings) (e : Err) : Calm (Err.reset rnd s e).1 := by
  unfold Err.reset
  split
  · exact fun _ => rfl
  · intro h
    have h0 : s.errors.toNat = 0 := Int.toNat_eq_zero.mpr h
    show Unrel.sortList (Unrel.pick rnd s.horizon.toNat s.errors.toNat e.draws []) = []
    rw [h0]; rfl

theorem make_calm {rnd : Nat → Nat → Nat} {s : Settings} {e : Err} (h : Err.make rnd s = some e) : Calm e := by
  unfold Err.make at h
  have hc := reset_calm rnd s ⟨0, [], (0, 0), 0⟩
  split at h
  · cases h
  · next hx => cases h; rw [hx] at hc; exact hc

theorem reset_ok {rnd : Nat → Nat → Nat} {s : Settings} {e : Err} (hs : s.errors ≤ 0 ∨ 0 ≤ s.horizon) : (Err.reset rnd s e).2 = false ∧ (Err.reset rnd s e).1.cur = (s.errors, s.horizon) ∧
    (Err.reset rnd s e).1.byteIndex = e.byteIndex := by
  unfold Err.reset
  rw [if_neg (by omega)]
  exact ⟨rfl, rfl, rfl⟩

theorem body_calm {rnd : Nat → Nat → Nat} {s : Settings} (hs : s.errors ≤ 0) {e : Err} (hb : e.bad = []) (hc : e.cur = (s.errors, s.horizon)) (data : Bytes) :
    ∃ e', Err.body rnd s e data = (e', some data) ∧ Calm e' := by
  unfold Err.body
  rw [hb]
  show ∃ e', Err.finish rnd s { e with bad := [] } data = _ ∧ _
  unfold Err.finish
  split
  · obtain ⟨h1, h2, _⟩ := reset_ok (rnd := rnd) (e := { e with bad := [], byteIndex := 0 }) (.inl hs)
    have h3 := reset_calm rnd s { e with bad := [], byteIndex := 0 }
    cases hx : Err.reset rnd s { e with bad := [], byteIndex := 0 } with
    | mk e' b =>
      rw [hx] at h1 h3
      dsimp only at h1 h3
      subst h1
      exact ⟨e', rfl, h3⟩
  · exact ⟨_, rfl, fun _ => rfl⟩

theorem write_calm {rnd : Nat → Nat → Nat} {s : Settings} (hs : s.errors ≤ 0) {e : Err} (he : Calm e) (data : Bytes) :
    ∃ e', Err.write rnd s e data = (e', some data) ∧ Calm e' := by
  unfold Err.write
  by_cases hc : e.cur ≠ (s.errors, s.horizon)
  · rw [if_pos hc]
    obtain ⟨h1, h2, _⟩ := reset_ok (rnd := rnd) (e := e) (.inl hs)
    have h3 := reset_calm rnd s e
    cases hx : Err.reset rnd s e with
    | mk e' b =>
      rw [hx] at h1 h2 h3
      dsimp only at h1 h2 h3
      subst h1
      exact body_calm hs (h3 (by rw [h2]; exact hs)) h2 data
  · rw [if_neg hc]
    have hc' : e.cur = (s.errors, s.horizon) := Decidable.of_not_not hc
    exact body_calm hs (he (by rw [hc']; exact hs)) hc' data

theorem works_calm {s : Settings} (hs : s.errors ≤ 0) : Works Calm (fun b => b) s := by
  intro rnd e data he
  obtain ⟨e', h1, h2⟩ := write_calm (rnd := rnd) hs he data
  exact ⟨e', data, h1, h2, rfl⟩

/-- The bytes that will be inverted are still to come, and were drawn for the error rate `r`. -/
structure Steady (r : Int × Int) (e : Err) : Prop where
  cur : e.cur = r
  inc : Unrel.Inc e.bad
  ahead : ∀ p ∈ e.bad, e.byteIndex ≤ p

theorem reset_steady {rnd : Nat → Nat → Nat} {s : Settings} (hs : s.errors ≤ 0 ∨ 0 ≤ s.horizon) {e : Err} (h0 : e.byteIndex = 0) :
    ∃ e', Err.reset rnd s e = (e', false) ∧ Steady (s.errors, s.horizon) e' := by
  unfold Err.reset
  rw [if_neg (by omega)]
  refine ⟨_, rfl, rfl, ?_, fun p _ => ?_⟩
  · exact Unrel.inc_sortList (Unrel.pick_spec rnd s.horizon.toNat s.errors.toNat e.draws [] List.nodup_nil).1
  · show e.byteIndex ≤ p
    omega

theorem make_steady {rnd : Nat → Nat → Nat} {s : Settings} {e : Err} (h : Err.make rnd s = some e) : Steady (s.errors, s.horizon) e := by
  unfold Err.make at h
  by_cases hs : s.errors ≤ 0 ∨ 0 ≤ s.horizon
  · obtain ⟨e', h1, h2⟩ := reset_steady (rnd := rnd) (e := ⟨0, [], (0, 0), 0⟩) hs rfl
    rw [h1] at h
    cases h; exact h2
  · unfold Err.reset at h
    rw [if_pos (by omega)] at h
    cases h

theorem works_steady {s : Settings} (hs : s.errors ≤ 0 ∨ 0 ≤ s.horizon) : Works (Steady (s.errors, s.horizon)) List.length s := by
  intro rnd e data he
  unfold Err.write
  rw [if_neg (by simp [he.cur])]
  unfold Err.body
  rw [Unrel.corrupt_spec e.byteIndex data.length e.bad data rfl he.inc he.ahead]
  dsimp only
  unfold Err.finish
  split
  · obtain ⟨e', h1, h2⟩ := reset_steady (rnd := rnd) (s := s) (e := ⟨0, e.bad.filter (fun p => decide (data.length + e.byteIndex ≤ p)), e.cur, e.draws⟩) hs rfl
    refine ⟨e', _, by dsimp only; rw [h1], h2, Unrel.flip_length ..⟩
  · refine ⟨_, _, rfl, ⟨he.cur, he.inc.filter _, fun p hp => ?_⟩, Unrel.flip_length ..⟩
    have := (List.mem_filter.mp hp).2
    simp only [decide_eq_true_eq] at this
    show e.byteIndex + (Unrel.flip _ _ data).length ≤ p
    rw [Unrel.flip_length]; omega

end Verif.SwitchApi
