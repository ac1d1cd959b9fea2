import Verif.Spec.SpmpHidden
import Verif.Props.Spmp
/-! # C44: management requests on a connection of another protocol, with what the two protocols do -/
namespace Verif.Spmp

/-- The packets are dealt with one after the other. -/
def hideAll {σ : Type} (c : Cfg σ) (main : Main σ) (up : Bool) : σ → List Val → σ × List Act × Bool
  | w, [] => (w, [], false)
  | w, v :: vs => match hide c main up w v with
    | (w', acts, true) => (w', acts, true)
    | (w', acts, false) => ((hideAll c main up w' vs).1, acts ++ (hideAll c main up w' vs).2.1, (hideAll c main up w' vs).2.2)

theorem hideLoop_eq {σ : Type} (c : Cfg σ) (main : Main σ) (base : Cls) : ∀ (n : Nat) (s : Hidden σ) (vs : List Val),
    (nextLoop c.env c.depth base n s.des).1 = vs.map .packet → (hideAll c main s.up s.w vs).2.2 = false →
    hideLoop c main base n s = (⟨(nextLoop c.env c.depth base n s.des).2.1, s.up, (hideAll c main s.up s.w vs).1⟩, (hideAll c main s.up s.w vs).2.1)
  | 0, s, vs, he, _ => by
    cases vs with
    | nil => rfl
    | cons p vs => simp [nextLoop] at he
  | n + 1, s, vs, he, hr => by
    unfold hideLoop
    unfold nextLoop at he ⊢
    cases hi : s.des.iter c.env c.depth base with
    | mk o d =>
      rw [hi] at he
      cases o with
      | none =>
        cases vs with
        | nil => rfl
        | cons p vs => simp at he
      | some e =>
        dsimp only at he ⊢
        cases vs with
        | nil => simp at he
        | cons v vs =>
          simp only [List.map_cons, List.cons.injEq] at he
          obtain ⟨rfl, he⟩ := he
          dsimp only
          unfold hideAll at hr ⊢
          cases hp : hide c main s.up s.w v with
          | mk w' r =>
            cases r with
            | mk acts raised =>
              rw [hp] at hr
              cases raised with
              | true => simp at hr
              | false =>
                dsimp only at hr ⊢
                have := hideLoop_eq c main base n { s with des := d, w := w' } vs he hr
                rw [this]

theorem hideAll_append {σ : Type} (c : Cfg σ) (main : Main σ) (up : Bool) : ∀ (ps qs : List Val) (w : σ), (hideAll c main up w (ps ++ qs)).2.2 = false →
    (hideAll c main up w ps).2.2 = false ∧
    hideAll c main up w (ps ++ qs) = ((hideAll c main up (hideAll c main up w ps).1 qs).1,
      (hideAll c main up w ps).2.1 ++ (hideAll c main up (hideAll c main up w ps).1 qs).2.1, (hideAll c main up (hideAll c main up w ps).1 qs).2.2)
  | [], qs, w, _ => ⟨rfl, rfl⟩
  | p :: ps, qs, w, h => by
    rw [List.cons_append] at h ⊢
    cases hp : hide c main up w p with
    | mk w' r =>
      cases r with
      | mk acts raised =>
        cases raised with
        | true => rw [hideAll, hp] at h; simp at h
        | false =>
          have e : ∀ l, hideAll c main up w (p :: l) = ((hideAll c main up w' l).1, acts ++ (hideAll c main up w' l).2.1, (hideAll c main up w' l).2.2) := by
            intro l; rw [hideAll, hp]
          rw [e] at h
          obtain ⟨h1, h2⟩ := hideAll_append c main up ps qs w' h
          rw [e, e, h2]
          exact ⟨h1, by simp⟩

theorem hideRecv_eq {σ : Type} (c : Cfg σ) (main : Main σ) (base : Cls) : ∀ (bs : List Bytes) (s : Hidden σ) (vs : List Val),
    (runOps c.env c.depth base s.des (opsOf bs)).1 = vs.map .packet → (hideAll c main s.up s.w vs).2.2 = false →
    s.recv c main base bs = (⟨(runOps c.env c.depth base s.des (opsOf bs)).2, s.up, (hideAll c main s.up s.w vs).1⟩, (hideAll c main s.up s.w vs).2.1)
  | [], s, vs, he, _ => by
    cases vs with
    | nil => rfl
    | cons p vs => simp [opsOf, runOps] at he
  | b :: bs, s, vs, he, hr => by
    simp only [opsOf, List.flatMap_cons, List.cons_append, List.nil_append, runOps] at he ⊢
    obtain ⟨ps1, ps2, rfl, e1, e2⟩ := List.append_eq_map_iff.mp he
    obtain ⟨r1, r2⟩ := hideAll_append c main s.up ps1 ps2 s.w hr
    have hd : s.data c main base b = (⟨(DState.next c.env c.depth base (s.des.update b)).2.1, s.up, (hideAll c main s.up s.w ps1).1⟩, (hideAll c main s.up s.w ps1).2.1) :=
      hideLoop_eq c main base _ { s with des := s.des.update b } ps1 e1.symm r1
    have hrec := hideRecv_eq c main base bs ⟨(DState.next c.env c.depth base (s.des.update b)).2.1, s.up, (hideAll c main s.up s.w ps1).1⟩ ps2 e2.symm
      (by rw [r2] at hr; exact hr)
    simp only [Hidden.recv]
    rw [hd]
    dsimp only
    rw [hrec, r2]
    rfl

/-- Any chunks of the bytes of a list of packets, read as `data_received` does. -/
theorem chunks_vals {env : Env} (hr : env.Registered) {depth : Nat} {base : Cls} (ps : List Val)
    (hps : ∀ p ∈ ps, Sendable env base p ∧ Decodes env (depth + 1) base (ser env p) p)
    (bs : List Bytes) (hb : bs.flatten = ps.flatMap (ser env)) :
    (runOps env (depth + 1) base (.init env (depth + 1) base) (opsOf bs)).1 = ps.map .packet := by
  rcases List.eq_nil_or_concat bs with rfl | ⟨bs', b, rfl⟩
  · cases ps with
    | nil => rfl
    | cons p ps =>
      exfalso
      obtain ⟨c, fs, bb, e1, e2, e3, e4⟩ := sendable_cases (hps p (by simp)).1
      obtain ⟨d, tags, n, h, body, hdr, hcls, ht, hn, hh, hbd, hhdr, rfl⟩ := encPacket_inv e4
      simp only [List.flatMap_cons, e3, List.flatten_nil] at hb
      have hlen := congrArg List.length hb
      have := packU_len hh
      simp only [List.length_append, List.length_nil] at hlen
      omega
  · rw [List.concat_eq_append] at hb ⊢
    rw [opsOf_snoc]
    exact C02_any_chunking hr (depth := depth) ps hps (opsOf bs' ++ [.update b]) (by
      have h1 := received_opsOf (bs' ++ [b])
      rw [hb, opsOf_snoc] at h1
      have h2 : ∀ (o : List DOp), received (o ++ [.next]) = received o := by
        intro o; induction o with
        | nil => rfl
        | cons x o ih => cases x <;> simp [received, ih]
      rw [h2] at h1
      exact h1)

theorem handled_hideAll {σ : Type} {c : Cfg σ} {main : Main σ} {w w' : σ} {is : List Item} {acts : List Act} {rs}
    (h : Handled c main w is w' acts rs) (ha : ∀ q, .query q ∈ is → c.authorized q.packet = true)
    (ho : ∀ v, .other v ∈ is → ofVal c.cls v = none ∧ ∃ b, serialize c.env 0 v = .ok b) :
    hideAll c main true w (is.map (·.val c.cls)) = (w', acts, false) := by
  induction h with
  | nil w => rfl
  | @query w w1 w2 q qs acts b acts' result error rs h1 h2 h3 ih =>
    have hp : hide c main true w (q.packet.val c.cls) = (w1, acts ++ [.write b], false) := by
      unfold hide
      rw [ofVal_val]
      dsimp only
      unfold process
      rw [ha q (by simp)]
      simp only [Bool.not_true, Bool.false_eq_true, if_false]
      rw [show q.packet.args = some q.args from rfl]
      dsimp only
      rw [outcome_execute h1]
      dsimp only
      rw [h2]
    rw [List.map_cons, Item.val, hideAll, hp]
    dsimp only
    rw [ih (fun x hx => ha x (by simp [hx])) (fun x hx => ho x (by simp [hx]))]
    simp
  | @other w w1 w2 v is acts acts' rs h1 h2 ih =>
    have hp : hide c main true w v = (w1, acts, false) := by
      obtain ⟨e1, b, e2⟩ := ho v (by simp)
      unfold hide
      rw [e1]
      dsimp only
      rw [e2]
      dsimp only
      rw [← ser_eq e2]
      exact h1
    rw [List.map_cons, Item.val, hideAll, hp]
    dsimp only
    rw [ih (fun x hx => ha x (by simp [hx])) (fun x hx => ho x (by simp [hx]))]

theorem plain_base {env : Env} (hr : env.Registered) {depth : Nat} {cls base : Cls} (hb : env.isSub cls base = true) {p : Packet} (h : Plain env cls p) :
    Sendable env base (p.val cls) ∧ Decodes env (depth + 1) base (ser env (p.val cls)) (p.val cls) := by
  have h1 : Sendable env base (p.val cls) := by
    refine ⟨?_, h.1.2⟩
    have := h.1.1
    rw [Packet.val, Verif.accepts] at this ⊢
    rw [Bool.and_eq_true] at this
    rw [hb, this.2]
    rfl
  have hstr : ∀ s : Str, flatV (.str s) = true := fun _ => by simp [flatV]
  refine ⟨h1, C01_roundtrip_flat_partial hr h1 ?_ (by have := h.2; simpa [Packet.val, asciiV] using this)⟩
  refine flat_fld (fun _ => by simp [flatV]) _ (flat_fld hstr _ (flat_fld (fun l => ?_) _ (flat_fld hstr _ (flat_fld hstr _ (flat_fld hstr _ (flat_fld (fun l => ?_) _ rfl))))))
  · simpa [flatV] using flat_list (f := Val.str) hstr l
  · simpa [flatV] using flat_list (f := Val.buf) (fun _ => by simp [flatV]) l

/-- C44 on a connection of another protocol, in any chunks: requests and other packets are dealt with in the order in which they were sent, each once; each request gets
one response. (Partial as `C44_each_once_partial`: the responses must fit the format; and the main protocol must not raise.) `base` is `PacketType`. -/
theorem C44_hidden_once_partial {σ : Type} (c : Cfg σ) (main : Main σ) (hr : c.env.Registered) {d : Nat} (hd : c.depth = d + 1) {base : Cls}
    (hbase : c.env.isSub c.cls base = true) (w : σ) (is : List Item)
    (hq : ∀ q, .query q ∈ is → c.authorized q.packet = true ∧ Plain c.env c.cls q.packet)
    (ho : ∀ v, .other v ∈ is → ofVal c.cls v = none ∧ Sendable c.env base v ∧ Decodes c.env c.depth base (ser c.env v) v)
    {w' : σ} {acts : List Act} {rs} (hs : Handled c main w is w' acts rs)
    (bs : List Bytes) (hb : bs.flatten = is.flatMap fun it => ser c.env (it.val c.cls)) :
    ((Hidden.init c base w).recv c main base bs).1.w = w' ∧ ((Hidden.init c base w).recv c main base bs).2 = acts := by
  have hev := chunks_vals hr (depth := d) (base := base) (is.map (Item.val c.cls)) (by
    intro p hp
    obtain ⟨it, hit, rfl⟩ := List.mem_map.mp hp
    cases it with
    | query q => exact plain_base hr hbase (hq q hit).2
    | other v => rw [← hd]; exact (ho v hit).2) bs (by rw [hb, List.flatMap_map])
  rw [← hd] at hev
  have hall := handled_hideAll hs (fun q hm => (hq q hm).1) (fun v hv => ⟨(ho v hv).1, (ho v hv).2.1.2⟩)
  have := hideRecv_eq c main base bs (Hidden.init c base w) (is.map (Item.val c.cls)) hev (by
    rw [show (Hidden.init c base w).up = true from rfl, show (Hidden.init c base w).w = w from rfl]
    exact congrArg (·.2.2) hall)
  rw [this, show (Hidden.init c base w).up = true from rfl, show (Hidden.init c base w).w = w from rfl]
  exact ⟨congrArg (·.1) hall, congrArg (·.2.1) hall⟩

end Verif.Spmp
