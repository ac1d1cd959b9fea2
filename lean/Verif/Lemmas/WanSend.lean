import Verif.Lemmas.WanRun
/-! # WAN with devices: what a packet reaches -/
namespace Verif.WanNet
open Verif.Switch

/-- Another output. -/
def Net.io (n : Net) (o : List (Nat × SPkt)) (d : Nat) : Net := { n with out := o, draws := d }

theorem io_self (n : Net) : n.io n.out n.draws = n := rfl

/-! ## Looking up -/

theorem lookup_any {n : Net} {v : View} (h : DevInv n v) (p : Int) {dst : Str} {ls : List Nat} (hl : (n.lan p).getOutboundLinks dst = .ok ls) :
    ls.Nodup ∧ ∀ l ∈ ls, ∃ x, tab n.lans p l = some x := by
  have hi : Switch.Inv (n.lan p) := h.good.lan p
  unfold getOutboundLinks at hl
  split at hl
  · split at hl
    · cases hl
    · cases hl
      refine ⟨outLoop_nodup _ _ _ _ List.nodup_nil, fun l hm => ?_⟩
      rw [outLoop_mem] at hm
      rcases hm with hm | ⟨b, hb, m, hm, hlm⟩
      · cases hm
      · exact ⟨b.str, (hi.agree _ _).mpr ⟨m, hm, hlm⟩⟩
  · cases hl
    exact ⟨List.nodup_nil, fun l hm => nomatch hm⟩

theorem denotes_block {dst : Str} {z a b k : Nat} (hd : Denotes dst z a b k) :
    Addr.blockFromString dst = .ok (addr z a b k) ∧ Addr.isValidBlockString dst = true := by
  obtain ⟨s1, s2, s3, s4, rfl, d1, d2, d3, d4⟩ := hd
  have hf : Addr.blockFromString (dotted s1 s2 s3 s4) = .ok (addr z a b k) :=
    (C25_block_accepts_iff _ _).mpr ⟨s1, s2, s3, s4, rfl, .inr d1, .inr d2, .inr d3, .inr d4⟩
  refine ⟨hf, ?_⟩
  unfold Addr.blockFromString at hf
  unfold Addr.isValidBlockString
  split at hf
  · cases hf
  · next hp => rw [hp]; rfl

theorem lookup {n : Net} {v : View} (h : DevInv n v) (p : Int) {dst : Str} {z a b k : Nat} (hd : Denotes dst z a b k) :
    ∃ ls, (n.lan p).getOutboundLinks dst = .ok ls ∧ ls.Nodup ∧ ∀ l, l ∈ ls ↔ ∃ x ∈ enclosing z a b k, tab n.lans p l = some x := by
  have hi : Switch.Inv (n.lan p) := h.good.lan p
  obtain ⟨hf, hv⟩ := denotes_block hd
  unfold getOutboundLinks
  rw [if_pos hv, hf]
  refine ⟨_, rfl, outLoop_nodup _ _ _ _ List.nodup_nil, fun l => ?_⟩
  rw [outLoop_mem, ← enclosing_str]
  simp only [List.not_mem_nil, false_or, List.mem_map]
  constructor
  · rintro ⟨b, hb, m, hm, hl⟩
    exact ⟨b.str, ⟨b, hb, rfl⟩, (hi.agree _ _).mpr ⟨m, hm, hl⟩⟩
  · rintro ⟨_, ⟨b, hb, rfl⟩, hr⟩
    obtain ⟨m, hm, hl⟩ := (hi.agree _ _).mp hr
    exact ⟨b, hb, m, hm, hl⟩

theorem dec_no (n : Nat) : '.' ∉ dec n := natStr_no n '.' (.inl rfl)
theorem star_no : '.' ∉ (['*'] : Str) := by decide
theorem zero_no : '.' ∉ (['0'] : Str) := by decide
theorem star_ne : (['*'] : Str) ≠ ['0'] := by decide

/-- The address of a hub is not among the addresses of devices. -/
theorem hub_enclosing {q : Int} {z a b k : Nat} (h : hub q ∈ enclosing z a b k) : q = z ∧ a = 0 ∧ b = 0 ∧ k = 0 := by
  have hz : dec 0 = ['0'] := by decide +kernel
  have inj : ∀ {x1 x2 x3 x4 : Str}, hub q = dotted x1 x2 x3 x4 → '.' ∉ x1 → '.' ∉ x2 → '.' ∉ x3 → '.' ∉ x4 →
      x1 = intStr q ∧ x2 = ['0'] ∧ x3 = ['0'] ∧ x4 = ['0'] := by
    intro x1 x2 x3 x4 he h1 h2 h3 h4
    have hs := congrArg (splitOn '.') he
    rw [hub_dotted, Addr.split_dotted (intStr_no q '.' (.inl rfl)) zero_no zero_no zero_no, Addr.split_dotted h1 h2 h3 h4] at hs
    simp only [List.cons.injEq, and_true] at hs
    exact ⟨hs.1.symm, hs.2.1.symm, hs.2.2.1.symm, hs.2.2.2.symm⟩
  unfold enclosing at h
  simp only [List.mem_cons, List.not_mem_nil, or_false] at h
  rcases h with h | h | h | h | h
  · obtain ⟨e1, e2, e3, e4⟩ := inj h (dec_no z) (dec_no a) (dec_no b) (dec_no k)
    refine ⟨?_, natStr_inj (e2.trans hz.symm), natStr_inj (e3.trans hz.symm), natStr_inj (e4.trans hz.symm)⟩
    have h1 := pyInt_intStr q
    rw [← e1, pyInt_natStr] at h1
    exact (Option.some.inj h1).symm
  · exact absurd (inj h (dec_no z) (dec_no a) (dec_no b) star_no).2.2.2 star_ne
  · exact absurd (inj h (dec_no z) (dec_no a) star_no star_no).2.2.2 star_ne
  · exact absurd (inj h (dec_no z) star_no star_no star_no).2.2.2 star_ne
  · exact absurd (inj h star_no star_no star_no star_no).2.2.2 star_ne

/-- A device among the links found. -/
theorem found_dev {n : Net} {v : View} (h : DevInv n v) {p : Int} {z a b k : Nat} {m : Nat} :
    (∃ x ∈ enclosing z a b k, tab n.lans p (dev m) = some x) ↔ Hears v p z a b k m := by
  unfold Hears
  constructor
  · rintro ⟨x, hx, ht⟩
    rw [h.tabs] at ht
    split at ht
    · next hp => exact ⟨hp, x, hx, ht⟩
    · cases ht
  · rintro ⟨hp, x, hx, ht⟩
    exact ⟨x, hx, by rw [h.tabs, if_pos hp, ht]⟩

theorem lookup_plain {n : Net} {v : View} (h : Inv n v) (p : Int) {dst : Str} {z a b k : Nat} (hd : Denotes dst z a b k)
    (h0 : ¬ (a = 0 ∧ b = 0 ∧ k = 0)) :
    ∃ ls, (n.lan p).getOutboundLinks dst = .ok ls ∧ ls.Nodup ∧ ∀ l, l ∈ ls ↔ ∃ m, l = dev m ∧ Hears v p z a b k m := by
  obtain ⟨ls, h1, h2, h3⟩ := lookup h.d p hd
  refine ⟨ls, h1, h2, fun l => ?_⟩
  rw [h3]
  constructor
  · rintro ⟨x, hx, ht⟩
    rcases dev_or_lnk l with ⟨m, rfl⟩ | ⟨j, rfl⟩
    · exact ⟨m, rfl, (found_dev h.d).mp ⟨x, hx, ht⟩⟩
    · obtain ⟨_, q, _, rfl, _⟩ := h.l.tabs p j x ht
      exact absurd (hub_enclosing hx).2 h0
  · rintro ⟨m, rfl, hm⟩
    exact (found_dev h.d).mpr hm

theorem hub_denotes (q : Nat) : Denotes (hub q) q 0 0 0 := by
  have hz : DenotesNum ['0'] (.num (0 : Nat)) := ⟨0, rfl, (pyInt_iff _ _).mp (by decide), by decide⟩
  exact ⟨_, _, _, _, hub_dotted q, ⟨q, rfl, (pyInt_iff _ _).mp (pyInt_intStr q), intStr_no _ '.' (.inl rfl)⟩, hz, hz, hz⟩

/-! ## Writing -/

theorem write_dev (c : Cfg) (f : Nat) {n : Net} {v : View} (h : Inv n v) {m : Nat} (hm : dev m ∈ n.up) (o : List (Nat × SPkt)) (d : Nat) (p : SPkt) :
    Net.write c f (n.io o d) (dev m) p = some (n.io (o ++ [(dev m, p)]) d) := by
  cases f
  all_goals
    unfold Net.write
    rw [if_pos (show dev m ∈ (n.io o d).up from hm), show (n.io o d).peers (dev m) = none from h.l.dev m]
    rfl

theorem hears_up {n : Net} {v : View} (h : Inv n v) {p : Int} {z a b k m : Nat} (hm : Hears v p z a b k m) : dev m ∈ n.up :=
  (h.d.up m).mpr (h.d.place m p hm.1).2

theorem writeEach_devs (c : Cfg) (f : Nat) {n : Net} {v : View} (h : Inv n v) (p : SPkt) : ∀ (ls : List Nat) (o : List (Nat × SPkt)) (d : Nat),
    (∀ l ∈ ls, ∃ m, l = dev m ∧ dev m ∈ n.up) →
    Net.writeEach (fun n l => Net.write c f n l p) (n.io o d) ls = n.io (o ++ ls.map (·, p)) d := by
  intro ls
  induction ls with
  | nil => intro o d _; simp [Net.writeEach]
  | cons l ls ih =>
    intro o d hl
    obtain ⟨m, rfl, hm⟩ := hl l (List.mem_cons_self ..)
    unfold Net.writeEach
    rw [write_dev c f h hm]
    dsimp only
    rw [ih _ _ (fun l h' => hl l (List.mem_cons_of_mem _ h'))]
    simp

/-- A packet on a direct link. -/
theorem write_lnk (c : Cfg) (f : Nat) {n : Net} {v : View} (h : Inv n v) {dst : Str} {z a b k : Nat} (hd : Denotes dst z a b k)
    (h0 : ¬ (a = 0 ∧ b = 0 ∧ k = 0)) {p q : Int} {j : Nat} (ht : tab n.lans p (lnk j) = some (hub q)) (o : List (Nat × SPkt)) (d : Nat) (x : Nat) :
    ∃ o' d', Net.write c f (n.io o d) (lnk j) (.wire dst x) = some (n.io (o ++ o') d') ∧
      (∀ e ∈ o', ∃ m, e = (dev m, .wire dst x) ∧ Hears v q z a b k m) ∧
      (1 ≤ f → (∀ i, c.loss i = false) → ∀ m, Hears v q z a b k m → (dev m, .wire dst x) ∈ o') := by
  obtain ⟨hu, q', k', hq, hk, hk'⟩ := h.l.tabs p j _ ht
  have hq := hub_inj hq
  subst hq
  have e1 : (if c.loss d then (some (n.io o (d + 1)) : Option Net) else match f with
      | 0 => some (n.io o (d + 1))
      | f + 1 => some (Net.receive (Net.write c f) (n.io o (d + 1)) k' (.wire dst x))) = Net.write c f (n.io o d) (lnk j) (.wire dst x) := by
    cases f
    all_goals
      unfold Net.write
      rw [if_pos (show lnk j ∈ (n.io o d).up from hu), show (n.io o d).peers (lnk j) = some (p, k') from hk]
      rfl
  rw [← e1]
  split
  · next hl =>
    exact ⟨[], d + 1, by simp, by simp, fun _ hc => by rw [hc] at hl; cases hl⟩
  · cases f with
    | zero => exact ⟨[], d + 1, by simp, by simp, fun hf => by omega⟩
    | succ f =>
      dsimp only
      obtain ⟨ls, l1, l2, l3⟩ := lookup_plain h q hd h0
      have e2 : Net.receive (Net.write c f) (n.io o (d + 1)) k' (.wire dst x) =
          Net.writeEach (fun n l => Net.write c f n l (.wire dst x)) (n.io o (d + 1)) ls := by
        unfold Net.receive
        rw [show (n.io o (d + 1)).peers k' = some (q, lnk j) from hk']
        dsimp only
        rw [show (n.io o (d + 1)).lan q = n.lan q from rfl, l1]
      rw [e2, writeEach_devs c f h _ ls _ _ (fun l hl => by
        obtain ⟨m, rfl, hm⟩ := (l3 l).mp hl
        exact ⟨m, rfl, hears_up h hm⟩)]
      refine ⟨ls.map (·, .wire dst x), d + 1, rfl, ?_, ?_⟩
      · intro e he
        obtain ⟨l, hl, rfl⟩ := List.mem_map.mp he
        obtain ⟨m, rfl, hm⟩ := (l3 l).mp hl
        exact ⟨m, rfl, hm⟩
      · intro _ _ m hm
        exact List.mem_map.mpr ⟨dev m, (l3 _).mpr ⟨m, rfl, hm⟩, rfl⟩

/-- What is written to a device. -/
def wrote (o : List (Nat × SPkt)) (m : Nat) : List (Nat × SPkt) := o.filter fun e => decide (e.1 = dev m)

theorem wrote_append (o1 o2 : List (Nat × SPkt)) (m : Nat) : wrote (o1 ++ o2) m = wrote o1 m ++ wrote o2 m := List.filter_append ..

/-- The links found at `p`, and what a device gets. -/
theorem writeEach_spec (c : Cfg) {n : Net} {v : View} (h : Inv n v) {dst : Str} {z a b k : Nat} (hd : Denotes dst z a b k)
    (h0 : ¬ (a = 0 ∧ b = 0 ∧ k = 0)) (p : Int) (x : Nat) : ∀ (ls : List Nat) (o : List (Nat × SPkt)) (d : Nat),
    (∀ l ∈ ls, ∃ y, tab n.lans p l = some y) →
    ∃ o' d', Net.writeEach (fun n l => Net.write c c.depth n l (.wire dst x)) (n.io o d) ls = n.io (o ++ o') d' ∧
      (∀ e ∈ o', e.2 = .wire dst x) ∧
      (∀ m, dev m ∈ ls → (dev m, .wire dst x) ∈ o') ∧
      (∀ m, (∀ j q, lnk j ∈ ls → tab n.lans p (lnk j) = some (hub q) → ¬ Hears v q z a b k m) →
        wrote o' m = (ls.filter fun l => decide (l = dev m)).map (·, .wire dst x)) ∧
      (Reliable c → ∀ j q m, lnk j ∈ ls → tab n.lans p (lnk j) = some (hub q) → Hears v q z a b k m → (dev m, .wire dst x) ∈ o') := by
  intro ls
  induction ls with
  | nil =>
    intro o d _
    exact ⟨[], d, by simp [Net.writeEach], by simp, by simp, by simp [wrote], by simp⟩
  | cons l ls ih =>
    intro o d hl
    have hl' := fun l h' => hl l (List.mem_cons_of_mem _ h')
    obtain ⟨y, hy⟩ := hl l (List.mem_cons_self ..)
    unfold Net.writeEach
    rcases dev_or_lnk l with ⟨m0, rfl⟩ | ⟨j0, rfl⟩
    · have hu : dev m0 ∈ n.up := by
        rw [h.d.tabs] at hy
        split at hy
        · next hp => exact (h.d.up m0).mpr (h.d.place m0 p hp).2
        · cases hy
      rw [write_dev c _ h hu]
      dsimp only
      obtain ⟨o', d', i1, i2, i3, i4, i5⟩ := ih (o ++ [(dev m0, .wire dst x)]) d hl'
      refine ⟨(dev m0, .wire dst x) :: o', d', by rw [i1]; simp, ?_, ?_, ?_, ?_⟩
      · intro e he
        rcases List.mem_cons.mp he with rfl | he
        · rfl
        · exact i2 e he
      · intro m hm
        rcases List.mem_cons.mp hm with he | he
        · rw [he]; exact List.mem_cons_self ..
        · exact List.mem_cons_of_mem _ (i3 m he)
      · intro m hm
        have := i4 m (fun j q hj => hm j q (List.mem_cons_of_mem _ hj))
        unfold wrote at this ⊢
        rw [List.filter_cons, List.filter_cons, this]
        by_cases he : dev m0 = dev m
        · simp [he]
        · simp [he]
      · intro hc j q m hj
        rcases List.mem_cons.mp hj with he | he
        · exact absurd he (lnk_ne_dev j m0)
        · exact fun h1 h2 => List.mem_cons_of_mem _ (i5 hc j q m he h1 h2)
    · obtain ⟨_, q0, _, rfl, _⟩ := h.l.tabs p j0 y hy
      obtain ⟨o1, d1, w1, w2, w3⟩ := write_lnk c c.depth h hd h0 hy o d x
      rw [w1]
      dsimp only
      obtain ⟨o', d', i1, i2, i3, i4, i5⟩ := ih (o ++ o1) d1 hl'
      refine ⟨o1 ++ o', d', by rw [i1]; simp, ?_, ?_, ?_, ?_⟩
      · intro e he
        rcases List.mem_append.mp he with he | he
        · obtain ⟨m, rfl, _⟩ := w2 e he; rfl
        · exact i2 e he
      · intro m hm
        rcases List.mem_cons.mp hm with he | he
        · exact absurd he (dev_ne_lnk m j0)
        · exact List.mem_append_right _ (i3 m he)
      · intro m hm
        rw [wrote_append, i4 m (fun j q hj => hm j q (List.mem_cons_of_mem _ hj)), List.filter_cons]
        have : wrote o1 m = [] := by
          unfold wrote
          rw [List.filter_eq_nil_iff]
          intro e he
          obtain ⟨m', rfl, hm'⟩ := w2 e he
          simp only [decide_eq_true_eq]
          intro he'
          have := dev_inj he'
          subst this
          exact hm j0 q0 (List.mem_cons_self ..) hy hm'
        rw [this, if_neg (by simp [lnk_ne_dev])]
        rfl
      · intro hc j q m hj h1 h2
        rcases List.mem_cons.mp hj with he | he
        · have := lnk_inj he
          subst this
          rw [hy] at h1
          have := hub_inj (Option.some.inj h1)
          subst this
          exact List.mem_append_left _ (w3 hc.2 hc.1 m h2)
        · exact List.mem_append_right _ (i5 hc j q m he h1 h2)

end Verif.WanNet
