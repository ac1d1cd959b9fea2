import Verif.Model.Decode
import Verif.Lemmas.Bytes
/-! The relation "program `d`, started at position `p`, consumes exactly the bytes `bs` and returns
`a`", and what it says about execution on partial streams. -/
namespace Verif

/-- The 16 bytes with which a packet of `len` bytes begins. -/
def hdr16 (len : Nat) : Bytes := beEnc 8 len ++ beEnc 8 (compl64 len)

@[simp] theorem hdr16_length (len : Nat) : (hdr16 len).length = 16 := by simp [hdr16]

/-- The bytes begin with a number followed by its complement. -/
def looksHdr (w : Bytes) : Prop := beDec (w.take 8) = compl64 (beDec ((w.drop 8).take 8))

/-- None of the positions in `g` looks like the beginning of a packet, when `rest` follows. -/
def Clean : Bytes → Bytes → Prop
  | [], _ => True
  | x :: g, rest => ¬ looksHdr (x :: (g ++ rest)) ∧ Clean g rest

theorem Clean.drop {u g rest : Bytes} (h : Clean (u ++ g) rest) : Clean g rest := by
  induction u with
  | nil => exact h
  | cons x u ih => exact ih h.2

theorem looksHdr_append {w c : Bytes} (h : 16 ≤ w.length) : looksHdr (w ++ c) ↔ looksHdr w := by
  unfold looksHdr
  rw [List.take_append_of_le_length (by omega), List.drop_append_of_le_length (by omega),
    List.take_append_of_le_length (by simp; omega)]

inductive Parses {α : Type} : Nat → Dec α → Bytes → α → Prop where
  | ret {p a} : Parses p (.ret a) [] a
  | read {p n k b bs a} : b.length = n → Parses (p + n) (k b) bs a → Parses p (.read n k) (b ++ bs) a
  | tell {p k bs a} : Parses p (k p) bs a → Parses p (.tell k) bs a
  | sync {p k g len bs a} : len < 2 ^ 64 → Clean g (hdr16 len) →
      Parses (p + g.length + 16) (k len (p + g.length)) bs a →
      Parses p (.sync p none k) (g ++ (hdr16 len ++ bs)) a

theorem Parses.bind {α β} {d : Dec α} {f : α → Dec β} {p bs bs' a b}
    (h : Parses p d bs a) (h' : Parses (p + bs.length) (f a) bs' b) :
    Parses p (d.bind f) (bs ++ bs') b := by
  induction h with
  | ret => simpa [Dec.bind] using h'
  | @read p n k b0 bs0 a hl _ ih =>
    rw [Dec.bind, List.append_assoc]
    refine .read hl (ih ?_)
    rw [List.length_append, hl] at h'
    rwa [Nat.add_assoc]
  | tell _ ih => rw [Dec.bind]; exact .tell (ih h')
  | @sync p k g len bs0 a hl hc _ ih =>
    rw [Dec.bind, List.append_assoc, List.append_assoc]
    refine .sync hl hc (ih ?_)
    simp only [List.length_append, hdr16_length] at h'
    rw [show p + g.length + 16 + bs0.length = p + (g.length + (16 + bs0.length)) by omega]
    exact h'

theorem Parses.wrap {α} {d : Dec α} {p bs a} (h : Parses p d bs a) : Parses p d.wrap bs a := by
  induction h with
  | ret => exact .ret
  | read hl _ ih => exact .read hl ih
  | tell _ ih => exact .tell ih
  | sync hl hc _ ih => exact .sync hl hc ih

theorem Parses.map {α β} {d : Dec α} {f : α → β} {p bs a} (h : Parses p d bs a) :
    Parses p (d.bind fun x => .ret (f x)) bs (f a) := by
  have := h.bind (f := fun x => Dec.ret (f x)) (bs' := []) .ret
  simpa using this

/-! ### Windows of a buffer -/

theorem window_append {pre b post : Bytes} : window (pre ++ (b ++ post)) pre.length b.length = b := by
  simp [window]

theorem window_at {pre b post : Bytes} {p n : Nat} (hp : p = pre.length) (hn : n = b.length) :
    window (pre ++ (b ++ post)) p n = b := by subst hp hn; exact window_append

theorem window_pre {pre w : Bytes} {i n : Nat} :
    window (pre ++ w) (pre.length + i) n = (w.drop i).take n := by
  simp only [window, List.drop_append, List.drop_eq_nil_of_le (Nat.le_add_right _ _), List.nil_append,
    Nat.add_sub_cancel_left]

/-! ### Running -/

theorem looksHdr_hdr16 {len : Nat} (hl : len < 2 ^ 64) (post : Bytes) :
    beDec ((hdr16 len ++ post).take 8) = len ∧
    len = compl64 (beDec (((hdr16 len ++ post).drop 8).take 8)) := by
  have h1 : (hdr16 len ++ post).take 8 = beEnc 8 len := by
    simp [hdr16]
  have h2 : ((hdr16 len ++ post).drop 8).take 8 = beEnc 8 (compl64 len) := by
    simp [hdr16]
  rw [h1, h2, beDec_beEnc_lt (by omega), beDec_beEnc_lt (by have := compl64_lt hl; omega),
    compl64_compl64 hl]
  exact ⟨rfl, rfl⟩

/-- What the search for a packet does on a stream that continues with clean garbage `g` and a packet
header, of which only `got` has arrived. -/
theorem scanFrom_spec {len : Nat} (hl : len < 2 ^ 64) {bs : Bytes} : ∀ (g pre got miss : Bytes) (fuel : Nat),
    got ++ miss = g ++ (hdr16 len ++ bs) → Clean g (hdr16 len) → got.length < fuel →
    (∃ h, got = g ++ (hdr16 len ++ h) ∧ bs = h ++ miss ∧
      scanFrom (pre ++ got) fuel pre.length = .found len (pre.length + g.length)) ∨
    (∃ u g' h, g = u ++ g' ∧ got = u ++ h ∧ h.length < 8 ∧
      scanFrom (pre ++ got) fuel pre.length = .wait1 (pre.length + u.length)) ∨
    (∃ u g' qb h, g = u ++ g' ∧ got = u ++ (qb ++ h) ∧ qb.length = 8 ∧ h.length < 8 ∧
      scanFrom (pre ++ got) fuel pre.length = .wait2 (pre.length + u.length) (beDec qb)) := by
  intro g
  induction g with
  | nil =>
    intro pre got miss fuel he hc hf
    obtain ⟨fuel, rfl⟩ : ∃ k, fuel = k + 1 := ⟨fuel - 1, by omega⟩
    rw [scanFrom]
    by_cases h8 : got.length < 8
    · right; left
      exact ⟨[], [], got, rfl, rfl, by omega, by rw [if_pos (by simp; omega)]; simp⟩
    rw [if_neg (by simp; omega)]
    by_cases h16 : got.length < 16
    · right; right
      refine ⟨[], [], got.take 8, got.drop 8, rfl, by simp, by simp; omega, by simp; omega, ?_⟩
      have := window_pre (pre := pre) (w := got) (i := 0) (n := 8)
      simp only [Nat.add_zero, List.drop_zero] at this
      simp only [this]
      rw [if_pos (by simp; omega)]; simp
    · left
      obtain ⟨h, h1, h2⟩ : ∃ h, got = hdr16 len ++ h ∧ bs = h ++ miss := by
        simp only [List.nil_append] at he
        rcases List.append_eq_append_iff.mp he with ⟨c, h1, h2⟩ | ⟨c, h1, h2⟩
        · have : c = [] := by
            have := congrArg List.length h1
            simp at this; apply List.eq_nil_of_length_eq_zero; omega
          subst this; simp at h1 h2; exact ⟨[], by simp [h1], by simp [h2]⟩
        · exact ⟨c, h1, h2⟩
      refine ⟨h, by simpa using h1, h2, ?_⟩
      have e0 := window_pre (pre := pre) (w := got) (i := 0) (n := 8)
      have e8 := window_pre (pre := pre) (w := got) (i := 8) (n := 8)
      simp only [Nat.add_zero, List.drop_zero] at e0
      simp only [e0, e8]
      rw [if_neg (by simp; omega)]
      have := looksHdr_hdr16 hl h
      rw [h1, this.1, if_pos this.2]; simp
  | cons x g ih =>
    intro pre got miss fuel he hc hf
    obtain ⟨fuel, rfl⟩ : ∃ k, fuel = k + 1 := ⟨fuel - 1, by omega⟩
    rw [scanFrom]
    by_cases h8 : got.length < 8
    · right; left
      exact ⟨[], x :: g, got, rfl, rfl, by omega, by rw [if_pos (by simp; omega)]; simp⟩
    rw [if_neg (by simp; omega)]
    by_cases h16 : got.length < 16
    · right; right
      refine ⟨[], x :: g, got.take 8, got.drop 8, rfl, by simp, by simp; omega, by simp; omega, ?_⟩
      have := window_pre (pre := pre) (w := got) (i := 0) (n := 8)
      simp only [Nat.add_zero, List.drop_zero] at this
      simp only [this]
      rw [if_pos (by simp; omega)]; simp
    · have e0 := window_pre (pre := pre) (w := got) (i := 0) (n := 8)
      have e8 := window_pre (pre := pre) (w := got) (i := 8) (n := 8)
      simp only [Nat.add_zero, List.drop_zero] at e0
      simp only [e0, e8]
      rw [if_neg (by simp; omega)]
      have hno : ¬ beDec (got.take 8) = compl64 (beDec ((got.drop 8).take 8)) := by
        show ¬ looksHdr got
        rw [← looksHdr_append (c := miss) (by omega), he]
        have := hc.1
        rw [← looksHdr_append (c := bs) (by simp)] at this
        simpa using this
      rw [if_neg hno]
      cases got with
      | nil => simp at h8
      | cons y got =>
        simp only [List.cons_append, List.cons.injEq] at he
        obtain ⟨rfl, he⟩ := he
        have := ih (pre ++ [y]) got miss fuel he hc.2 (by simp at hf; omega)
        simp only [List.append_assoc, List.cons_append, List.nil_append, List.length_append,
          List.length_cons, List.length_nil, Nat.zero_add] at this
        rcases this with ⟨h, h1, h2, h3⟩ | ⟨u, g', h, h1, h2, h3, h4⟩ | ⟨u, g', qb, h, h1, h2, h3, h4, h5⟩
        · left; exact ⟨h, by rw [h1]; rfl, h2, by rw [h3]; simp; omega⟩
        · right; left
          exact ⟨y :: u, g', h, by simp [h1], by simp [h2], h3, by rw [h4]; simp; omega⟩
        · right; right
          exact ⟨y :: u, g', qb, h, by simp [h1], by simp [h2], h3, h4, by rw [h5]; simp; omega⟩

/-- The same when the first eight bytes have been read before. -/
theorem scan2_spec {len : Nat} (hl : len < 2 ^ 64) {bs : Bytes} (g pre qb got miss : Bytes) (hq : qb.length = 8)
    (he : (qb ++ got) ++ miss = g ++ (hdr16 len ++ bs)) (hc : Clean g (hdr16 len)) :
    (∃ h, qb ++ got = g ++ (hdr16 len ++ h) ∧ bs = h ++ miss ∧
      scan (pre ++ (qb ++ got)) pre.length (some (beDec qb)) = .found len (pre.length + g.length)) ∨
    (∃ u g' h, g = u ++ g' ∧ qb ++ got = u ++ h ∧ h.length < 8 ∧ 8 ≤ u.length ∧
      scan (pre ++ (qb ++ got)) pre.length (some (beDec qb)) = .wait1 (pre.length + u.length)) ∨
    (∃ u g' qb' h, g = u ++ g' ∧ qb ++ got = u ++ (qb' ++ h) ∧ qb'.length = 8 ∧
      h.length < 8 ∧
      scan (pre ++ (qb ++ got)) pre.length (some (beDec qb)) = .wait2 (pre.length + u.length) (beDec qb')) := by
  rw [scan]
  by_cases h16 : got.length < 8
  · right; right
    exact ⟨[], g, qb, got, rfl, rfl, hq, by omega, by rw [if_pos (by simp; omega)]; simp⟩
  rw [if_neg (by simp; omega)]
  have e8 := window_pre (pre := pre) (w := qb ++ got) (i := 8) (n := 8)
  simp only [e8]
  have e0 : beDec ((qb ++ got).take 8) = beDec qb := by
    rw [List.take_append_of_le_length (by omega), List.take_of_length_le (by omega)]
  cases g with
  | nil =>
    left
    obtain ⟨h, h1, h2⟩ : ∃ h, qb ++ got = hdr16 len ++ h ∧ bs = h ++ miss := by
      simp only [List.nil_append] at he
      rcases List.append_eq_append_iff.mp he with ⟨c, h1, h2⟩ | ⟨c, h1, h2⟩
      · have : c = [] := by
          have := congrArg List.length h1
          simp at this; apply List.eq_nil_of_length_eq_zero; omega
        subst this; simp at h1 h2; exact ⟨[], by simp [h1], by simp [h2]⟩
      · exact ⟨c, h1, h2⟩
    refine ⟨h, by simpa using h1, h2, ?_⟩
    have := looksHdr_hdr16 hl h
    rw [← e0, h1, this.1, if_pos this.2]; simp
  | cons x g =>
    have hno : ¬ looksHdr (qb ++ got) := by
      rw [← looksHdr_append (c := miss) (by simp; omega), he]
      have := hc.1
      rw [← looksHdr_append (c := bs) (by simp)] at this
      simpa using this
    unfold looksHdr at hno
    rw [e0] at hno
    rw [if_neg hno]
    cases hqg : qb ++ got with
    | nil => simp at hqg; simp [hqg] at hq
    | cons y got' =>
      rw [hqg] at he
      simp only [List.cons_append, List.cons.injEq] at he
      obtain ⟨rfl, he⟩ := he
      have hlen := congrArg List.length hqg
      simp at hlen
      have := scanFrom_spec hl g (pre ++ [y]) got' miss ((pre ++ (y :: got')).length + 1) he hc.2 (by simp; omega)
      simp only [List.append_assoc, List.cons_append, List.nil_append, List.length_append,
        List.length_cons, List.length_nil, Nat.zero_add] at this
      rcases this with ⟨h, h1, h2, h3⟩ | ⟨u, g', h, h1, h2, h3, h4⟩ | ⟨u, g', qb, h, h1, h2, h3, h4, h5⟩
      · left; exact ⟨h, by rw [h1]; rfl, h2, by simp only [List.length_append, List.length_cons]; rw [h3]; simp; omega⟩
      · right; left
        refine ⟨y :: u, g', h, by simp [h1], by simp [h2], h3, ?_, by simp only [List.length_append, List.length_cons]; rw [h4]; simp; omega⟩
        have := congrArg List.length h2
        simp at this ⊢; omega
      · right; right
        exact ⟨y :: u, g', qb, h, by simp [h1], by simp [h2], h3, h4, by simp only [List.length_append, List.length_cons]; rw [h5]; simp; omega⟩

/-- What remains to be read by a program that may have been suspended; `pre` is what it has read. -/
inductive Resid {α : Type} : Bytes → Dec α → Bytes → α → Prop where
  | main {pre d bs a} : Parses pre.length d bs a → Resid pre d bs a
  | mid {u qb g k cs len bs a} : len < 2 ^ 64 → Clean g (hdr16 len) → qb.length = 8 →
      qb ++ cs = g ++ (hdr16 len ++ bs) →
      Parses (u.length + g.length + 16) (k len (u.length + g.length)) bs a →
      Resid (u ++ qb) (.sync u.length (some (beDec qb)) k) cs a

/-- With all the bytes there, the program returns its result and stands behind the bytes. -/
theorem Parses.run {α} {d : Dec α} {p bs a} (h : Parses p d bs a) :
    ∀ (pre post : Bytes), pre.length = p →
      d.run (pre ++ (bs ++ post)) p = (.done a, p + bs.length) := by
  induction h with
  | ret => intro pre post hp; simp [Dec.run]
  | @read p n k b0 bs0 a hl _ ih =>
    intro pre post hp
    rw [Dec.run, if_neg (by simp; omega)]
    rw [show pre ++ (b0 ++ bs0 ++ post) = pre ++ (b0 ++ (bs0 ++ post)) by simp]
    rw [window_at hp.symm hl.symm]
    have := ih (pre ++ b0) post (by simp [hp, hl])
    rw [show pre ++ (b0 ++ (bs0 ++ post)) = pre ++ b0 ++ (bs0 ++ post) by simp, this]
    simp [hl]; omega
  | tell _ ih => intro pre post hp; rw [Dec.run]; exact ih pre post hp
  | @sync p k g len bs0 a hl hc _ ih =>
    intro pre post hp
    rw [Dec.run, scan]
    have := ih (pre ++ (g ++ hdr16 len)) post (by simp [hp]; omega)
    rcases scanFrom_spec hl (bs := bs0 ++ post) g pre (g ++ (hdr16 len ++ (bs0 ++ post))) []
      ((pre ++ (g ++ (hdr16 len ++ bs0) ++ post)).length + 1) (by simp) hc (by simp; omega) with
      ⟨h, h1, h2, h3⟩ | ⟨u, g', h, h1, h2, h3, h4⟩ | ⟨u, g', qb, h, h1, h2, h3, h4, h5⟩
    · simp only [List.append_assoc] at h3 this ⊢
      subst hp
      rw [h3]; simp only
      rw [this]
      simp; omega
    · have := congrArg List.length h1
      have := congrArg List.length h2
      simp at *; omega
    · have := congrArg List.length h1
      have := congrArg List.length h2
      simp at *; omega

theorem Resid.run {α} {d : Dec α} {pre bs a} (h : Resid pre d bs a) (post : Bytes) :
    d.run (pre ++ (bs ++ post)) pre.length = (.done a, pre.length + bs.length) := by
  cases h with
  | main h => exact h.run pre post rfl
  | @mid u qb g k cs len bs0 _ hl hc hq he hk =>
    rw [Dec.run]
    rcases scan2_spec hl (bs := bs0 ++ post) g u qb (bs ++ post) [] hq (by
      rw [List.append_nil, ← List.append_assoc, he]; simp) hc with
      ⟨h, h1, h2, h3⟩ | ⟨u', g', h, h1, h2, h3, h4, h5⟩ | ⟨u', g', qb', h, h1, h2, h3, h4, h5⟩
    · rw [List.append_assoc, h3]; simp only
      have := hk.run (u ++ (g ++ hdr16 len)) post (by simp; omega)
      have e : u ++ (qb ++ (bs ++ post)) = u ++ (g ++ hdr16 len) ++ (bs0 ++ post) := by
        rw [← List.append_assoc qb, he]; simp
      rw [e, this]
      have := congrArg List.length he
      simp at this ⊢; omega
    · have := congrArg List.length h1
      have := congrArg List.length h2
      have := congrArg List.length he
      simp at *; omega
    · have := congrArg List.length h1
      have := congrArg List.length h2
      have := congrArg List.length he
      simp at *; omega

/-- With only a strict prefix `got` of the bytes there, the program waits, and the suspended rest
consumes exactly the bytes not consumed yet (of which a part may be there already). -/
theorem Parses.run_partial {α} {d : Dec α} {p bs a} (h : Parses p d bs a) :
    ∀ (pre got miss : Bytes), pre.length = p → bs = got ++ miss → miss ≠ [] →
      ∃ d' used have_, got = used ++ have_ ∧
        d.run (pre ++ got) p = (.wait d', p + used.length) ∧
        Resid (pre ++ used) d' (have_ ++ miss) a := by
  induction h with
  | ret => intro pre got miss hp hb hm; simp at hb; exact absurd hb.2 hm
  | @read p n k b0 bs0 a hl hk ih =>
    intro pre got miss hp hb hm
    rw [Dec.run]
    by_cases hn : got.length < n
    · refine ⟨.read n k, [], got, rfl, ?_, ?_⟩
      · rw [if_pos (by simp; omega)]; simp
      · refine .main ?_
        rw [List.append_nil, hp, ← hb]; exact .read hl hk
    · obtain ⟨got', hg, hb'⟩ : ∃ got', got = b0 ++ got' ∧ bs0 = got' ++ miss := by
        rcases List.append_eq_append_iff.mp hb with ⟨c, h1, h2⟩ | ⟨c, h1, h2⟩
        · exact ⟨c, h1, h2⟩
        · have : c = [] := by
            have := congrArg List.length h1
            simp at this; apply List.eq_nil_of_length_eq_zero; omega
          subst this; simp at h1 h2; exact ⟨[], by simp [h1], by simp [h2]⟩
      subst hg
      rw [if_neg (by simp; omega), window_at hp.symm hl.symm]
      obtain ⟨d', used, hv, h1, h2, h3⟩ := ih (pre ++ b0) got' miss (by simp [hp, hl]) hb' hm
      refine ⟨d', b0 ++ used, hv, by simp [h1], ?_, ?_⟩
      · rw [← List.append_assoc, h2]; simp [hl]; omega
      · rwa [← List.append_assoc]
  | tell _ ih =>
    intro pre got miss hp hb hm
    rw [Dec.run]; exact ih pre got miss hp hb hm
  | @sync p k g len bs0 a hl hc hk ih =>
    intro pre got miss hp hb hm
    rw [Dec.run, scan]
    subst hp
    rcases scanFrom_spec hl g pre got miss ((pre ++ got).length + 1) hb.symm hc (by simp; omega) with
      ⟨h, h1, h2, h3⟩ | ⟨u, g', h, h1, h2, h3, h4⟩ | ⟨u, g', qb, h, h1, h2, h3, h4, h5⟩
    · rw [h3]; simp only
      obtain ⟨d', used, hv, e1, e2, e3⟩ :=
        ih (pre ++ (g ++ hdr16 len)) h miss (by simp; omega) h2 hm
      refine ⟨d', g ++ (hdr16 len ++ used), hv, by simp [h1, e1], ?_, ?_⟩
      · rw [h1, show pre ++ (g ++ (hdr16 len ++ h)) = pre ++ (g ++ hdr16 len) ++ h by simp, e2]
        simp; omega
      · simpa using e3
    · rw [h4]
      refine ⟨_, u, h, h2, rfl, .main ?_⟩
      rw [h2, h1, List.append_assoc, List.append_assoc] at hb
      have hb := List.append_cancel_left hb
      rw [List.length_append, ← hb]
      refine .sync hl (h1 ▸ hc).drop ?_
      have := hk
      rw [h1, List.length_append] at this
      rwa [show pre.length + u.length + g'.length = pre.length + (u.length + g'.length) by omega]
    · rw [h5]
      refine ⟨_, u ++ qb, h, by simp [h2], by rw [List.length_append, h3]; simp only [Nat.add_assoc]; rfl, ?_⟩
      rw [h2, h1, List.append_assoc, List.append_assoc] at hb
      have hb := List.append_cancel_left hb
      have e : pre.length + u.length = (pre ++ u).length := by simp
      rw [← List.append_assoc, e]
      refine .mid (bs := bs0) hl (h1 ▸ hc).drop h3 ?_ ?_
      · rw [hb]; simp
      · have := hk
        rw [h1, List.length_append] at this
        rwa [List.length_append,
          show pre.length + u.length + g'.length = pre.length + (u.length + g'.length) by omega]

theorem Resid.run_partial {α} {d : Dec α} {pre bs a} (h : Resid pre d bs a) :
    ∀ (got miss : Bytes), bs = got ++ miss → miss ≠ [] →
      ∃ d' used have_, got = used ++ have_ ∧
        d.run (pre ++ got) pre.length = (.wait d', (pre ++ used).length) ∧
        Resid (pre ++ used) d' (have_ ++ miss) a := by
  cases h with
  | main h =>
    intro got miss hb hm
    have := h.run_partial pre got miss rfl hb hm
    simpa using this
  | @mid u qb g k cs len bs0 _ hl hc hq he hk =>
    intro got miss hb hm
    rw [Dec.run, List.append_assoc]
    rcases scan2_spec hl g u qb got miss hq (by rw [List.append_assoc, ← hb, he]) hc with
      ⟨h, h1, h2, h3⟩ | ⟨u', g', h, h1, h2, h3, h4, h5⟩ | ⟨u', g', qb', h, h1, h2, h3, h4, h5⟩
    · rw [h3]; simp only
      obtain ⟨d', used, hv, e1, e2, e3⟩ :=
        hk.run_partial (u ++ (g ++ hdr16 len)) h miss (by simp; omega) h2 hm
      -- `qb ++ got = g ++ hdr16 ++ used ++ hv`
      have hgl : 8 ≤ (g ++ (hdr16 len ++ used)).length := by simp; omega
      have hsplit : qb ++ got = (g ++ (hdr16 len ++ used)) ++ hv := by rw [h1, e1]; simp
      obtain ⟨used', hu1, hu2⟩ : ∃ used', g ++ (hdr16 len ++ used) = qb ++ used' ∧ got = used' ++ hv := by
        rcases List.append_eq_append_iff.mp hsplit with ⟨c, c1, c2⟩ | ⟨c, c1, c2⟩
        · exact ⟨c, c1, c2⟩
        · have : c = [] := by
            have := congrArg List.length c1
            rw [List.length_append] at this; apply List.eq_nil_of_length_eq_zero; omega
          subst this; simp only [List.append_nil, List.nil_append] at c1 c2
          exact ⟨[], by simp [c1], by simp [c2]⟩
      refine ⟨d', used', hv, hu2, ?_, ?_⟩
      · rw [h1, show u ++ (g ++ (hdr16 len ++ h)) = u ++ (g ++ hdr16 len) ++ h by simp, e2]
        have := congrArg List.length hu1
        simp at this ⊢; omega
      · rw [List.append_assoc, ← hu1]; simpa using e3
    · rw [h5]
      obtain ⟨used', hu1, hu2⟩ : ∃ used', u' = qb ++ used' ∧ got = used' ++ h := by
        rcases List.append_eq_append_iff.mp h2 with ⟨c, c1, c2⟩ | ⟨c, c1, c2⟩
        · exact ⟨c, c1, c2⟩
        · have : c = [] := by
            have := congrArg List.length c1
            rw [List.length_append] at this; apply List.eq_nil_of_length_eq_zero; omega
          subst this; simp only [List.append_nil, List.nil_append] at c1 c2
          exact ⟨[], by simp [c1], by simp [c2]⟩
      refine ⟨.sync (u.length + u'.length) none k, used', h, hu2, ?_, ?_⟩
      · rw [hu1]; simp
      · have hb' : h ++ miss = g' ++ (hdr16 len ++ bs0) := by
          rw [hb, ← List.append_assoc, h2, h1, List.append_assoc, List.append_assoc] at he
          exact List.append_cancel_left he
        have e : u.length + u'.length = (u ++ qb ++ used').length := by rw [hu1]; simp
        rw [e]
        refine .main ?_
        rw [hb']
        refine .sync hl (h1 ▸ hc).drop ?_
        have := hk
        rw [h1, List.length_append] at this
        rwa [← e, show u.length + u'.length + g'.length = u.length + (u'.length + g'.length) by omega]
    · rw [h5]
      have hsplit : qb ++ got = (u' ++ qb') ++ h := by rw [h2]; simp
      obtain ⟨used', hu1, hu2⟩ : ∃ used', u' ++ qb' = qb ++ used' ∧ got = used' ++ h := by
        rcases List.append_eq_append_iff.mp hsplit with ⟨c, c1, c2⟩ | ⟨c, c1, c2⟩
        · exact ⟨c, c1, c2⟩
        · have : c = [] := by
            have := congrArg List.length c1
            rw [List.length_append, List.length_append] at this; apply List.eq_nil_of_length_eq_zero; omega
          subst this; simp only [List.append_nil, List.nil_append] at c1 c2
          exact ⟨[], by simp [c1], by simp [c2]⟩
      refine ⟨.sync (u.length + u'.length) (some (beDec qb')) k, used', h, hu2, ?_, ?_⟩
      · have := congrArg List.length hu1
        simp at this
        simp; omega
      · have hb' : qb' ++ (h ++ miss) = g' ++ (hdr16 len ++ bs0) := by
          rw [hb, ← List.append_assoc, h2, h1, List.append_assoc, List.append_assoc, List.append_assoc] at he
          exact List.append_cancel_left he
        rw [List.append_assoc, ← hu1, ← List.append_assoc]
        have e : u.length + u'.length = (u ++ u').length := by simp
        rw [e]
        refine .mid (bs := bs0) hl (h1 ▸ hc).drop h3 hb' ?_
        have := hk
        rw [h1, List.length_append] at this
        rwa [← e, show u.length + u'.length + g'.length = u.length + (u'.length + g'.length) by omega]

end Verif
