import Verif.Props.Address
/-! # C26: the prefix of a block (PlaygroundAddress.py:127-134) -/
namespace Verif
namespace Addr

theorem part_str_inj {p q : APart} (h : p.str = q.str) : p = q := by
  have h1 := convertBlock_str p
  rw [h, convertBlock_str q] at h1
  cases h1; rfl

/-- `a` is the beginning of `s`, up to a dot or the end. -/
def BeginsWith (s a : Str) : Prop := ∃ r, s = a ++ r ∧ (r = [] ∨ ∃ t, r = '.' :: t)

/-- The first part. -/
theorem first_part : ∀ {x y r s : Str}, '.' ∉ x → '.' ∉ y → (r = [] ∨ ∃ t, r = '.' :: t) → y ++ '.' :: s = x ++ r → x = y ∧ r = '.' :: s
  | [], [], _, _, _, _, _, h => ⟨rfl, h.symm⟩
  | [], c :: y, r, s, _, hy, hr, h => by
    rcases hr with rfl | ⟨t, rfl⟩
    · simp at h
    · simp at h; exact absurd (by rw [h.1]; simp) hy
  | c :: x, [], r, s, hx, _, _, h => by simp at h; exact absurd (by rw [← h.1]; simp) hx
  | c :: x, e :: y, r, s, hx, hy, hr, h => by
    simp only [List.cons_append, List.cons.injEq] at h
    obtain ⟨h1, h2⟩ := first_part (fun hm => hx (by simp [hm])) (fun hm => hy (by simp [hm])) hr h.2
    exact ⟨by rw [h1, h.1], h2⟩

theorem begins_one {x y s : Str} (hx : '.' ∉ x) (hy : '.' ∉ y) : BeginsWith (y ++ '.' :: s) x ↔ x = y := by
  constructor
  · rintro ⟨r, h, hr⟩; exact (first_part hx hy hr h).1
  · rintro rfl; exact ⟨_, rfl, .inr ⟨_, rfl⟩⟩

theorem begins_more {x y s a : Str} (hx : '.' ∉ x) (hy : '.' ∉ y) : BeginsWith (y ++ '.' :: s) (x ++ '.' :: a) ↔ x = y ∧ BeginsWith s a := by
  constructor
  · rintro ⟨r, h, hr⟩
    rw [List.append_assoc] at h
    obtain ⟨h1, h2⟩ := first_part hx hy (.inr ⟨_, rfl⟩) h
    simp at h2
    exact ⟨h1, r, h2.symm, hr⟩
  · rintro ⟨rfl, r, rfl, hr⟩; exact ⟨r, by simp, hr⟩

theorem begins_last {x y : Str} (hx : '.' ∉ x) (hy : '.' ∉ y) : BeginsWith y x ↔ x = y := by
  constructor
  · rintro ⟨r, h, hr⟩
    rcases hr with rfl | ⟨t, rfl⟩
    · simpa using h.symm
    · exact absurd (by rw [h]; simp) hy
  · rintro rfl; exact ⟨[], by simp, .inl rfl⟩

/-- C26. An address is in a block of the usual form exactly if the block's prefix is empty or is a beginning of the address's text that ends where a component ends: `1.2` is a prefix for
`1.2.3.4` but not for `1.20.3.4`. -/
theorem C26_prefix (b : Addr) (hb : Canonical b) (z n d i : Nat) :
    isParentBlock b (addr z n d i) = true ↔ b.prefixString = [] ∨ BeginsWith (addr z n d i).str b.prefixString := by
  rw [C26_isParentBlock_iff, str_dotted]
  have hpos : ∀ p q : APart, (p.str = q.str) ↔ p = q := fun p q => ⟨part_str_inj, fun h => by rw [h]⟩
  have hne : ∀ k : Int, (APart.num k).str ≠ [] := fun k h => by
    have := convertBlock_str (.num k)
    rw [h] at this
    exact absurd this (by simp [convertBlock, show pyInt [] = none from by decide])
  have hat : (∀ k : Fin 4, b.at k = .star ∨ b.at k = (addr z n d i).at k) ↔
      (b.zone = .star ∨ b.zone = .num z) ∧ (b.network = .star ∨ b.network = .num n) ∧ (b.device = .star ∨ b.device = .num d) ∧ (b.index = .star ∨ b.index = .num i) :=
    ⟨fun h => ⟨h 0, h 1, h 2, h 3⟩, fun ⟨h0, h1, h2, h3⟩ k => by
      match k with
      | 0 => exact h0
      | 1 => exact h1
      | 2 => exact h2
      | 3 => exact h3⟩
  rw [hat]
  obtain ⟨b0, b1, b2, b3⟩ := b
  obtain ⟨h0, h1, h2⟩ := hb
  simp only at h0 h1 h2
  have nd := part_no_dot
  cases b0 with
  | star =>
    have e1 := h0 rfl; have e2 := h1 e1; have e3 := h2 e2
    subst e1 e2 e3
    simp [prefixString, specified, parts, joinWith]
  | num b0 =>
    cases b1 with
    | star =>
      have e2 := h1 rfl; have e3 := h2 e2
      subst e2 e3
      simp only [prefixString, specified, parts, joinWith, dotted, addr, List.takeWhile, List.map, ne_eq, reduceCtorEq, not_false_eq_true, decide_true, not_true_eq_false, decide_false]
      rw [begins_one (nd _) (nd _), hpos]
      simp [hne]
    | num b1 =>
      cases b2 with
      | star =>
        have e3 := h2 rfl
        subst e3
        simp only [prefixString, specified, parts, joinWith, dotted, addr, List.takeWhile, List.map, ne_eq, reduceCtorEq, not_false_eq_true, decide_true, not_true_eq_false, decide_false]
        rw [begins_more (nd _) (nd _), begins_one (nd _) (nd _), hpos, hpos]
        simp
      | num b2 =>
        cases b3 with
        | star =>
          simp only [prefixString, specified, parts, joinWith, dotted, addr, List.takeWhile, List.map, ne_eq, reduceCtorEq, not_false_eq_true, decide_true, not_true_eq_false, decide_false]
          rw [begins_more (nd _) (nd _), begins_more (nd _) (nd _), begins_one (nd _) (nd _), hpos, hpos, hpos]
          simp
        | num b3 =>
          simp only [prefixString, specified, parts, joinWith, dotted, addr, List.takeWhile, List.map, ne_eq, reduceCtorEq, not_false_eq_true, decide_true, not_true_eq_false, decide_false]
          rw [begins_more (nd _) (nd _), begins_more (nd _) (nd _), begins_more (nd _) (nd _), begins_last (nd _) (nd _), hpos, hpos, hpos, hpos]
          simp

example : Canonical ⟨.num 1, .num 2, .star, .star⟩ ∧ (⟨.num 1, .num 2, .star, .star⟩ : Addr).prefixString = "1.2".toList ∧
    isParentBlock ⟨.num 1, .num 2, .star, .star⟩ (addr 1 2 3 4) = true ∧ isParentBlock ⟨.num 1, .num 2, .star, .star⟩ (addr 1 20 3 4) = false := by
  refine ⟨⟨by simp, by simp, by simp⟩, by decide +kernel⟩

/-- C26. The prefix of a block with a wild card before a number does not tell the block. -/
theorem C26_false_prefix : (⟨.num 1, .star, .num 3, .num 4⟩ : Addr).prefixString = "1".toList ∧
    isParentBlock ⟨.num 1, .star, .num 3, .num 4⟩ (addr 1 2 5 4) = false ∧ BeginsWith (addr 1 2 5 4).str "1".toList := by
  refine ⟨by decide +kernel, by decide, ".2.5.4".toList, by decide +kernel, .inr ⟨_, rfl⟩⟩

end Addr
end Verif
