import Verif.Lemmas.IntLit
import Verif.Spec.Address
/-! # C25, C26: addresses -/
namespace Verif
namespace Addr

theorem part_no_dot (p : APart) : '.' ∉ p.str := by
  cases p with
  | star => decide
  | num i => exact intStr_no i '.' (.inl rfl)

theorem str_dotted (a : Addr) : a.str = dotted a.zone.str a.network.str a.device.str a.index.str := rfl

theorem split_dotted {z n d i : Str} (hz : '.' ∉ z) (hn : '.' ∉ n) (hd : '.' ∉ d) (hi : '.' ∉ i) :
    splitOn '.' (dotted z n d i) = [z, n, d, i] := by
  unfold dotted
  rw [splitOn_append hz, splitOn_append hn, splitOn_append hd, splitOn_single hi]

theorem split_str (a : Addr) : splitOn '.' a.str = [a.zone.str, a.network.str, a.device.str, a.index.str] := by
  rw [str_dotted]; exact split_dotted (part_no_dot _) (part_no_dot _) (part_no_dot _) (part_no_dot _)

theorem convertBlock_str (p : APart) : convertBlock p.str = some p := by
  cases p with
  | star => rfl
  | num i =>
    unfold convertBlock
    rw [if_neg, show (APart.num i).str = intStr i from rfl, pyInt_intStr]; rfl
    intro h
    exact intStr_no i '*' (.inr rfl) (by rw [show intStr i = ['*'] from h]; simp)

theorem parse_str (a : Addr) : parseParts convertBlock a.str = some a := by
  unfold parseParts
  rw [split_str]
  dsimp only
  rw [convertBlock_str, convertBlock_str, convertBlock_str, convertBlock_str]

theorem parse_address_str (z n d i : Nat) : parseParts convertAddress (addr z n d i).str = some (addr z n d i) := by
  unfold parseParts
  rw [split_str]
  dsimp only
  have : ∀ k : Nat, convertAddress (APart.num k).str = some (.num k) := by
    intro k; unfold convertAddress; rw [show (APart.num k).str = intStr k from rfl, pyInt_intStr]; rfl
  show (match convertAddress (APart.num z).str, convertAddress (APart.num n).str, convertAddress (APart.num d).str,
    convertAddress (APart.num i).str with
    | some a, some b, some c, some d => some (⟨a, b, c, d⟩ : Addr) | _, _, _, _ => none) = _
  rw [this, this, this, this]; rfl

theorem valid_iff (a : Addr) : a.Valid ↔ a.parts.all okBlock = true := by
  unfold Valid
  rw [List.all_eq_true]
  refine forall₂_congr fun p _ => ?_
  cases p with
  | star => simp [okBlock]
  | num i =>
    simp only [reduceCtorEq, false_or, okBlock, decide_eq_true_eq, APart.num.injEq]
    constructor
    · rintro ⟨n, rfl⟩; omega
    · intro h; exact ⟨i.toNat, by omega⟩

end Addr
open Addr

/-- C25. Printing an address and reading it back gives the address. -/
theorem C25_address_roundtrip (z n d i : Nat) :
    addressFromString (addr z n d i).str = .ok (addr z n d i) := by
  unfold addressFromString
  rw [parse_address_str]
  simp [mkAddress, addr, parts, okNum]

/-- C25. Printing a block and reading it back gives the block. -/
theorem C25_block_roundtrip (a : Addr) (h : a.Valid) : blockFromString a.str = .ok a := by
  unfold blockFromString
  rw [parse_str]
  simp only [mkBlock, (valid_iff a).mp h, if_true]

/-- C25. An address string is accepted exactly when it is four integer literals of non-negative value with
dots between them; and then it gives these values. -/
theorem C25_address_accepts_iff (s : Str) (a : Addr) : addressFromString s = .ok a ↔
    ∃ z n d i, s = dotted z n d i ∧ DenotesNum z a.zone ∧ DenotesNum n a.network ∧ DenotesNum d a.device ∧
      DenotesNum i a.index := by
  have hc : ∀ (x : Str) (p : APart), '.' ∉ x → ((convertAddress x = some p ∧ okNum p = true) ↔ DenotesNum x p) := by
    intro x p hx
    unfold convertAddress DenotesNum
    constructor
    · rintro ⟨h1, h2⟩
      cases hp : pyInt x with
      | none => rw [hp] at h1; cases h1
      | some k =>
        rw [hp] at h1; cases h1
        simp only [okNum, decide_eq_true_eq] at h2
        refine ⟨k.toNat, by congr 1; omega, ?_, hx⟩
        rw [show ((k.toNat : Nat) : Int) = k by omega]
        exact (pyInt_iff _ _).mp hp
    · rintro ⟨k, rfl, h1, _⟩
      rw [(pyInt_iff _ _).mpr h1]
      exact ⟨rfl, by simp [okNum]⟩
  constructor
  · intro h
    have hj := join_split '.' s
    have hn := splitOn_no_sep (c := '.') (s := s)
    unfold addressFromString at h
    split at h
    · cases h
    · next b hb =>
      unfold mkAddress at h
      split at h
      · next hall =>
        cases h
        unfold parseParts at hb
        split at hb
        · next p q r t hs =>
          rw [hs] at hj hn
          split at hb
          · next a' b' c' d' h1 h2 h3 h4 =>
            cases hb
            simp only [parts, List.all_cons, List.all_nil, Bool.and_true, Bool.and_eq_true] at hall
            exact ⟨p, q, r, t, hj.symm, (hc p _ (hn p (by simp))).mp ⟨h1, hall.1⟩,
              (hc q _ (hn q (by simp))).mp ⟨h2, hall.2.1⟩, (hc r _ (hn r (by simp))).mp ⟨h3, hall.2.2.1⟩,
              (hc t _ (hn t (by simp))).mp ⟨h4, hall.2.2.2⟩⟩
          · cases hb
        · cases hb
      · cases h
  · rintro ⟨z, n, d, i, rfl, h1, h2, h3, h4⟩
    have hd : ∀ {x p}, DenotesNum x p → '.' ∉ x := fun ⟨_, _, _, h⟩ => h
    have g1 := (hc z _ (hd h1)).mpr h1
    have g2 := (hc n _ (hd h2)).mpr h2
    have g3 := (hc d _ (hd h3)).mpr h3
    have g4 := (hc i _ (hd h4)).mpr h4
    unfold addressFromString parseParts
    rw [split_dotted (hd h1) (hd h2) (hd h3) (hd h4)]
    simp [g1.1, g2.1, g3.1, g4.1, mkAddress, parts, g1.2, g2.2, g3.2, g4.2]

theorem convertBlock_iff (x : Str) (p : APart) (hx : '.' ∉ x) :
    (convertBlock x = some p ∧ okBlock p = true) ↔ DenotesBlock x p := by
  unfold convertBlock DenotesBlock DenotesNum
  split
  · next hs =>
    subst hs
    constructor
    · rintro ⟨h1, _⟩; cases h1; exact .inl ⟨rfl, rfl⟩
    · rintro (⟨_, rfl⟩ | ⟨k, rfl, h1, _⟩)
      · exact ⟨rfl, rfl⟩
      · have := (pyInt_iff _ _).mpr h1
        exact absurd this (by simp [pyInt, strip, isWs, digitsVal, digitVal])
  · next hs =>
    constructor
    · rintro ⟨h1, h2⟩
      cases hp : pyInt x with
      | none => rw [hp] at h1; cases h1
      | some k =>
        rw [hp] at h1; cases h1
        simp only [okBlock, decide_eq_true_eq] at h2
        refine .inr ⟨k.toNat, by congr 1; omega, ?_, hx⟩
        rw [show ((k.toNat : Nat) : Int) = k by omega]
        exact (pyInt_iff _ _).mp hp
    · rintro (⟨rfl, _⟩ | ⟨k, rfl, h1, _⟩)
      · exact absurd rfl hs
      · rw [(pyInt_iff _ _).mpr h1]
        exact ⟨rfl, by simp [okBlock]⟩

/-- C25. The same for blocks, where a part may also be `*`. -/
theorem C25_block_accepts_iff (s : Str) (a : Addr) : blockFromString s = .ok a ↔
    ∃ z n d i, s = dotted z n d i ∧ DenotesBlock z a.zone ∧ DenotesBlock n a.network ∧ DenotesBlock d a.device ∧
      DenotesBlock i a.index := by
  have hc := convertBlock_iff
  constructor
  · intro h
    have hj := join_split '.' s
    have hn := splitOn_no_sep (c := '.') (s := s)
    unfold blockFromString at h
    split at h
    · cases h
    · next b hb =>
      unfold mkBlock at h
      split at h
      · next hall =>
        cases h
        unfold parseParts at hb
        split at hb
        · next p q r t hs =>
          rw [hs] at hj hn
          split at hb
          · next a' b' c' d' h1 h2 h3 h4 =>
            cases hb
            simp only [parts, List.all_cons, List.all_nil, Bool.and_true, Bool.and_eq_true] at hall
            exact ⟨p, q, r, t, hj.symm, (hc p _ (hn p (by simp))).mp ⟨h1, hall.1⟩,
              (hc q _ (hn q (by simp))).mp ⟨h2, hall.2.1⟩, (hc r _ (hn r (by simp))).mp ⟨h3, hall.2.2.1⟩,
              (hc t _ (hn t (by simp))).mp ⟨h4, hall.2.2.2⟩⟩
          · cases hb
        · cases hb
      · cases h
  · rintro ⟨z, n, d, i, rfl, h1, h2, h3, h4⟩
    have hd : ∀ {x p}, DenotesBlock x p → '.' ∉ x := by
      rintro x p (⟨rfl, _⟩ | ⟨_, _, _, h⟩)
      · decide
      · exact h
    have g1 := (hc z _ (hd h1)).mpr h1
    have g2 := (hc n _ (hd h2)).mpr h2
    have g3 := (hc d _ (hd h3)).mpr h3
    have g4 := (hc i _ (hd h4)).mpr h4
    unfold blockFromString parseParts
    rw [split_dotted (hd h1) (hd h2) (hd h3) (hd h4)]
    simp [g1.1, g2.1, g3.1, g4.1, mkBlock, parts, g1.2, g2.2, g3.2, g4.2]

/-- The canonical strings of different blocks differ. -/
theorem Addr.str_inj {a b : Addr} (h : a.str = b.str) : a = b := by
  have h1 := parse_str a
  rw [h, parse_str b] at h1
  exact (Option.some.inj h1).symm

/-- C25. Equality of address objects is equality of their printed strings (so equality with a string, and the
hash, which is that of the string, agree with it). -/
theorem C25_equality (a b : Addr) : (eqAddr a b = true ↔ a = b) ∧ (eqStr a b.str = true ↔ eqAddr a b = true) := by
  have h1 : eqAddr a b = true ↔ a = b := by
    obtain ⟨a1, a2, a3, a4⟩ := a
    obtain ⟨b1, b2, b3, b4⟩ := b
    simp [eqAddr, and_assoc]
  refine ⟨h1, ?_⟩
  rw [h1]
  simp only [eqStr, decide_eq_true_eq]
  exact ⟨Addr.str_inj, fun h => by rw [h]⟩

/-- `IsValidAddressString` is not the test whether `FromString` succeeds: it accepts negative parts. -/
theorem C25_false_isValid : isValidAddressString "-1.2.3.4".toList = true ∧
    addressFromString "-1.2.3.4".toList = .error .invalid := by
  constructor <;> rfl

example : addressFromString "20.1.001.7".toList = .ok (addr 20 1 1 7) := by rfl
example : blockFromString "20.1.*.*".toList = .ok ⟨.num 20, .num 1, .star, .star⟩ := by rfl

/-! ## C26 -/

/-- C26. Going up from an address visits exactly these blocks, and then there is no parent. -/
theorem C26_chain (z n d i : Nat) :
    (addr z n d i).getParentBlock = some ⟨.num z, .num n, .num d, .star⟩ ∧
    (⟨.num z, .num n, .num d, .star⟩ : Addr).getParentBlock = some ⟨.num z, .num n, .star, .star⟩ ∧
    (⟨.num z, .num n, .star, .star⟩ : Addr).getParentBlock = some ⟨.num z, .star, .star, .star⟩ ∧
    (⟨.num z, .star, .star, .star⟩ : Addr).getParentBlock = some ⟨.star, .star, .star, .star⟩ ∧
    (⟨.star, .star, .star, .star⟩ : Addr).getParentBlock = none := by
  refine ⟨?_, ?_, ?_, ?_, ?_⟩ <;> simp [getParentBlock, specified, parts, setStar, addr]

theorem parentLoop_iff (l : List (APart × APart)) :
    parentLoop (l.map Prod.fst) (l.map Prod.snd) = true ↔ ∀ e ∈ l, e.1 = .star ∨ e.1 = e.2 := by
  induction l with
  | nil => simp [parentLoop]
  | cons e l ih =>
    simp only [List.map_cons, parentLoop, List.mem_cons, forall_eq_or_imp]
    split
    · next h => simp only [Bool.false_eq_true, false_iff]; rintro ⟨h1, _⟩; rcases h1 with h1 | h1 <;> simp_all
    · next h =>
      rw [ih]
      constructor
      · intro h2; exact ⟨by by_cases h3 : e.1 = .star; exact .inl h3; exact .inr (by by_cases h4 : e.1 = e.2; exact h4; exact absurd ⟨h3, h4⟩ h), h2⟩
      · exact fun h2 => h2.2

/-- C26. `isParentBlock` holds exactly when in each of the four places the block has a wild card or the part
of the address. -/
theorem C26_isParentBlock_iff (b a : Addr) : isParentBlock b a = true ↔ ∀ k : Fin 4, b.at k = .star ∨ b.at k = a.at k := by
  have := parentLoop_iff [(b.zone, a.zone), (b.network, a.network), (b.device, a.device), (b.index, a.index)]
  unfold isParentBlock parts
  simp only [List.map_cons, List.map_nil] at this
  rw [this]
  constructor
  · intro h k
    match k with
    | 0 => exact h (b.zone, a.zone) (by simp)
    | 1 => exact h (b.network, a.network) (by simp)
    | 2 => exact h (b.device, a.device) (by simp)
    | 3 => exact h (b.index, a.index) (by simp)
  · intro h e he
    simp only [List.mem_cons, List.not_mem_nil, or_false] at he
    rcases he with rfl | rfl | rfl | rfl
    · exact h 0
    · exact h 1
    · exact h 2
    · exact h 3

/-- The blocks in the usual form: wild cards only at the end. -/
def Canonical (b : Addr) : Prop :=
  (b.zone = .star → b.network = .star) ∧ (b.network = .star → b.device = .star) ∧ (b.device = .star → b.index = .star)

theorem ancestors_addr (z n d i : Nat) : ancestors 5 (addr z n d i) =
    [⟨.num z, .num n, .num d, .num i⟩, ⟨.num z, .num n, .num d, .star⟩, ⟨.num z, .num n, .star, .star⟩,
     ⟨.num z, .star, .star, .star⟩, ⟨.star, .star, .star, .star⟩] := by
  simp [ancestors, getParentBlock, specified, parts, setStar, addr]

/-- C26. A block in the usual form is a parent block of an address exactly when going up from the address
meets it. -/
theorem C26_parents_are_ancestors (b : Addr) (hb : Canonical b) (z n d i : Nat) :
    isParentBlock b (addr z n d i) = true ↔ b ∈ ancestors 5 (addr z n d i) := by
  rw [C26_isParentBlock_iff, ancestors_addr]
  obtain ⟨b0, b1, b2, b3⟩ := b
  obtain ⟨h0, h1, h2⟩ := hb
  simp only at h0 h1 h2
  constructor
  · intro h
    have e0 := h 0; have e1 := h 1; have e2 := h 2; have e3 := h 3
    simp only [Addr.at, addr] at e0 e1 e2 e3
    simp only [List.mem_cons, Addr.mk.injEq, List.not_mem_nil, or_false]
    rcases e0 with rfl | rfl
    · have := h0 rfl; subst this
      have := h1 rfl; subst this
      have := h2 rfl; subst this
      simp
    · rcases e1 with rfl | rfl
      · have := h1 rfl; subst this
        have := h2 rfl; subst this
        simp
      · rcases e2 with rfl | rfl
        · have := h2 rfl; subst this; simp
        · rcases e3 with rfl | rfl <;> simp
  · intro h k
    simp only [List.mem_cons, Addr.mk.injEq, List.not_mem_nil, or_false] at h
    rcases h with ⟨rfl, rfl, rfl, rfl⟩ | ⟨rfl, rfl, rfl, rfl⟩ | ⟨rfl, rfl, rfl, rfl⟩ | ⟨rfl, rfl, rfl, rfl⟩ | ⟨rfl, rfl, rfl, rfl⟩ <;>
    · match k with
      | 0 => simp [Addr.at, addr]
      | 1 => simp [Addr.at, addr]
      | 2 => simp [Addr.at, addr]
      | 3 => simp [Addr.at, addr]

example : Canonical ⟨.num 20, .num 1, .star, .star⟩ ∧ isParentBlock ⟨.num 20, .num 1, .star, .star⟩ (addr 20 1 5 6) = true := by
  refine ⟨⟨by simp, by simp, by simp⟩, by decide⟩

/-- With a wild card before a number the parent "block" is not the enclosing block: the parent of `1.*.3.4`
is `*.*.3.4`, which has no parent. -/
theorem C26_false_noncanonical : (⟨.num 1, .star, .num 3, .num 4⟩ : Addr).getParentBlock = some ⟨.star, .star, .num 3, .num 4⟩ ∧
    (⟨.star, .star, .num 3, .num 4⟩ : Addr).getParentBlock = none := by decide

/-- The parent of any block is a parent block of it, has one more leading position wild, and is valid. -/
theorem C26_parent_is_parent (a p : Addr) (h : a.getParentBlock = some p) :
    isParentBlock p a = true ∧ p.specified.length + 1 = a.specified.length ∧ (a.Valid → p.Valid) := by
  obtain ⟨a0, a1, a2, a3⟩ := a
  cases a0 <;> cases a1 <;> cases a2 <;> cases a3 <;>
    simp [getParentBlock, specified, parts, setStar] at h <;> subst h <;>
    simp [isParentBlock, parentLoop, parts, specified, Addr.Valid] <;> (intros; simp_all [Int.natCast_inj])

/-- C26. `spawnAddress` gives an address of the block. -/
theorem C26_spawn (b : Addr) (hb : b.Valid) (r0 r1 r2 r3 : Nat) :
    isParentBlock b (b.spawn r0 r1 r2 r3) = true ∧ mkAddress (b.spawn r0 r1 r2 r3) = .ok (b.spawn r0 r1 r2 r3) := by
  rw [valid_iff] at hb
  obtain ⟨a0, a1, a2, a3⟩ := b
  cases a0 <;> cases a1 <;> cases a2 <;> cases a3 <;>
    simp [parts, okBlock] at hb <;>
    simp [isParentBlock, parentLoop, parts, spawn, mkAddress, okNum, hb]

end Verif
