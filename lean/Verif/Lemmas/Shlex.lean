import Verif.Model.Shlex
import Verif.Spec.Shlex
/-! # Splitting a line: the loop and the grammar -/
namespace Verif.Shlex

theorem sep_iff {c : Char} : sep c = true ↔ Space c := by simp [sep, Space, or_assoc]

theorem isQuote_iff {c : Char} : isQuote c = true ↔ c = '\'' ∨ c = '"' := by simp [isQuote]

theorem more_ok {t : Str} {x : Except LexErr (List Str)} {ws : List Str} : more t x = .ok ws ↔ ∃ l, x = .ok l ∧ ws = t :: l := by
  cases x <;> simp [more, eq_comm]

/-- The rest of a word, and the words after it. -/
def Tail (cs : Str) (v : Str) (ws : List Str) : Prop := ∃ (ps : List Piece) (r : Str), cs = ps.flatMap Piece.text ++ r ∧ (∀ p ∈ ps, p.Ok) ∧
  (∀ c, r.head? = some c → Space c) ∧ Line r ws ∧ v = ps.flatMap Piece.value

/-- The rest of a word in single quotes. -/
def InS (cs : Str) (v : Str) (ws : List Str) : Prop := ∃ x cs' v', cs = x ++ '\'' :: cs' ∧ '\'' ∉ x ∧ v = x ++ v' ∧ Tail cs' v' ws

/-- The rest of a word in double quotes. -/
def InD (cs : Str) (v : Str) (ws : List Str) : Prop := ∃ (l : List Item) (cs' v' : Str), cs = l.flatMap Item.text ++ '"' :: cs' ∧ (∀ i ∈ l, i.Ok) ∧
  v = l.flatMap Item.value ++ v' ∧ Tail cs' v' ws

theorem piece_text_ne (p : Piece) : p.text ≠ [] := by cases p <;> simp [Piece.text]

/-- A piece does not begin with white space. -/
theorem piece_head {p : Piece} (h : p.Ok) {c : Char} {cs : Str} (e : p.text = c :: cs) : ¬ Space c := by
  cases p <;> simp only [Piece.text, List.cons.injEq, List.cons_append] at e
  case plain d => exact e.1 ▸ h.1
  all_goals (rw [← e.1]; simp [Space])

theorem line_nil {ws : List Str} : Line [] ws ↔ ws = [] := by
  constructor
  · intro h
    generalize hs : ([] : Str) = s at h
    cases h with
    | nil => rfl
    | cons g ps r ws hg h1 =>
      cases ps with
      | nil => exact absurd rfl h1
      | cons p ps =>
        have := congrArg List.length hs
        have h2 := List.length_pos_iff.mpr (piece_text_ne p)
        simp only [List.length_nil, List.length_append, List.flatMap_cons] at this
        omega
  · rintro rfl; exact .nil _ (by simp)

theorem line_space {c : Char} {cs : Str} {ws : List Str} (h : Space c) : Line (c :: cs) ws ↔ Line cs ws := by
  constructor
  · intro hl
    generalize hs : c :: cs = s at hl
    cases hl with
    | nil => subst hs; rename_i hg; exact .nil _ fun x hx => hg x (List.mem_cons_of_mem _ hx)
    | cons g ps r ws hg h1 h2 h3 h4 =>
      cases g with
      | nil =>
        cases ps with
        | nil => exact absurd rfl h1
        | cons p ps =>
          cases hp : p.text with
          | nil => exact absurd hp (piece_text_ne p)
          | cons d ds =>
            simp only [List.nil_append, List.flatMap_cons, hp, List.cons_append, List.cons.injEq] at hs
            exact absurd (hs.1 ▸ h) (piece_head (h2 p (List.mem_cons_self ..)) hp)
      | cons d g =>
        simp only [List.cons_append, List.cons.injEq] at hs
        rw [hs.2]
        exact .cons g ps r ws (fun x hx => hg x (List.mem_cons_of_mem _ hx)) h1 h2 h3 h4
  · intro hl
    have key : ∀ {g : Str}, (∀ x ∈ g, Space x) → ∀ x ∈ c :: g, Space x := by
      intro g hg x hx
      rcases List.mem_cons.mp hx with rfl | hx
      · exact h
      · exact hg x hx
    cases hl with
    | nil => rename_i hg; exact .nil _ (key hg)
    | cons g ps r ws hg h1 h2 h3 h4 => exact .cons (c :: g) ps r ws (key hg) h1 h2 h3 h4

theorem line_word {c : Char} {cs : Str} {ws : List Str} (h : ¬ Space c) : Line (c :: cs) ws ↔ ∃ v ws', Tail (c :: cs) v ws' ∧ ws = v :: ws' := by
  constructor
  · intro hl
    generalize hs : c :: cs = s at hl
    cases hl with
    | nil => subst hs; rename_i hg; exact absurd (hg c (List.mem_cons_self ..)) h
    | cons g ps r ws hg h1 h2 h3 h4 =>
      cases g with
      | nil => exact ⟨_, _, ⟨ps, r, rfl, h2, h3, h4, rfl⟩, rfl⟩
      | cons d g =>
        simp only [List.cons_append, List.cons.injEq] at hs
        exact absurd (hs.1 ▸ hg d (List.mem_cons_self ..)) h
  · rintro ⟨v, ws', ⟨ps, r, h0, h2, h3, h4, rfl⟩, rfl⟩
    have hne : ps ≠ [] := by
      rintro rfl
      simp only [List.flatMap_nil, List.nil_append] at h0
      exact h (h3 c (by rw [← h0]; rfl))
    rw [h0]
    exact .cons [] ps r ws' (by simp) hne h2 h3 h4

theorem tail_nil {v : Str} {ws : List Str} : Tail [] v ws ↔ v = [] ∧ ws = [] := by
  constructor
  · rintro ⟨ps, r, h0, h2, h3, h4, rfl⟩
    have h5 := List.nil_eq_append_iff.mp h0
    cases ps with
    | nil => rw [h5.2] at h4; exact ⟨rfl, line_nil.mp h4⟩
    | cons p ps => exact absurd (List.append_eq_nil_iff.mp h5.1).1 (piece_text_ne p)
  · rintro ⟨rfl, rfl⟩
    exact ⟨[], [], rfl, by simp, by simp, .nil _ (by simp), rfl⟩

/-- The first piece of a tail. -/
theorem tail_cons {c : Char} {cs v : Str} {ws : List Str} : Tail (c :: cs) v ws ↔
    (Space c ∧ v = [] ∧ Line (c :: cs) ws) ∨ ∃ p cs' v', Piece.Ok p ∧ c :: cs = p.text ++ cs' ∧ v = p.value ++ v' ∧ Tail cs' v' ws := by
  constructor
  · rintro ⟨ps, r, h0, h2, h3, h4, rfl⟩
    cases ps with
    | nil =>
      simp only [List.flatMap_nil, List.nil_append] at h0
      exact .inl ⟨h3 c (by rw [← h0]; rfl), rfl, h0 ▸ h4⟩
    | cons p ps =>
      refine .inr ⟨p, ps.flatMap Piece.text ++ r, ps.flatMap Piece.value, h2 p (List.mem_cons_self ..), ?_, by simp, ps, r, rfl,
        fun q hq => h2 q (List.mem_cons_of_mem _ hq), h3, h4, rfl⟩
      rw [h0]; simp
  · rintro (⟨h1, rfl, h2⟩ | ⟨p, cs', v', h1, h2, rfl, ps, r, h0, h3, h4, h5, rfl⟩)
    · exact ⟨[], c :: cs, rfl, by simp, fun d hd => by simp only [List.head?_cons, Option.some.injEq] at hd; exact hd ▸ h1, h2, rfl⟩
    · refine ⟨p :: ps, r, by rw [h2, h0]; simp, ?_, h4, h5, by simp⟩
      intro q hq
      rcases List.mem_cons.mp hq with rfl | hq
      · exact h1
      · exact h3 q hq

theorem tail_space {c : Char} {cs v : Str} {ws : List Str} (h : Space c) : Tail (c :: cs) v ws ↔ v = [] ∧ Line cs ws := by
  rw [tail_cons]
  constructor
  · rintro (⟨_, h1, h2⟩ | ⟨p, cs', v', h1, h2, rfl, _⟩)
    · exact ⟨h1, (line_space h).mp h2⟩
    · cases hp : p.text with
      | nil => exact absurd hp (piece_text_ne p)
      | cons d ds =>
        rw [hp] at h2
        simp only [List.cons_append, List.cons.injEq] at h2
        exact absurd (h2.1 ▸ h) (piece_head h1 hp)
  · rintro ⟨h1, h2⟩; exact .inl ⟨h, h1, (line_space h).mpr h2⟩

theorem tail_plain {c : Char} {cs v : Str} {ws : List Str} (h : (Piece.plain c).Ok) : Tail (c :: cs) v ws ↔ ∃ v', v = c :: v' ∧ Tail cs v' ws := by
  rw [tail_cons]
  constructor
  · rintro (⟨h1, _⟩ | ⟨p, cs', v', h1, h2, rfl, h3⟩)
    · exact absurd h1 h.1
    · cases p <;> simp only [Piece.text, List.cons_append, List.cons.injEq, List.nil_append] at h2
      case plain d => obtain ⟨rfl, rfl⟩ := h2; exact ⟨v', rfl, h3⟩
      case esc d => exact absurd h2.1 h.2.1
      case single s => exact absurd h2.1 h.2.2.1
      case double s => exact absurd h2.1 h.2.2.2
  · rintro ⟨v', rfl, h3⟩; exact .inr ⟨.plain c, cs, v', h, rfl, rfl, h3⟩

theorem tail_esc {cs v : Str} {ws : List Str} : Tail ('\\' :: cs) v ws ↔ ∃ c cs' v', cs = c :: cs' ∧ v = c :: v' ∧ Tail cs' v' ws := by
  rw [tail_cons]
  constructor
  · rintro (⟨h1, _⟩ | ⟨p, cs', v', h1, h2, rfl, h3⟩)
    · simp [Space] at h1
    · cases p <;> simp only [Piece.text, List.cons_append, List.cons.injEq, List.nil_append] at h2
      case plain d => exact absurd h2.1.symm h1.2.1
      case esc d => exact ⟨d, cs', v', h2.2, rfl, h3⟩
      all_goals exact absurd h2.1 (by decide)
  · rintro ⟨c, cs', v', rfl, rfl, h3⟩; exact .inr ⟨.esc c, cs', v', trivial, rfl, rfl, h3⟩

theorem tail_single {cs v : Str} {ws : List Str} : Tail ('\'' :: cs) v ws ↔ InS cs v ws := by
  rw [tail_cons]
  constructor
  · rintro (⟨h1, _⟩ | ⟨p, cs', v', h1, h2, rfl, h3⟩)
    · simp [Space] at h1
    · cases p <;> simp only [Piece.text, List.cons_append, List.cons.injEq, List.nil_append] at h2
      case plain d => exact absurd h2.1.symm h1.2.2.1
      case single s => exact ⟨s, cs', v', by rw [h2.2]; simp, h1, rfl, h3⟩
      all_goals exact absurd h2.1 (by decide)
  · rintro ⟨x, cs', v', rfl, h1, rfl, h3⟩; exact .inr ⟨.single x, cs', v', h1, by simp [Piece.text], rfl, h3⟩

theorem tail_double {cs v : Str} {ws : List Str} : Tail ('"' :: cs) v ws ↔ InD cs v ws := by
  rw [tail_cons]
  constructor
  · rintro (⟨h1, _⟩ | ⟨p, cs', v', h1, h2, rfl, h3⟩)
    · simp [Space] at h1
    · cases p <;> simp only [Piece.text, List.cons_append, List.cons.injEq, List.nil_append] at h2
      case plain d => exact absurd h2.1.symm h1.2.2.2
      case double s => exact ⟨s, cs', v', by rw [h2.2]; simp, h1, rfl, h3⟩
      all_goals exact absurd h2.1 (by decide)
  · rintro ⟨x, cs', v', rfl, h1, rfl, h3⟩; exact .inr ⟨.double x, cs', v', h1, by simp [Piece.text], rfl, h3⟩

theorem inS_nil {v : Str} {ws : List Str} : ¬ InS [] v ws := by rintro ⟨x, cs', v', h, _⟩; cases x <;> simp at h

theorem inS_close {cs v : Str} {ws : List Str} : InS ('\'' :: cs) v ws ↔ Tail cs v ws := by
  constructor
  · rintro ⟨x, cs', v', h, h1, rfl, h3⟩
    cases x with
    | nil => simp only [List.nil_append, List.cons.injEq, true_and] at h; exact h ▸ h3
    | cons d x => simp only [List.cons_append, List.cons.injEq] at h; exact absurd (h.1 ▸ List.mem_cons_self ..) h1
  · intro h; exact ⟨[], cs, v, rfl, by simp, rfl, h⟩

theorem inS_char {c : Char} {cs v : Str} {ws : List Str} (hc : c ≠ '\'') : InS (c :: cs) v ws ↔ ∃ v', v = c :: v' ∧ InS cs v' ws := by
  constructor
  · rintro ⟨x, cs', v', h, h1, rfl, h3⟩
    cases x with
    | nil => simp only [List.nil_append, List.cons.injEq] at h; exact absurd h.1 hc
    | cons d x =>
      simp only [List.cons_append, List.cons.injEq] at h
      exact ⟨x ++ v', by rw [h.1]; rfl, x, cs', v', h.2, fun hm => h1 (List.mem_cons_of_mem _ hm), rfl, h3⟩
  · rintro ⟨_, rfl, x, cs', v', rfl, h1, rfl, h3⟩
    exact ⟨c :: x, cs', v', rfl, by simp [h1, Ne.symm hc], rfl, h3⟩

theorem inD_nil {v : Str} {ws : List Str} : ¬ InD [] v ws := by
  rintro ⟨l, cs', v', h, _⟩
  have := congrArg List.length h
  simp at this

theorem inD_close {cs v : Str} {ws : List Str} : InD ('"' :: cs) v ws ↔ Tail cs v ws := by
  constructor
  · rintro ⟨l, cs', v', h, h1, rfl, h3⟩
    cases l with
    | nil => simp only [List.flatMap_nil, List.nil_append, List.cons.injEq, true_and] at h; exact h ▸ h3
    | cons i l =>
      have h2 := h1 i (List.mem_cons_self ..)
      cases i <;> simp only [Item.text, List.flatMap_cons, List.cons_append, List.cons.injEq] at h
      case plain c => exact absurd h.1.symm h2.1
      case esc c => exact absurd h.1 (by decide)
  · intro h; exact ⟨[], cs, v, rfl, by simp, rfl, h⟩

theorem inD_esc {cs v : Str} {ws : List Str} : InD ('\\' :: cs) v ws ↔ ∃ c cs' v', cs = c :: cs' ∧ v = (Item.esc c).value ++ v' ∧ InD cs' v' ws := by
  constructor
  · rintro ⟨l, cs', v', h, h1, rfl, h3⟩
    cases l with
    | nil => simp only [List.flatMap_nil, List.nil_append, List.cons.injEq] at h; exact absurd h.1 (by decide)
    | cons i l =>
      have h2 := h1 i (List.mem_cons_self ..)
      have h4 : ∀ j ∈ l, Item.Ok j := fun j hj => h1 j (List.mem_cons_of_mem _ hj)
      cases i <;> simp only [Item.text, List.flatMap_cons, List.cons_append, List.cons.injEq, List.nil_append] at h
      case plain c => exact absurd h.1.symm h2.2
      case esc c => exact ⟨c, _, l.flatMap Item.value ++ v', h.2, by simp, l, cs', v', rfl, h4, rfl, h3⟩
  · rintro ⟨c, cs', v', rfl, rfl, l, cs'', v'', rfl, h1, rfl, h3⟩
    refine ⟨.esc c :: l, cs'', v'', by simp [Item.text], ?_, by simp, h3⟩
    intro j hj
    rcases List.mem_cons.mp hj with rfl | hj
    · trivial
    · exact h1 j hj

theorem inD_char {c : Char} {cs v : Str} {ws : List Str} (hc : c ≠ '"') (hd : c ≠ '\\') : InD (c :: cs) v ws ↔ ∃ v', v = c :: v' ∧ InD cs v' ws := by
  constructor
  · rintro ⟨l, cs', v', h, h1, rfl, h3⟩
    cases l with
    | nil => simp only [List.flatMap_nil, List.nil_append, List.cons.injEq] at h; exact absurd h.1 hc
    | cons i l =>
      have h4 : ∀ j ∈ l, Item.Ok j := fun j hj => h1 j (List.mem_cons_of_mem _ hj)
      cases i <;> simp only [Item.text, List.flatMap_cons, List.cons_append, List.cons.injEq, List.nil_append] at h
      case plain d => obtain ⟨rfl, rfl⟩ := h; exact ⟨l.flatMap Item.value ++ v', rfl, l, cs', v', rfl, h4, rfl, h3⟩
      case esc d => exact absurd h.1 hd
  · rintro ⟨_, rfl, l, cs'', v'', rfl, h1, rfl, h3⟩
    refine ⟨.plain c :: l, cs'', v'', by simp [Item.text], ?_, by simp [Item.value], h3⟩
    intro j hj
    rcases List.mem_cons.mp hj with rfl | hj
    · exact ⟨hc, hd⟩
    · exact h1 j hj

/-- What the loop returns, in each state. -/
theorem lex_iff (cs : Str) :
    (∀ ws, lex .gap [] false cs = .ok ws ↔ Line cs ws) ∧
    (∀ t q ws, (t ≠ [] ∨ q = true) → (lex .word t q cs = .ok ws ↔ ∃ v ws', Tail cs v ws' ∧ ws = (t ++ v) :: ws')) ∧
    (∀ t q ws, lex (.quote '\'') t q cs = .ok ws ↔ ∃ v ws', InS cs v ws' ∧ ws = (t ++ v) :: ws') ∧
    (∀ t q ws, lex (.quote '"') t q cs = .ok ws ↔ ∃ v ws', InD cs v ws' ∧ ws = (t ++ v) :: ws') ∧
    (∀ t q ws, lex (.esc .word) t q cs = .ok ws ↔ ∃ v ws', Tail ('\\' :: cs) v ws' ∧ ws = (t ++ v) :: ws') ∧
    (∀ t ws, lex (.esc (.quote '"')) t true cs = .ok ws ↔ ∃ v ws', InD ('\\' :: cs) v ws' ∧ ws = (t ++ v) :: ws') := by
  induction cs with
  | nil =>
    refine ⟨?_, ?_, ?_, ?_, ?_, ?_⟩
    · intro ws; simp [lex, line_nil, eq_comm]
    · intro t q ws h
      simp only [lex, h, if_true, tail_nil]
      constructor
      · intro e; injection e with e; exact ⟨[], [], ⟨rfl, rfl⟩, by simp [← e]⟩
      · rintro ⟨_, _, ⟨rfl, rfl⟩, rfl⟩; simp
    · intro t q ws; simp [lex, inS_nil]
    · intro t q ws; simp [lex, inD_nil]
    · intro t q ws; simp [lex, tail_esc]
    · intro t ws; simp [lex, inD_esc]
  | cons c cs ih =>
    obtain ⟨i1, i2, i3, i4, i5, i6⟩ := ih
    have hword : ∀ t q ws, (t ≠ [] ∨ q = true) → (lex .word t q (c :: cs) = .ok ws ↔ ∃ v ws', Tail (c :: cs) v ws' ∧ ws = (t ++ v) :: ws') := by
      intro t q ws h
      rw [lex]
      by_cases h1 : sep c = true
      · have h1' := sep_iff.mp h1
        simp only [h1, if_true, h, more_ok, i1]
        constructor
        · rintro ⟨l, hl, rfl⟩; exact ⟨[], l, (tail_space h1').mpr ⟨rfl, hl⟩, by simp⟩
        · rintro ⟨v, ws', ht, rfl⟩
          obtain ⟨rfl, hl⟩ := (tail_space h1').mp ht
          exact ⟨ws', hl, by simp⟩
      · have h1' : ¬ Space c := fun hs => h1 (sep_iff.mpr hs)
        simp only [h1, if_false, Bool.false_eq_true]
        by_cases h2 : isQuote c = true
        · simp only [h2, if_true]
          rcases isQuote_iff.mp h2 with rfl | rfl
          · simp only [i3, tail_single]
          · simp only [i4, tail_double]
        · simp only [h2, if_false, Bool.false_eq_true]
          by_cases h3 : c = '\\'
          · subst h3; simp only [if_true, i5]
          · simp only [h3, if_false]
            have hn : ¬ (c = '\'' ∨ c = '"') := fun hq => h2 (isQuote_iff.mpr hq)
            have hp : (Piece.plain c).Ok := ⟨h1', h3, fun e => hn (.inl e), fun e => hn (.inr e)⟩
            rw [i2 _ _ _ (by simp)]
            simp only [tail_plain hp]
            constructor
            · rintro ⟨v, ws', ht, rfl⟩; exact ⟨c :: v, ws', ⟨v, rfl, ht⟩, by simp⟩
            · rintro ⟨_, ws', ⟨v, rfl, ht⟩, rfl⟩; exact ⟨v, ws', ht, by simp⟩
    refine ⟨?_, hword, ?_, ?_, ?_, ?_⟩
    · intro ws
      by_cases h1 : sep c = true
      · rw [lex]; simp [h1, i1, line_space (sep_iff.mp h1)]
      · have h1' : ¬ Space c := fun hs => h1 (sep_iff.mpr hs)
        rw [line_word h1', lex]
        simp only [h1, if_false, Bool.false_eq_true]
        by_cases h3 : c = '\\'
        · subst h3; simp only [if_true, i5, List.nil_append]
        · simp only [h3, if_false]
          by_cases h2 : isQuote c = true
          · simp only [h2, if_true]
            rcases isQuote_iff.mp h2 with rfl | rfl
            · simp only [i3, tail_single, List.nil_append]
            · simp only [i4, tail_double, List.nil_append]
          · simp only [h2, if_false, Bool.false_eq_true]
            have hn : ¬ (c = '\'' ∨ c = '"') := fun hq => h2 (isQuote_iff.mpr hq)
            have hp : (Piece.plain c).Ok := ⟨h1', h3, fun e => hn (.inl e), fun e => hn (.inr e)⟩
            rw [i2 _ _ _ (by simp)]
            simp only [tail_plain hp]
            constructor
            · rintro ⟨v, ws', ht, rfl⟩; exact ⟨c :: v, ws', ⟨v, rfl, ht⟩, by simp⟩
            · rintro ⟨_, ws', ⟨v, rfl, ht⟩, rfl⟩; exact ⟨v, ws', ht, by simp⟩
    · intro t q ws
      rw [lex]
      by_cases h1 : c = '\''
      · subst h1
        simp only [if_true]
        rw [i2 _ _ _ (.inr rfl)]
        simp only [inS_close]
      · simp only [h1, if_false]
        rw [if_neg (by simp)]
        rw [i3]
        simp only [inS_char h1]
        constructor
        · rintro ⟨v, ws', ht, rfl⟩; exact ⟨c :: v, ws', ⟨v, rfl, ht⟩, by simp⟩
        · rintro ⟨_, ws', ⟨v, rfl, ht⟩, rfl⟩; exact ⟨v, ws', ht, by simp⟩
    · intro t q ws
      rw [lex]
      by_cases h1 : c = '"'
      · subst h1
        simp only [if_true]
        rw [i2 _ _ _ (.inr rfl)]
        simp only [inD_close]
      · simp only [h1, if_false]
        by_cases h2 : c = '\\'
        · subst h2; simp only [and_self, if_true, i6]
        · rw [if_neg (by simp [h2]), i4]
          simp only [inD_char h1 h2]
          constructor
          · rintro ⟨v, ws', ht, rfl⟩; exact ⟨c :: v, ws', ⟨v, rfl, ht⟩, by simp⟩
          · rintro ⟨_, ws', ⟨v, rfl, ht⟩, rfl⟩; exact ⟨v, ws', ht, by simp⟩
    · intro t q ws
      rw [lex]
      case x_5 => exact (fun _ h => nomatch h)
      rw [i2 _ _ _ (by simp)]
      simp only [tail_esc]
      constructor
      · rintro ⟨v, ws', ht, rfl⟩; exact ⟨c :: v, ws', ⟨c, cs, v, rfl, rfl, ht⟩, by simp⟩
      · rintro ⟨_, ws', ⟨c', cs', v, h, rfl, ht⟩, rfl⟩
        simp only [List.cons.injEq] at h
        obtain ⟨rfl, rfl⟩ := h
        exact ⟨v, ws', ht, by simp⟩
    · intro t ws
      rw [lex]
      simp only [inD_esc]
      have key : ∀ x, x = (Item.esc c).value → ((∃ v ws', InD cs v ws' ∧ ws = (t ++ x ++ v) :: ws') ↔
          ∃ v ws', (∃ c' cs' v', c :: cs = c' :: cs' ∧ v = (Item.esc c').value ++ v' ∧ InD cs' v' ws') ∧ ws = (t ++ v) :: ws') := by
        rintro x rfl
        constructor
        · rintro ⟨v, ws', ht, rfl⟩; exact ⟨_, ws', ⟨c, cs, v, rfl, rfl, ht⟩, by simp⟩
        · rintro ⟨_, ws', ⟨c', cs', v, h, rfl, ht⟩, rfl⟩
          simp only [List.cons.injEq] at h
          obtain ⟨rfl, rfl⟩ := h
          exact ⟨v, ws', ht, by simp⟩
      by_cases h1 : c ≠ '\\' ∧ c ≠ '"'
      · rw [if_pos h1, i4]
        exact key _ (by simp [Item.value, h1.1, h1.2])
      · rw [if_neg h1, i4]
        refine key _ ?_
        have : c = '"' ∨ c = '\\' := by
          by_cases h : c = '\\'
          · exact .inr h
          · exact .inl (Classical.byContradiction fun h' => h1 ⟨h, h'⟩)
        simp [Item.value, this]

end Verif.Shlex
