import Verif.Spec.Format
import Verif.Lemmas.Dict
/-! # C109: log records with special data -/
namespace Verif.Format

theorem fmt_lit (get : Str → Option Str) (c : Char) (hc : c ≠ '%') (r : Str) : fmt get .text (c :: r) = (fmt get .text r).map (c :: ·) := by
  simp [fmt, hc]

theorem fmt_key (get : Str → Option Str) {k : Str} (h : Balanced k) : ∀ (d : Nat) (acc r : Str), fmt get (.key (d + 1) acc) (k ++ r) = fmt get (.key (d + 1) (acc ++ k)) r := by
  induction h with
  | nil => intro d acc r; simp
  | char c k h1 h2 _ ih =>
    intro d acc r
    have step : fmt get (.key (d + 1) acc) (c :: (k ++ r)) = fmt get (.key (d + 1) (acc ++ [c])) (k ++ r) := by
      simp [fmt, h1, h2]
    rw [List.cons_append, step, ih]
    simp
  | paren b k _ _ ihb ihk =>
    intro d acc r
    have e : '(' :: (b ++ ')' :: k) ++ r = '(' :: (b ++ (')' :: (k ++ r))) := by simp
    rw [e, fmt, ihb, fmt, if_neg (by omega), show d + 1 + 1 - 1 = d + 1 from rfl, ihk]
    simp

theorem fmt_field_get (get : Str → Option Str) {k : Str} (h : Balanced k) (r : Str) :
    fmt get .text ("%(".toList ++ k ++ ")s".toList ++ r) = match get k with
      | none => none
      | some v => (fmt get .text r).map (v ++ ·) := by
  have : "%(".toList ++ k ++ ")s".toList ++ r = '%' :: '(' :: (k ++ (')' :: 's' :: r)) := by simp
  rw [this, fmt, fmt, fmt_key get h 0, fmt, if_pos rfl, List.nil_append, fmt]
  cases get k <;> rfl

theorem fmt_field (get : Str → Option Str) (k r : Str) (h : Balanced k) (v : Str) (hv : get k = some v) :
    fmt get .text ("%(".toList ++ k ++ ")s".toList ++ r) = (fmt get .text r).map (v ++ ·) := by
  rw [fmt_field_get get h, hv]

/-- A field without a value: it raises. -/
theorem fmt_missing (get : Str → Option Str) (k : Str) (hk : get k = none) : ∀ l : List Tok, (∀ t ∈ l, t.Ok) → Tok.field k ∈ l → fmt get .text (text l) = none
  | [], _, h => by cases h
  | t :: l, h, hf => by
    have ht := h t (List.mem_cons_self ..)
    have e1 : text (t :: l) = t.text ++ text l := rfl
    rw [e1]
    have ih : Tok.field k ∈ l → fmt get .text (text l) = none := fmt_missing get k hk l fun x hx => h x (List.mem_cons_of_mem _ hx)
    cases t with
    | lit c =>
      have hm : Tok.field k ∈ l := by simpa using hf
      show fmt _ _ (c :: text l) = _; rw [fmt_lit _ c ht, ih hm]; rfl
    | percent =>
      have hm : Tok.field k ∈ l := by simpa using hf
      show fmt _ _ ('%' :: '%' :: text l) = _; rw [fmt, fmt, ih hm]; rfl
    | field k' =>
      show fmt _ _ ("%(".toList ++ k' ++ ")s".toList ++ text l) = _
      rw [fmt_field_get _ ht]
      cases hv : get k' with
      | none => rfl
      | some v =>
        have hm : Tok.field k ∈ l := by
          rcases List.mem_cons.1 hf with e | hm
          · cases e; rw [hk] at hv; cases hv
          · exact hm
        dsimp only
        rw [ih hm]; rfl

theorem partialGet_says (d : Dict Str Str) (k : Str) : partialGet d k = some (Tok.says d.get (.field k)) := by
  unfold partialGet; cases h : d.get k <;> simp [Tok.says, h]

theorem fmt_says (d : Dict Str Str) : ∀ l : List Tok, (∀ t ∈ l, t.Ok) → fmt (partialGet d) .text (text l) = some (says d.get l)
  | [], _ => by simp [text, says, fmt]
  | t :: l, h => by
    have ht := h t (List.mem_cons_self ..)
    have ih := fmt_says d l fun x hx => h x (List.mem_cons_of_mem _ hx)
    have e1 : text (t :: l) = t.text ++ text l := rfl
    have e2 : says d.get (t :: l) = Tok.says d.get t ++ says d.get l := rfl
    rw [e1, e2]
    cases t with
    | lit c => show fmt _ _ (c :: text l) = _; rw [fmt_lit _ c ht, ih]; rfl
    | percent => show fmt _ _ ('%' :: '%' :: text l) = _; rw [fmt, fmt, ih]; rfl
    | field k =>
      show fmt _ _ ("%(".toList ++ k ++ ")s".toList ++ text l) = _
      rw [fmt_field _ k _ ht _ (partialGet_says d k), ih]
      rfl

theorem fmt_args (a : Dict Str Str) : ∀ l : List Tok, (∀ t ∈ l, t.Ok) → (∀ k, Tok.field k ∈ l → a.get k ≠ none) → fmt a.get .text (text l) = some (says a.get l)
  | [], _, _ => by simp [text, says, fmt]
  | t :: l, h, hf => by
    have ht := h t (List.mem_cons_self ..)
    have ih := fmt_args a l (fun x hx => h x (List.mem_cons_of_mem _ hx)) fun k hk => hf k (List.mem_cons_of_mem _ hk)
    have e1 : text (t :: l) = t.text ++ text l := rfl
    have e2 : says a.get (t :: l) = Tok.says a.get t ++ says a.get l := rfl
    rw [e1, e2]
    cases t with
    | lit c => show fmt _ _ (c :: text l) = _; rw [fmt_lit _ c ht, ih]; rfl
    | percent => show fmt _ _ ('%' :: '%' :: text l) = _; rw [fmt, fmt, ih]; rfl
    | field k =>
      show fmt _ _ ("%(".toList ++ k ++ ")s".toList ++ text l) = _
      cases hv : a.get k with
      | none => exact absurd hv (hf k (List.mem_cons_self ..))
      | some v =>
        rw [fmt_field _ k _ ht v hv, ih]
        simp [Tok.says, hv]

/-- The message after the special fields are filled in. -/
def subst (d : Dict Str Str) (l : List Tok) : List Tok := l.flatMap fun t => match t with
  | .field k => (match d.get k with
    | some v => v.map Tok.lit
    | none => [.field k])
  | t => [t]

theorem says_lits (f : Str → Option Str) (v : Str) : says f (v.map Tok.lit) = v := by
  induction v with
  | nil => rfl
  | cons c v ih => show c :: says f (v.map Tok.lit) = _; rw [ih]

theorem text_lits (v : Str) : text (v.map Tok.lit) = v := by
  induction v with
  | nil => rfl
  | cons c v ih => show c :: text (v.map Tok.lit) = _; rw [ih]

theorem says_append (f : Str → Option Str) (a b : List Tok) : says f (a ++ b) = says f a ++ says f b := by simp [says]
theorem text_append (a b : List Tok) : text (a ++ b) = text a ++ text b := by simp [text]

theorem subst_cons (d : Dict Str Str) (t : Tok) (l : List Tok) : subst d (t :: l) = subst d [t] ++ subst d l := by simp [subst]

theorem subst_text (d : Dict Str Str) : ∀ l : List Tok, NoPercent l → text (subst d l) = says d.get l
  | [], _ => rfl
  | t :: l, h => by
    have ih := subst_text d l fun hm => h (List.mem_cons_of_mem _ hm)
    rw [subst_cons, text_append, ih]
    show _ = Tok.says d.get t ++ says d.get l
    congr 1
    cases t with
    | lit c => rfl
    | percent => exact absurd (List.mem_cons_self ..) h
    | field k =>
      cases hv : d.get k with
      | some v => simp [subst, hv, Tok.says, text_lits]
      | none => simp [subst, hv, Tok.says, text, Tok.text]

theorem subst_says (d a : Dict Str Str) : ∀ l : List Tok, says a.get (subst d l) = says (fun k => (d.get k).or (a.get k)) l
  | [] => rfl
  | t :: l => by
    rw [subst_cons, says_append, subst_says d a l]
    show _ = Tok.says _ t ++ says _ l
    congr 1
    cases t with
    | lit c => rfl
    | percent => rfl
    | field k =>
      cases hv : d.get k with
      | some v => simp [subst, hv, Tok.says, says_lits]
      | none => simp [subst, hv, Tok.says, says]

theorem subst_ok (d : Dict Str Str) (hd : Plain d) (l : List Tok) (h : ∀ t ∈ l, t.Ok) : ∀ t ∈ subst d l, t.Ok := by
  intro t ht
  obtain ⟨x, hx, hm⟩ := List.mem_flatMap.1 ht
  cases x with
  | lit c => simp only [List.mem_singleton] at hm; rw [hm]; exact h _ hx
  | percent => simp only [List.mem_singleton] at hm; rw [hm]; exact h _ hx
  | field k =>
    cases hv : d.get k with
    | some v =>
      simp only [hv, List.mem_map] at hm
      obtain ⟨c, hc, rfl⟩ := hm
      exact fun e => hd k v hv (e ▸ hc)
    | none =>
      simp only [hv, List.mem_singleton] at hm
      rw [hm]; exact h _ hx

theorem subst_field (d : Dict Str Str) (l : List Tok) (k : Str) (h : Tok.field k ∈ subst d l) : Tok.field k ∈ l ∧ d.get k = none := by
  obtain ⟨x, hx, hm⟩ := List.mem_flatMap.1 h
  cases x with
  | lit c => simp at hm
  | percent => simp at hm
  | field k' =>
    cases hv : d.get k' with
    | some v => simp [hv] at hm
    | none =>
      simp only [hv, List.mem_singleton, Tok.field.injEq] at hm
      subst hm
      exact ⟨hx, hv⟩

/-- C109. The first handler writes the message with the special data in their fields; unknown fields stay. -/
theorem C109_first (l : List Tok) (hl : ∀ t ∈ l, t.Ok) (d : Dict Str Str) : (format ⟨text l, [], some d⟩).2 = some (says d.get l) := by
  simp [format, fmt_says d l hl, message]

theorem says_self (d : Dict Str Str) (l : List Tok) : says (fun k => (d.get k).or (d.get k)) l = says d.get l := by
  congr 1
  funext k
  cases d.get k <;> rfl

theorem fixed (d : Dict Str Str) (hd : Plain d) (l : List Tok) (hl : ∀ t ∈ l, t.Ok) (hp : NoPercent l) :
    fmt (partialGet d) .text (says d.get l) = some (says d.get l) := by
  rw [← subst_text d l hp, fmt_says d _ (subst_ok d hd l hl), subst_says, says_self, subst_text d l hp]

/-- C109. All handlers write this, if there is no doubled percent sign in the message and no percent sign in the data. -/
theorem C109_all_partial (l : List Tok) (hl : ∀ t ∈ l, t.Ok) (hp : NoPercent l) (d : Dict Str Str) (hd : Plain d) (n : Nat) :
    handlers n ⟨text l, [], some d⟩ = List.replicate n (some (says d.get l)) := by
  have key : ∀ n, handlers n ⟨says d.get l, [], some d⟩ = List.replicate n (some (says d.get l)) := by
    intro n
    induction n with
    | zero => rfl
    | succ n ih =>
      have : format ⟨says d.get l, [], some d⟩ = (⟨says d.get l, [], some d⟩, some (says d.get l)) := by simp [format, fixed d hd l hl hp, message]
      rw [handlers, this, ih]
      rfl
  cases n with
  | zero => rfl
  | succ n =>
    have : format ⟨text l, [], some d⟩ = (⟨says d.get l, [], some d⟩, some (says d.get l)) := by simp [format, fmt_says d l hl, message]
    rw [handlers, this, key]
    rfl

/-- C109. With arguments as well, they fill in the fields that the special data leave, if they have all of these. -/
theorem C109_args_partial (l : List Tok) (hl : ∀ t ∈ l, t.Ok) (hp : NoPercent l) (d : Dict Str Str) (hd : Plain d) (a : Dict Str Str) (ha : a ≠ [])
    (hf : ∀ k, Tok.field k ∈ l → d.get k = none → a.get k ≠ none) (n : Nat) :
    handlers n ⟨text l, a, some d⟩ = List.replicate n (some (says (fun k => (d.get k).or (a.get k)) l)) := by
  have hm : ∀ m, message ⟨says d.get l, a, m⟩ = some (says (fun k => (d.get k).or (a.get k)) l) := by
    intro m
    unfold message
    rw [if_neg ha]
    dsimp only
    rw [← subst_text d l hp, fmt_args a _ (subst_ok d hd l hl) (fun k hk => hf k (subst_field d l k hk).1 (subst_field d l k hk).2), subst_says]
  have key : ∀ n, handlers n ⟨says d.get l, a, some d⟩ = List.replicate n (some (says (fun k => (d.get k).or (a.get k)) l)) := by
    intro n
    induction n with
    | zero => rfl
    | succ n ih =>
      have : format ⟨says d.get l, a, some d⟩ = (⟨says d.get l, a, some d⟩, some (says (fun k => (d.get k).or (a.get k)) l)) := by
        simp [format, fixed d hd l hl hp, hm]
      rw [handlers, this, ih]
      rfl
  cases n with
  | zero => rfl
  | succ n =>
    have : format ⟨text l, a, some d⟩ = (⟨says d.get l, a, some d⟩, some (says (fun k => (d.get k).or (a.get k)) l)) := by simp [format, fmt_says d l hl, hm]
    rw [handlers, this, key]
    rfl

/-- C109. Without special data all handlers write the same. -/
theorem C109_ordinary (r : Record) (hr : r.special = none) (n : Nat) : handlers n r = List.replicate n (message r) := by
  induction n with
  | zero => rfl
  | succ n ih =>
    have : format r = (r, message r) := by simp [format, hr]
    rw [handlers, this, ih]
    rfl

def exD : Dict Str Str := [("x".toList, "data".toList)]

/-- That all handlers write the same is false: a doubled percent sign is undone by every handler, so that the second one raises or fills in what was no field; and so
does a percent sign in the data. -/
theorem C109_false_percent : handlers 2 ⟨text [.percent, .lit ' ', .field "x".toList], [], some exD⟩ = [some "% data".toList, none] ∧
    handlers 2 ⟨text [.percent, .lit '(', .lit 'x', .lit ')', .lit 's'], [], some exD⟩ = [some "%(x)s".toList, some "data".toList] ∧
    handlers 2 ⟨text [.field "x".toList], [], some [("x".toList, "5% ".toList)]⟩ = [some "5% ".toList, none] := by
  refine ⟨?_, ?_, ?_⟩ <;> decide +kernel

/-- With arguments it is false even for one handler: the doubled percent sign that an ordinary record needs makes a special one raise. -/
theorem C109_false_args : handlers 1 ⟨text [.percent, .lit ' ', .field "y".toList], [("y".toList, "1".toList)], some exD⟩ = [none] ∧
    handlers 1 ⟨text [.percent, .lit ' ', .field "y".toList], [("y".toList, "1".toList)], none⟩ = [some "% 1".toList] := by
  constructor <;> decide +kernel

def exL : List Tok := [.lit '<', .field "x".toList, .lit '>', .field "y".toList]
example : (∀ t ∈ exL, t.Ok) ∧ NoPercent exL ∧ Plain exD := by
  refine ⟨fun t ht => ?_, by unfold NoPercent; decide, fun k v h => ?_⟩
  · simp only [exL, List.mem_cons, List.not_mem_nil, or_false] at ht
    rcases ht with rfl | rfl | rfl | rfl
    · simp [Tok.Ok]
    · exact .char 'x' _ (by decide) (by decide) .nil
    · simp [Tok.Ok]
    · exact .char 'y' _ (by decide) (by decide) .nil
  · unfold exD at h
    have := Dict.mem_of_get h
    simp only [List.mem_singleton, Prod.mk.injEq] at this
    rw [this.2]; decide
example : text exL = "<%(x)s>%(y)s".toList := by decide +kernel
example : handlers 3 ⟨text exL, [], some exD⟩ = [some "<data>%(y)s".toList, some "<data>%(y)s".toList, some "<data>%(y)s".toList] := by decide +kernel
example : handlers 2 ⟨text exL, [("y".toList, "1".toList)], some exD⟩ = [some "<data>1".toList, some "<data>1".toList] := by decide +kernel

/-- C109. A record without special data that has arguments, but none for one of its fields: no handler writes it. -/
theorem C109_missing (l : List Tok) (hl : ∀ t ∈ l, t.Ok) (a : Dict Str Str) (ha : a ≠ []) (k : Str) (hk : Tok.field k ∈ l) (h : a.get k = none) (n : Nat) :
    handlers n ⟨text l, a, none⟩ = List.replicate n none := by
  rw [C109_ordinary _ rfl]
  congr 1
  simp only [message, ha, if_false]
  exact fmt_missing _ k h l hl hk

/-- C109. With special data: if neither it nor the arguments have a value for a field, the first handler writes nothing. -/
theorem C109_missing_special (l : List Tok) (hl : ∀ t ∈ l, t.Ok) (hp : NoPercent l) (d : Dict Str Str) (hd : Plain d) (a : Dict Str Str) (ha : a ≠ []) (k : Str)
    (hk : Tok.field k ∈ l) (h1 : d.get k = none) (h2 : a.get k = none) : (format ⟨text l, a, some d⟩).2 = none := by
  simp only [format, fmt_says d l hl, message, ha, if_false]
  rw [← subst_text d l hp]
  refine fmt_missing _ k h2 _ (subst_ok d hd l hl) (List.mem_flatMap.2 ⟨_, hk, ?_⟩)
  simp [h1]

example : handlers 2 ⟨text exL, [("x".toList, "1".toList)], none⟩ = [none, none] := by decide +kernel
/-- A name with parentheses in it. -/
example : Tok.Ok (.field "f(x)".toList) ∧ (format ⟨text [.field "f(x)".toList], [], some [("f(x)".toList, "1".toList)]⟩).2 = some "1".toList :=
  ⟨.char 'f' _ (by decide) (by decide) (.paren ['x'] [] (.char 'x' _ (by decide) (by decide) .nil) .nil), by decide +kernel⟩

end Verif.Format
