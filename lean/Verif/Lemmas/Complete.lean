import Verif.Spec.Complete
import Verif.Lemmas.ShellInv
/-! # Lemmas: completion -/
namespace Verif.Shell

/-! ## Names without blanks -/

/-- No blanks, and every name once. -/
structure Plain (s : St) : Prop where
  txt : ∀ o, ' ' ∉ (s.obj o).txt
  cmds : Dict.WF s.commands
  cmd : ∀ k ∈ s.commands.keys, ' ' ∉ k
  subs : ∀ o, Dict.WF (s.obj o).subs
  sub : ∀ o, ∀ k ∈ (s.obj o).subs.keys, ' ' ∉ k

theorem Plain.still {s s' : St} (hp : Plain s) (h1 : s'.obj = s.obj) (h2 : s'.commands = s.commands) : Plain s' :=
  ⟨by rw [h1]; exact hp.txt, by rw [h2]; exact hp.cmds, by rw [h2]; exact hp.cmd, by rw [h1]; exact hp.subs, by rw [h1]; exact hp.sub⟩

theorem keys_set_blank {d : Dict Str Nat} {k : Str} {v : Nat} (h : ∀ x ∈ d.keys, ' ' ∉ x) (hk : ' ' ∉ k) : ∀ x ∈ (d.set k v).keys, ' ' ∉ x := by
  intro x hx
  obtain ⟨w, hw⟩ := Dict.mem_keys_iff.mp hx
  rw [Dict.get_set] at hw
  by_cases e : k = x
  · subst e; exact hk
  · rw [if_neg e] at hw
    exact h x (Dict.mem_keys_iff.mpr ⟨w, hw⟩)

theorem Plain.upd {s : St} (hp : Plain s) (i : Nat) (x : Obj) (h1 : ' ' ∉ x.txt) (h2 : Dict.WF x.subs) (h3 : ∀ k ∈ x.subs.keys, ' ' ∉ k) :
    Plain { s with obj := upd s.obj i x } := by
  refine ⟨?_, hp.cmds, hp.cmd, ?_, ?_⟩ <;> intro o <;> simp only [Shell.upd] <;> split
  · exact h1
  · exact hp.txt o
  · exact h2
  · exact hp.subs o
  · exact h3
  · exact hp.sub o

theorem Plain.alloc {s : St} (hp : Plain s) (x : Obj) (h1 : ' ' ∉ x.txt) (h2 : x.subs = []) : Plain (alloc s x) :=
  (hp.upd s.nObj x h1 (by rw [h2]; exact Dict.WF.nil) (by rw [h2]; simp)).still rfl rfl

theorem Plain.add {s : St} (hp : Plain s) (o : Nat) : Plain (addCommand s o) := by
  unfold addCommand
  dsimp only
  by_cases hc : s.commands.has (s.obj o).txt = true
  · rw [if_pos hc]; exact hp.still rfl rfl
  · rw [if_neg hc]
    have h1 : Plain { s with commands := s.commands.set (s.obj o).txt o } :=
      ⟨hp.txt, hp.cmds.set _ _, keys_set_blank hp.cmd (hp.txt o), hp.subs, hp.sub⟩
    have h2 := h1.alloc ⟨(s.obj o).txt, .single, some ⟨.help (some (s.obj o).txt), none⟩, [], [], false⟩ (hp.txt o) rfl
    exact h2.upd 0 _ (h2.txt 0) ((h2.subs 0).set _ _) (keys_set_blank (h2.sub 0) (hp.txt o))

theorem Plain.init : Plain .init := by
  have h0 : Plain ⟨0, fun _ => noObj, [], 0, fun _ => ⟨[], .over⟩, [], []⟩ :=
    ⟨fun _ => by simp [noObj], Dict.WF.nil, by simp, fun _ => Dict.WF.nil, fun _ => by simp [noObj]⟩
  exact ((((((h0.alloc ⟨"help".toList, .sub, some ⟨.help none, none⟩, [], [], false⟩ (by decide) rfl).alloc
    ⟨"batch".toList, .standard, none, [(1, ⟨.batch, none⟩)], [], false⟩ (by decide) rfl).alloc
    ⟨"quit".toList, .standard, some ⟨.quit, none⟩, [], [], false⟩ (by decide) rfl).add 0).add 1).add 2)

theorem Plain.step {s : St} (hp : Plain s) (e : Ev) (he : OneWord e) : Plain (step s e) := by
  cases e with
  | new txt mode dflt =>
    simp only [Shell.step]
    split
    · exact hp.still rfl rfl
    · exact hp.alloc _ he rfl
  | configure o n p =>
    simp only [Shell.step]
    split
    · unfold Shell.configure
      split
      · exact hp.still rfl rfl
      · split
        · exact hp.still rfl rfl
        · split
          · exact hp.still rfl rfl
          · exact hp.upd o _ (hp.txt o) (hp.subs o) (hp.sub o)
    · exact hp
  | configureSub o o' =>
    simp only [Shell.step]
    split
    · unfold Shell.configureSub
      split
      · exact hp.still rfl rfl
      · split
        · exact hp.still rfl rfl
        · exact hp.upd o _ (hp.txt o) ((hp.subs o).set _ _) (keys_set_blank (hp.sub o) (hp.txt o'))
    · exact hp
  | register o =>
    simp only [Shell.step]
    split
    · unfold Shell.register
      split
      · exact hp.still rfl rfl
      · exact hp.add o
    · exact hp
  | line l e => exact hp.still (frame_line e s l).obj (frame_line e s l).commands
  | done n ok =>
    simp only [Shell.step]
    split
    · exact hp
    · exact hp.still rfl rfl
  | run t e =>
    simp only [Shell.step]
    split
    · exact hp.still (still_run e s t).obj (still_run e s t).commands
    · exact hp

theorem Plain.exec {s : St} (hp : Plain s) (h : List Ev) (hh : ∀ e ∈ h, OneWord e) : Plain (exec s h) := by
  induction h generalizing s with
  | nil => exact hp
  | cons e h ih => exact ih (hp.step e (hh e (by simp))) (fun x hx => hh x (by simp [hx]))

/-! ## The loop over the names -/

/-- The first blank. -/
theorem first_blank (t : Str) : ' ' ∉ t ∨ ∃ w r, t = w ++ ' ' :: r ∧ ' ' ∉ w := by
  induction t with
  | nil => left; simp
  | cons c t ih =>
    by_cases hc : c = ' '
    · right; exact ⟨[], t, by simp [hc], by simp⟩
    · rcases ih with h | ⟨w, r, h1, h2⟩
      · left; simp [h, Ne.symm hc]
      · right; exact ⟨c :: w, r, by simp [h1], by simp [h2, Ne.symm hc]⟩

theorem blank_split {w w' r r' : Str} (hw : ' ' ∉ w) (hw' : ' ' ∉ w') (h : w ++ ' ' :: r = w' ++ ' ' :: r') : w = w' ∧ r = r' := by
  induction w generalizing w' with
  | nil =>
    cases w' with
    | nil => simp at h; exact ⟨rfl, h⟩
    | cons c w' => simp at h; simp [← h.1] at hw'
  | cons c w ih =>
    cases w' with
    | nil => simp at h; simp [h.1] at hw
    | cons c' w' =>
      simp at h hw hw'
      obtain ⟨a, b⟩ := ih hw.2 hw'.2 h.2
      exact ⟨by rw [h.1, a], b⟩

theorem keyLoop_word (down : Nat → Str → Cand) (t : Str) (state : Nat) (ht : ' ' ∉ t) (d : Dict Str Nat) (i : Nat) (hi : i ≤ state) :
    shown (keyLoop down t state d i) = (d.keys.filter (t.isPrefixOf ·))[state - i]? := by
  induction d generalizing i with
  | nil => simp [keyLoop, shown]
  | cons x d ih =>
    obtain ⟨k, o⟩ := x
    have hk : ¬ (k ++ [' ']).isPrefixOf t = true := by
      intro h
      obtain ⟨r, hr⟩ := List.isPrefixOf_iff_prefix.mp h
      apply ht; rw [← hr]; simp
    rw [keyLoop, if_neg hk, Dict.keys_cons]
    by_cases hp : t.isPrefixOf k = true
    · rw [if_pos hp, List.filter_cons_of_pos (by simpa using hp)]
      by_cases e : i = state
      · rw [if_pos e]; subst e; simp [shown]
      · rw [if_neg e, ih (i + 1) (by omega)]
        have : state - i = (state - (i + 1)) + 1 := by omega
        rw [this, List.getElem?_cons_succ]
    · rw [if_neg hp, List.filter_cons_of_neg (by simpa using hp), ih i hi]

theorem keyLoop_down (down : Nat → Str → Cand) (w r : Str) (state : Nat) (hw : ' ' ∉ w) (d : Dict Str Nat) (hd : ∀ k ∈ d.keys, ' ' ∉ k) (i : Nat) :
    keyLoop down (w ++ ' ' :: r) state d i = match d.get w with
      | some o => glue (w ++ [' ']) (down o r)
      | none => .nothing := by
  induction d generalizing i with
  | nil => simp [keyLoop]
  | cons x d ih =>
    obtain ⟨k, o⟩ := x
    have hk : ' ' ∉ k := hd k (by simp)
    have ih := ih (fun x hx => hd x (by simp [hx]))
    rw [keyLoop]
    by_cases e : k = w
    · subst e
      rw [if_pos (List.isPrefixOf_iff_prefix.mpr ⟨r, by simp⟩)]
      simp [Dict.get]
    · rw [if_neg, if_neg, ih i]
      · simp [Dict.get, e]
      · intro h
        obtain ⟨q, hq⟩ := List.isPrefixOf_iff_prefix.mp h
        apply hk; rw [← hq]; simp
      · intro h
        obtain ⟨q, hq⟩ := List.isPrefixOf_iff_prefix.mp h
        exact e (blank_split hk hw (by simpa using hq)).1

/-! ## Paths -/

theorem Path.key {s : St} {d : Dict Str Nat} {c : Str} {o : Nat} (h : Path s d c o) (hc : ' ' ∉ c) : c ∈ d.keys := by
  cases h with
  | last d k o h => exact Dict.mem_keys_iff.mpr ⟨_, h⟩
  | down d k o c o' h => simp at hc

theorem Path.cut {s : St} {d : Dict Str Nat} {w r : Str} {o : Nat} (h : Path s d (w ++ ' ' :: r) o) (hd : ∀ k ∈ d.keys, ' ' ∉ k) (hw : ' ' ∉ w) :
    ∃ o', d.get w = some o' ∧ (s.obj o').mode = .sub ∧ Path s (s.obj o').subs r o := by
  generalize hc : w ++ ' ' :: r = c at h
  cases h with
  | last d k o h =>
    have := hd _ (Dict.mem_keys_iff.mpr ⟨_, h⟩)
    rw [← hc] at this; simp at this
  | down d k o c o' h hm hp =>
    obtain ⟨a, b⟩ := blank_split hw (hd k (Dict.mem_keys_iff.mpr ⟨_, h⟩)) hc
    subst a; subst b
    exact ⟨o, h, hm, hp⟩

/-- What a level offers. -/
def Exact (s : St) (d : Dict Str Nat) (t : Str) (L : List Str) : Prop :=
  L.Nodup ∧ ∀ c, c ∈ L ↔ (∃ o, Path s d c o) ∧ t <+: c ∧ c.count ' ' = t.count ' '

theorem count_zero {t : Str} : t.count ' ' = 0 ↔ ' ' ∉ t := List.count_eq_zero

theorem shown_glue (p : Str) (c : Cand) : shown (glue p c) = (shown c).map (p ++ ·) := by cases c <;> rfl

theorem offers_glue {f : Nat → Cand} {L : List Str} (h : Offers f L) (p : Str) : Offers (fun n => glue p (f n)) (L.map (p ++ ·)) := by
  intro n; rw [shown_glue, h n, List.getElem?_map]

theorem exact_down {s : St} {d : Dict Str Nat} {w r : Str} {o : Nat} {L : List Str} (hd : ∀ k ∈ d.keys, ' ' ∉ k) (hw : ' ' ∉ w) (ho : d.get w = some o) (hm : (s.obj o).mode = .sub)
    (h : Exact s (s.obj o).subs r L) : Exact s d (w ++ ' ' :: r) (L.map ((w ++ [' ']) ++ ·)) := by
  refine ⟨?_, ?_⟩
  · refine (List.pairwise_map).mpr (h.1.imp ?_)
    intro a b hab e; exact hab (List.append_cancel_left e)
  · intro c
    rw [List.mem_map]
    constructor
    · rintro ⟨x, hx, rfl⟩
      obtain ⟨⟨o', hp⟩, ⟨q, hq⟩, hn⟩ := (h.2 x).mp hx
      refine ⟨⟨o', ?_⟩, ⟨q, by simp [← hq]⟩, ?_⟩
      · have := Path.down d w o x o' ho hm hp
        simpa using this
      · simp [hn]
    · rintro ⟨⟨o', hp⟩, ⟨q, hq⟩, hn⟩
      refine ⟨r ++ q, ?_, by simp [← hq]⟩
      have hc : c = w ++ ' ' :: (r ++ q) := by simp [← hq]
      subst hc
      obtain ⟨o'', h1, h2, h3⟩ := hp.cut hd hw
      rw [ho] at h1; cases h1
      refine (h.2 _).mpr ⟨⟨o', h3⟩, ⟨q, rfl⟩, ?_⟩
      simp at hn ⊢; exact hn

theorem exact_word {s : St} {d : Dict Str Nat} {t : Str} (hd : ∀ k ∈ d.keys, ' ' ∉ k) (hw : Dict.WF d) (ht : ' ' ∉ t) : Exact s d t (d.keys.filter (t.isPrefixOf ·)) := by
  refine ⟨List.Nodup.sublist List.filter_sublist hw, ?_⟩
  intro c
  rw [List.mem_filter, count_zero.mpr ht, count_zero]
  constructor
  · rintro ⟨h1, h2⟩
    obtain ⟨o, ho⟩ := Dict.mem_keys_iff.mp h1
    exact ⟨⟨o, .last d c o ho⟩, List.isPrefixOf_iff_prefix.mp h2, hd c h1⟩
  · rintro ⟨⟨o, ho⟩, h2, h3⟩
    exact ⟨ho.key h3, List.isPrefixOf_iff_prefix.mpr h2⟩

theorem exact_none {s : St} {d : Dict Str Nat} {w r : Str} (hd : ∀ k ∈ d.keys, ' ' ∉ k) (hw : ' ' ∉ w) (ho : d.get w = none) : Exact s d (w ++ ' ' :: r) [] := by
  refine ⟨List.nodup_nil, ?_⟩
  intro c
  simp only [List.not_mem_nil, false_iff, not_and]
  rintro ⟨o, hp⟩ ⟨q, hq⟩
  have hc : c = w ++ ' ' :: (r ++ q) := by simp [← hq]
  subst hc
  obtain ⟨o', h1, _⟩ := hp.cut hd hw
  rw [ho] at h1; cases h1

theorem InArgs.cut {s : St} {d : Dict Str Nat} {w r p a : Str} (h : InArgs s d (w ++ ' ' :: r) p a) (hd : ∀ k ∈ d.keys, ' ' ∉ k) (hw : ' ' ∉ w) :
    ∃ o, d.get w = some o ∧ (((s.obj o).mode ≠ .sub ∧ p = w ++ [' '] ∧ a = r) ∨ ((s.obj o).mode = .sub ∧ ∃ p', p = w ++ ' ' :: p' ∧ InArgs s (s.obj o).subs r p' a)) := by
  generalize hc : w ++ ' ' :: r = c at h
  cases h with
  | here d k o r' h hm =>
    obtain ⟨a, b⟩ := blank_split hw (hd k (Dict.mem_keys_iff.mpr ⟨_, h⟩)) hc
    subst a; subst b
    exact ⟨o, h, .inl ⟨hm, rfl, rfl⟩⟩
  | down d k o t p r' h hm hp =>
    obtain ⟨a, b⟩ := blank_split hw (hd k (Dict.mem_keys_iff.mpr ⟨_, h⟩)) hc
    subst a; subst b
    exact ⟨o, h, .inr ⟨hm, p, rfl, hp⟩⟩

/-- A level: names of commands, or the arguments of one. -/
theorem level {s : St} (fs : Files) (hs : Plain s) (n : Nat) (d : Dict Str Nat) (hd : ∀ k ∈ d.keys, ' ' ∉ k) (hw : Dict.WF d) (t : Str) (hn : t.length ≤ n) :
    ((∀ p r, ¬ InArgs s d t p r) → ∃ L, Exact s d t L ∧ Offers (fun i => keyLoop (complete fs s i n) t i d 0) L) ∧
    (∀ p r L, InArgs s d t p r → Offers (completeArgs fs r) L → Offers (fun i => keyLoop (complete fs s i n) t i d 0) (L.map (p ++ ·))) := by
  induction n generalizing d t with
  | zero =>
    have : t = [] := List.length_eq_zero_iff.mp (by omega)
    subst this
    refine ⟨fun _ => ⟨_, exact_word hd hw (by simp), ?_⟩, ?_⟩
    · intro i; exact keyLoop_word _ _ i (by simp) d 0 (by omega)
    · intro p r L h
      generalize hc : ([] : Str) = c at h
      cases h <;> simp at hc
  | succ n ih =>
    rcases first_blank t with ht | ⟨w, r, rfl, hw'⟩
    · refine ⟨fun _ => ⟨_, exact_word hd hw ht, ?_⟩, ?_⟩
      · intro i; exact keyLoop_word _ _ i ht d 0 (by omega)
      · intro p r L h
        cases h <;> simp at ht
    · have hlen : r.length ≤ n := by simp at hn; omega
      cases ho : d.get w with
      | none =>
        refine ⟨fun _ => ⟨_, exact_none hd hw' ho, ?_⟩, ?_⟩
        · intro i; dsimp only; rw [keyLoop_down _ _ _ _ hw' d hd, ho]; rfl
        · intro p a L h
          obtain ⟨o, h1, _⟩ := h.cut hd hw'
          rw [ho] at h1; cases h1
      | some o =>
        by_cases hm : (s.obj o).mode = .sub
        · obtain ⟨ih1, ih2⟩ := ih (s.obj o).subs (hs.sub o) (hs.subs o) r hlen
          have he : (fun i => keyLoop (complete fs s i (n + 1)) (w ++ ' ' :: r) i d 0) = fun i => glue (w ++ [' ']) (keyLoop (complete fs s i n) r i (s.obj o).subs 0) := by
            funext i
            rw [keyLoop_down _ _ _ _ hw' d hd, ho]
            simp only [complete, hm]
          rw [he]
          refine ⟨?_, ?_⟩
          · intro hn
            obtain ⟨L, h1, h2⟩ := ih1 (fun p a h => hn _ _ (.down d w o r p a ho hm h))
            exact ⟨_, exact_down hd hw' ho hm h1, offers_glue h2 _⟩
          · intro p a L h hL
            obtain ⟨o', h1, h2⟩ := h.cut hd hw'
            rw [ho] at h1; cases h1
            rcases h2 with ⟨h2, _⟩ | ⟨_, p', rfl, h3⟩
            · exact absurd hm h2
            · have := offers_glue (ih2 p' a L h3 hL) (w ++ [' '])
              simpa [List.map_map, Function.comp_def] using this
        · have he : (fun i => keyLoop (complete fs s i (n + 1)) (w ++ ' ' :: r) i d 0) = fun i => glue (w ++ [' ']) (completeArgs fs r i) := by
            funext i
            rw [keyLoop_down _ _ _ _ hw' d hd, ho]
            simp only [complete]
          rw [he]
          refine ⟨fun hn => absurd (.here d w o r ho hm) (hn _ _), ?_⟩
          intro p a L h hL
          obtain ⟨o', h1, h2⟩ := h.cut hd hw'
          rw [ho] at h1; cases h1
          rcases h2 with ⟨_, rfl, rfl⟩ | ⟨h2, _⟩
          · exact offers_glue hL _
          · exact absurd h2 hm

/-! ## Arguments and files -/

theorem last_head (x : Char) (fin w : Str) (hw : x ∉ w) (hf : fin = [] ∨ fin.getLast? = some x) : lastPart x (fin ++ w) = w ∧ headPart x (fin ++ w) = fin := by
  have h1 : ∀ a : Str, x ∉ a → ∀ b : Str, (b = [] ∨ b.head? = some x) → (a ++ b).takeWhile (fun c => decide (c ≠ x)) = a ∧ (a ++ b).dropWhile (fun c => decide (c ≠ x)) = b := by
    intro a
    induction a with
    | nil =>
      intro _ b hb
      cases b with
      | nil => simp
      | cons c b => simp at hb; simp [hb]
    | cons c a ih =>
      intro ha b hb
      simp at ha
      obtain ⟨i1, i2⟩ := ih ha.2 b hb
      simp only [List.cons_append]
      have : decide (c ≠ x) = true := by simpa using Ne.symm ha.1
      rw [List.takeWhile_cons_of_pos (by simpa using this), List.dropWhile_cons_of_pos (by simpa using this)]
      exact ⟨by rw [i1], i2⟩
  have h2 := h1 w.reverse (by simpa using hw) fin.reverse (by
    rcases hf with h | h
    · left; simp [h]
    · right; rw [List.head?_reverse]; exact h)
  unfold lastPart headPart
  rw [List.reverse_append, h2.1, h2.2]
  simp

theorem last_word (r : Str) : ∃ fin w, LastWord r fin w := by
  refine ⟨headPart ' ' r, lastPart ' ' r, ?_, ?_, ?_⟩
  · have := List.takeWhile_append_dropWhile (p := fun c => decide (c ≠ ' ')) (l := r.reverse)
    have h := congrArg List.reverse this
    rw [List.reverse_append, List.reverse_reverse] at h
    exact h.symm
  · unfold lastPart
    intro h
    have h1 := List.mem_reverse.mp h
    have h2 : ∀ (l : Str), ' ' ∉ l.takeWhile (fun c => decide (c ≠ ' ')) := by
      intro l
      induction l with
      | nil => simp
      | cons c l ih =>
        by_cases hc : c = ' '
        · simp [hc]
        · rw [List.takeWhile_cons_of_pos (by simpa using hc)]
          simp [Ne.symm hc]
          simpa using ih
    exact h2 _ h1
  · unfold headPart
    cases hd : (r.reverse.dropWhile (fun c => decide (c ≠ ' '))) with
    | nil => left; rfl
    | cons c l =>
      right
      have := List.head?_dropWhile_not (fun c => decide (c ≠ ' ')) r.reverse
      rw [hd] at this
      simp at this
      simp [this]

theorem args_file (fs : Files) {r fin p : Str} (h : LastWord r fin ("f://".toList ++ p)) {L : List Str} (hL : Offers (fileArg fs p) L) :
    Offers (completeArgs fs r) (L.map (fin ++ "f://".toList ++ ·)) := by
  obtain ⟨rfl, h2, h3⟩ := h
  obtain ⟨e1, e2⟩ := last_head ' ' fin _ h2 h3
  intro n
  unfold completeArgs
  dsimp only
  rw [e1, e2, if_pos (show fileKey.isPrefixOf ("f://".toList ++ p) = true from List.isPrefixOf_iff_prefix.mpr ⟨p, rfl⟩)]
  have : ("f://".toList ++ p).drop fileKey.length = p := rfl
  rw [this]
  exact offers_glue hL _ n

theorem args_other (fs : Files) {r fin w : Str} (h : LastWord r fin w) (hw : ¬ "f://".toList <+: w) : Offers (completeArgs fs r) [] := by
  obtain ⟨rfl, h2, h3⟩ := h
  obtain ⟨e1, e2⟩ := last_head ' ' fin _ h2 h3
  intro n
  unfold completeArgs
  dsimp only
  rw [e1, if_neg (show ¬ fileKey.isPrefixOf w = true from fun h => hw (List.isPrefixOf_iff_prefix.mp h))]
  rfl

theorem fileLoop_nth (d inc : Str) (state : Nat) (l : List Str) (i : Nat) (hi : i ≤ state) :
    shown (fileLoop d inc state l i) = ((l.filter (inc.isPrefixOf ·)).map (joinPath d ·))[state - i]? := by
  induction l generalizing i with
  | nil => simp [fileLoop, shown]
  | cons f l ih =>
    rw [fileLoop]
    by_cases hp : inc.isPrefixOf f = true
    · rw [if_pos hp, List.filter_cons_of_pos (by simpa using hp)]
      by_cases e : i = state
      · rw [if_pos e]; subst e; simp [shown]
      · rw [if_neg e, ih (i + 1) (by omega)]
        have : state - i = (state - (i + 1)) + 1 := by omega
        rw [this, List.map_cons, List.getElem?_cons_succ]
    · rw [if_neg hp, List.filter_cons_of_neg (by simpa using hp), ih i hi]

theorem all_slash_last {D : Str} (h : D ≠ []) (h' : D.getLast? ≠ some '/') : ¬ (D ++ ['/']).all (fun c => decide (c = '/')) = true := by
  intro ha
  rw [List.all_eq_true] at ha
  apply h'
  rw [List.getLast?_eq_some_getLast h]
  have := ha (D.getLast h) (by simp)
  simpa using this

theorem rstrip_slash {D : Str} (h : D ≠ []) (h' : D.getLast? ≠ some '/') : rstripSlash (D ++ ['/']) = D := by
  unfold rstripSlash
  rw [List.reverse_append]
  simp only [List.reverse_cons, List.reverse_nil, List.nil_append, List.singleton_append]
  rw [List.dropWhile_cons_of_pos (by simp)]
  cases hr : D.reverse with
  | nil => exact absurd (List.reverse_eq_nil_iff.mp hr) h
  | cons c l =>
    rw [List.dropWhile_cons_of_neg]
    · rw [← hr]; simp
    · intro hc
      apply h'
      rw [← List.head?_reverse, hr]
      simpa using hc

theorem before_dir {q D b : Str} (h : Before q D) (hb : '/' ∉ b) : dirname (q ++ b) = D ∧ basename (q ++ b) = b ∧ D ≠ [] := by
  have hq : q.getLast? = some '/' := by cases h <;> simp
  obtain ⟨e1, e2⟩ := last_head '/' q b hb (.inr hq)
  refine ⟨?_, e1, ?_⟩
  · unfold dirname
    dsimp only
    rw [e2]
    cases h with
    | dir D h1 h2 => rw [if_neg (all_slash_last h1 h2), rstrip_slash h1 h2]
    | root => rfl
  · cases h with
    | dir D h1 h2 => exact h1
    | root => simp

theorem before_join {q D f : Str} (h : Before q D) (hf : '/' ∉ f) : joinPath D f = q ++ f := by
  unfold joinPath
  rw [if_neg]
  · cases h with
    | dir D h1 h2 => rw [if_neg (by simp [h1, h2])]; simp
    | root => rfl
  · intro h; cases f with
    | nil => simp at h
    | cons c f => simp at h hf; exact hf.1 h.symm

theorem looks_in {fs : Files} {e q D b : Str} (h : Looks fs e q D b) : lookIn fs e = D ∧ basename e = b ∧ Before q D := by
  cases h with
  | written q D b h1 h2 =>
    obtain ⟨a, b, c⟩ := before_dir h1 h2
    exact ⟨by unfold lookIn; rw [a, if_neg c], b, h1⟩
  | current q b h1 h2 =>
    obtain ⟨e1, e2⟩ := last_head '/' [] e h2 (.inl rfl)
    refine ⟨?_, e1, h1⟩
    have : dirname e = [] := by
      unfold dirname
      dsimp only
      rw [show headPart '/' e = [] from e2]; rfl
    unfold lookIn
    rw [this, if_pos rfl]

theorem files_offer {fs : Files} (hs : fs.Sane) {p q D b : Str} (h : Looks fs (fs.expand p) q D b) : Offers (fileArg fs p) ((entries fs D b).map (q ++ ·)) := by
  obtain ⟨h1, h2, h3⟩ := looks_in h
  intro n
  unfold fileArg entries
  dsimp only
  rw [h1, h2]
  cases hd : fs.dir D with
  | none => simp [shown]
  | some x =>
    cases x with
    | none => simp [shown]
    | some l =>
      simp only
      rw [fileLoop_nth _ _ _ _ 0 (by omega)]
      have : ((l.filter (b.isPrefixOf ·)).map (joinPath D ·)) = ((l.filter (b.isPrefixOf ·)).map (q ++ ·)) := by
        refine List.map_congr_left ?_
        intro f hf
        exact before_join h3 (hs D l hd f (List.mem_filter.mp hf).1)
      rw [this]; rfl

end Verif.Shell
