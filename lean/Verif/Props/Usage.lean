import Verif.Lemmas.Usage
import Verif.Props.Shell
/-! # C112: what `help` prints is what the shell does -/
namespace Verif.Shell
open Verif.Shlex (Line)

/-- **C112.** Every form has one text at the end of its usage line. -/
theorem C112_suffix (x : Texts) (i : Nat) (f : Form) : ∃ u, Suffix x i f u ∧ ∀ v, Suffix x i f v → v = u := by
  cases f with
  | any => exact ⟨_, .any, fun v h => by cases h; rfl⟩
  | count n =>
    cases n with
    | zero => exact ⟨_, .alone, fun v h => by cases h <;> first | rfl | omega⟩
    | succ n =>
      cases hx : x.usage i (n + 1) with
      | none =>
        refine ⟨_, .number _ (by omega) (.inl hx), fun v h => ?_⟩
        cases h with
        | usage _ _ _ h => rw [hx] at h; cases h
        | number => rfl
      | some u =>
        cases u with
        | nil =>
          refine ⟨_, .number _ (by omega) (.inr hx), fun v h => ?_⟩
          cases h with
          | usage _ _ _ h h' => rw [hx] at h; cases h; exact absurd rfl h'
          | number => rfl
        | cons a b =>
          refine ⟨_, .usage _ _ (by omega) hx (by simp), fun v h => ?_⟩
          cases h with
          | usage _ _ _ h h' => rw [hx] at h; cases h; rfl
          | number _ _ h => rw [hx] at h; simp at h

/-- **C112.** The usage of a command consists of a line for each way of using it, its subcommands included, and of no other lines. -/
theorem C112_usage (h : List Ev) (x : Texts) (k o : Nat) (ho : o < (exec .init h).nObj) (ls : List Str) (hu : usageHelp x (exec .init h) k o = some ls) (l : Str) :
    l ∈ ls ↔ ∃ ws f i u, Way (exec .init h) o ws f i ∧ Suffix x i f u ∧ l = spaced (((exec .init h).obj o).txt :: ws) ++ u := by
  rw [listing_mem (Inv.reachable h) (Named.reachable h) k o ho ls hu]
  simp only [tail_usage]

/-- **C112.** So does its help; under each usage is the help text of what it runs. -/
theorem C112_help (h : List Ev) (x : Texts) (k o : Nat) (ho : o < (exec .init h).nObj) (ls : List Str) (hu : helpLines x (exec .init h) k o = some ls) (l : Str) :
    l ∈ ls ↔ ∃ ws f i u, Way (exec .init h) o ws f i ∧ Suffix x i f u ∧ l = spaced (((exec .init h).obj o).txt :: ws) ++ u ++ "\n  ".toList ++ helpFor x i f := by
  rw [listing_mem (Inv.reachable h) (Named.reachable h) k o ho ls hu]
  simp only [tail_help]
  constructor
  · rintro ⟨ws, f, i, t, h1, ⟨u, h2, rfl⟩, rfl⟩
    exact ⟨ws, f, i, u, h1, h2, by simp [under]⟩
  · rintro ⟨ws, f, i, u, h1, h2, rfl⟩
    exact ⟨ws, f, i, _, h1, ⟨u, h2, rfl⟩, by simp [under]⟩

/-- **C112.** Words after a command that mean a callback are a way of using it, and then words of its form. -/
theorem C112_means {s : St} {o : Nat} {words : List Str} {p : Pod} {args : List Str} (h : Means s o words p args) :
    ∃ ws f i rest, words = ws ++ rest ∧ Way s o ws f i ∧ Fits f rest := by
  induction h with
  | single o ws p h1 h2 => exact ⟨[], .any, o, ws, rfl, .single o h1 (by simp [h2]), trivial⟩
  | alone o p h1 h2 => exact ⟨[], .count 0, o, [], rfl, .alone o h1 (by simp [h2]), rfl⟩
  | count o ws p h1 h2 h3 => exact ⟨[], .count ws.length, o, ws, rfl, .count o _ p h1 h3, rfl⟩
  | sub o o' w ws p args h1 h2 _ ih =>
    obtain ⟨vs, f, i, rest, rfl, h3, h4⟩ := ih
    exact ⟨w :: vs, f, i, rest, rfl, .sub o o' i w vs f h1 h2 h3, h4⟩

/-- **C112.** Every way of using a command works: with any words of its form it means a callback, one of the object that it leads to. -/
theorem C112_works (h : List Ev) {o i : Nat} {ws : List Str} {f : Form} (ho : o < (exec .init h).nObj) (hw : Way (exec .init h) o ws f i) (rest : List Str) (hf : Fits f rest) :
    ∃ p args, Means (exec .init h) o (ws ++ rest) p args ∧ (((exec .init h).obj i).dflt = some p ∨ ((exec .init h).obj i).pods.get rest.length = some p) := by
  have hi := Inv.reachable h
  generalize exec .init h = s at *
  induction hw with
  | single o h1 h2 =>
    cases hd : (s.obj o).dflt with
    | none => exact absurd hd h2
    | some p => exact ⟨p, _, .single o rest p h1 hd, .inl rfl⟩
  | alone o h1 h2 =>
    cases hd : (s.obj o).dflt with
    | none => exact absurd hd h2
    | some p =>
      have : rest = [] := List.eq_nil_of_length_eq_zero hf
      subst this
      exact ⟨p, _, .alone o p h1 hd, .inl rfl⟩
  | count o n p h1 h2 =>
    have hf : rest.length = n := hf
    subst hf
    refine ⟨p, _, .count o rest p h1 ?_ h2, .inr h2⟩
    rintro rfl
    rw [show (s.obj o).pods.get ([] : List Str).length = none from hi.zero o ho] at h2
    cases h2
  | sub o o' i w ws f h1 h2 _ ih =>
    obtain ⟨p, args, h3, h4⟩ := ih hf (hi.subs o w o' ho h2)
    exact ⟨p, args, .sub o o' w (ws ++ rest) p args h1 h2 h3, h4⟩

theorem helpAll_mem {x : Texts} {s : St} {k : Nat} {os : List Nat} (h : (helpAll x s k os).2 = true) (m : Str) :
    m ∈ (helpAll x s k os).1 ↔ ∃ o ∈ os, (o = 0 ∧ m = "  help [cmd]\n".toList) ∨ (o ≠ 0 ∧ ∃ ls u, usageHelp x s k o = some ls ∧ u ∈ ls ∧ m = "  ".toList ++ u ++ ['\n']) := by
  induction os with
  | nil => simp [helpAll]
  | cons o os ih =>
    unfold helpAll at h ⊢
    split
    · next e =>
      rw [if_pos e] at h
      simp only [List.mem_cons, ih h, exists_eq_or_imp, e]
      simp
    · next e =>
      rw [if_neg e] at h
      split at h
      · cases h
      · next ls hl =>
        simp only [List.mem_append, List.mem_map, ih h, List.mem_cons, exists_eq_or_imp, e, hl, Option.some.injEq]
        simp
        constructor
        · rintro (⟨u, h1, rfl⟩ | h1)
          · exact .inl ⟨e, u, h1, rfl⟩
          · exact .inr h1
        · rintro (⟨_, u, h1, rfl⟩ | h1)
          · exact .inl ⟨u, h1, rfl⟩
          · exact .inr h1

theorem helpAll_raises {x : Texts} {s : St} {k : Nat} {os : List Nat} : (helpAll x s k os).2 = false ↔ ∃ o ∈ os, o ≠ 0 ∧ usageHelp x s k o = none := by
  induction os with
  | nil => simp [helpAll]
  | cons o os ih =>
    unfold helpAll
    split
    · next e => simp [ih, e]
    · next e =>
      split
      · next hn => simp [e, hn]
      · next ls hl => simp [ih, hl]

/-- **C112.** `help` lists `help [cmd]`, and for every other command that is registered a line for each way of using it, and no other lines. -/
theorem C112_all (h : List Ev) (x : Texts) (k : Nat) (hr : (helpOut x (exec .init h) k none).2 = true) (m : Str) :
    m ∈ (helpOut x (exec .init h) k none).1 ↔ m = "  help [cmd]\n".toList ∨
      ∃ c o ws f i u, c ≠ "help".toList ∧ (exec .init h).commands.get c = some o ∧ Way (exec .init h) o ws f i ∧ Suffix x i f u ∧ m = "  ".toList ++ spaced (c :: ws) ++ u ++ ['\n'] := by
  have hi := Inv.reachable h
  have hn := Named.reachable h
  have hz : ∀ c o, (exec .init h).commands.get c = some o → (o = 0 ↔ c = "help".toList) := fun c o hc => by
    constructor
    · rintro rfl; rw [← (hi.low c 0 hc).2]; exact hi.help.1
    · rintro rfl; rw [hi.own.1] at hc; cases hc; rfl
  unfold helpOut at hr ⊢
  rw [helpAll_mem hr]
  constructor
  · rintro ⟨o, ho, ⟨_, rfl⟩ | ⟨h1, ls, u, h2, h3, rfl⟩⟩
    · exact .inl rfl
    · obtain ⟨c, hc⟩ := (mem_vals hn.cwf).mp ho
      obtain ⟨hl, ht⟩ := hi.low c o hc
      obtain ⟨ws, f, i, v, h4, h5, rfl⟩ := (C112_usage h x k o hl ls h2 u).mp h3
      refine .inr ⟨c, o, ws, f, i, v, fun e => h1 ((hz c o hc).mpr e), hc, h4, h5, ?_⟩
      rw [ht]
      simp
  · rintro (rfl | ⟨c, o, ws, f, i, u, h1, hc, h2, h3, rfl⟩)
    · exact ⟨0, (mem_vals hn.cwf).mpr ⟨_, hi.own.1⟩, .inl ⟨rfl, rfl⟩⟩
    · have ho := (mem_vals hn.cwf).mpr ⟨c, hc⟩
      have h0 : o ≠ 0 := fun e => h1 ((hz c o hc).mp e)
      obtain ⟨hl, ht⟩ := hi.low c o hc
      cases hu : usageHelp x (exec .init h) k o with
      | none =>
        have hf : (helpAll x (exec .init h) k (exec .init h).commands.vals).2 = false := helpAll_raises.mpr ⟨o, ho, h0, hu⟩
        rw [hf] at hr
        cases hr
      | some ls =>
        refine ⟨o, ho, .inr ⟨h0, ls, spaced (c :: ws) ++ u, hu, (C112_usage h x k o hl ls hu _).mpr ⟨ws, f, i, u, h2, h3, by rw [ht]⟩, by simp⟩⟩

/-- **C112.** Whatever a line does, `help` tells: if the line means a callback, its first words are in a line of `help`, and the number of the others is the one given
there. -/
theorem C112_told (h : List Ev) (x : Texts) (k : Nat) (hr : (helpOut x (exec .init h) k none).2 = true) (l : Str) (p : Pod) (args : List Str)
    (hc : Commands (exec .init h) l p args) : ∃ m words, Verif.Shell.Trim l m ∧ Line m words ∧ ∃ c ws rest f i, words.filter (· ≠ []) = c :: ws ++ rest ∧ Fits f rest ∧
      (c = "help".toList ∨ ∃ u, Suffix x i f u ∧ "  ".toList ++ spaced (c :: ws) ++ u ++ ['\n'] ∈ (helpOut x (exec .init h) k none).1) := by
  obtain ⟨m, words, c, rest, o, h1, h2, h3, h4, h5⟩ := hc
  obtain ⟨ws, f, i, rest', rfl, h6, h7⟩ := C112_means h5
  refine ⟨m, words, h1, h2, c, ws, rest', f, i, h3, h7, ?_⟩
  by_cases e : c = "help".toList
  · exact .inl e
  · obtain ⟨u, hu, _⟩ := C112_suffix x i f
    exact .inr ⟨u, hu, (C112_all h x k hr _).mpr (.inr ⟨c, o, ws, f, i, u, e, h4, h6, hu, rfl⟩)⟩

theorem paragraphs_eq (ls : List Str) : paragraphs ls = ['\n', '\n'].intercalate ls := by
  induction ls with
  | nil => rfl
  | cons l ls ih =>
    cases ls with
    | nil => simp [paragraphs]
    | cons m ls => simp only [paragraphs, ih]; simp [List.intercalate]

/-- **C112.** `help cmd` prints the help of the command with this name, with empty lines between its parts. -/
theorem C112_one (h : List Ev) (x : Texts) (k : Nat) (c : Str) (o : Nat) (hc : c ≠ []) (hg : (exec .init h).commands.get c = some o)
    (hr : (helpOut x (exec .init h) k (some c)).2 = true) : ∃ ls, (helpOut x (exec .init h) k (some c)).1 = [['\n', '\n'].intercalate ls, ['\n']] ∧
      ∀ l, l ∈ ls ↔ ∃ ws f i u, Way (exec .init h) o ws f i ∧ Suffix x i f u ∧ l = spaced (c :: ws) ++ u ++ "\n  ".toList ++ helpFor x i f := by
  obtain ⟨hl, ht⟩ := (Inv.reachable h).low c o hg
  cases c with
  | nil => exact absurd rfl hc
  | cons a c =>
    simp only [helpOut, hg] at hr ⊢
    split at hr
    · cases hr
    · next ls hu =>
      refine ⟨ls, by rw [paragraphs_eq], fun l => ?_⟩
      rw [C112_help h x k o hl ls hu, ht]

/-- **C112.** For a name that is not registered it says so. -/
theorem C112_unknown (s : St) (x : Texts) (k : Nat) (c : Str) (hc : c ≠ []) (hg : s.commands.get c = none) :
    helpOut x s k (some c) = (["No such command ".toList ++ c ++ "\n".toList], true) := by
  cases c with
  | nil => exact absurd rfl hc
  | cons a c => simp only [helpOut, hg]; rfl

/-- **C112.** `help` ends in a `RecursionError` exactly if a registered command has subcommands as deep as Python's recursion limit. -/
theorem C112_raises (h : List Ev) (x : Texts) (k : Nat) : (helpOut x (exec .init h) k none).2 = false ↔
    ∃ c o, c ≠ "help".toList ∧ (exec .init h).commands.get c = some o ∧ Deep (exec .init h) k o := by
  have hi := Inv.reachable h
  have hn := Named.reachable h
  unfold helpOut
  rw [helpAll_raises]
  constructor
  · rintro ⟨o, ho, h0, hu⟩
    obtain ⟨c, hc⟩ := (mem_vals hn.cwf).mp ho
    refine ⟨c, o, ?_, hc, (deep_iff hn k o).mp hu⟩
    rintro rfl
    rw [hi.own.1] at hc; cases hc; exact h0 rfl
  · rintro ⟨c, o, h0, hc, hd⟩
    refine ⟨o, (mem_vals hn.cwf).mpr ⟨c, hc⟩, ?_, (deep_iff hn k o).mpr hd⟩
    rintro rfl
    exact h0 ((hi.low c 0 hc).2.symm.trans hi.help.1)

/-- **C112.** So does `help cmd`, for this command. -/
theorem C112_raises_one (h : List Ev) (x : Texts) (k : Nat) (c : Str) (o : Nat) (hc : c ≠ []) (hg : (exec .init h).commands.get c = some o) :
    (helpOut x (exec .init h) k (some c)).2 = false ↔ Deep (exec .init h) k o := by
  rw [← deep_iff (x := x) (d := fun i => under (x.help i)) (p := fun i n => under (x.podHelp i n)) (Named.reachable h)]
  cases c with
  | nil => exact absurd rfl hc
  | cons a c =>
    simp only [helpOut, hg, helpLines]
    split
    · next hu => simp [hu]
    · next ls hu => simp [hu]

/-! ## At the terminal -/

theorem screen_ok (reading : Nat → Bool) (l : List Str) : (screen reading l).2 = true ↔ ∀ b ∈ l, b ≠ [] := by
  induction l generalizing reading with
  | nil => simp [screen]
  | cons b l ih =>
    unfold screen
    split
    · next e => simp [e]
    · next e => simp [e, ih]

theorem screen_quiet (l : List Str) (h : ∀ b ∈ l, b ≠ []) : (screen (fun _ => false) l).1 = l.flatten := by
  induction l with
  | nil => rfl
  | cons b l ih =>
    unfold screen
    rw [if_neg (h b (List.mem_cons_self ..))]
    simp [ih fun b hb => h b (List.mem_cons_of_mem _ hb)]

theorem all_ne (x : Texts) (s : St) (k : Nat) (os : List Nat) : ∀ b ∈ (helpAll x s k os).1, b ≠ [] := by
  induction os with
  | nil => intro b hb; cases hb
  | cons o os ih =>
    unfold helpAll
    split
    · intro b hb
      rcases List.mem_cons.1 hb with rfl | hb
      · decide
      · exact ih b hb
    · split
      · intro b hb; cases hb
      · intro b hb
        rcases List.mem_append.1 hb with hb | hb
        · obtain ⟨u, _, rfl⟩ := List.mem_map.1 hb
          simp
        · exact ih b hb

/-- **C112.** At the terminal `help` shows all that it writes, and returns if it does so otherwise. -/
theorem C112_terminal (reading : Nat → Bool) (x : Texts) (s : St) (k : Nat) : (helpShown reading x s k none).2 = (helpOut x s k none).2 ∧
    (helpShown (fun _ => false) x s k none).1 = (helpOut x s k none).1.flatten := by
  have h := all_ne x s k s.commands.vals
  constructor
  · have h' : (screen reading (helpOut x s k none).1).2 = true := (screen_ok reading _).2 h
    unfold helpShown
    dsimp only
    rw [h', Bool.true_and]
  · exact screen_quiet _ h

/-- **C112.** `help cmd` at the terminal returns exactly if the command can be used in some way, and its subcommands are not nested too deep. -/
theorem C112_terminal_one (h : List Ev) (reading : Nat → Bool) (x : Texts) (k : Nat) (c : Str) (o : Nat) (hc : c ≠ []) (hg : (exec .init h).commands.get c = some o) :
    (helpShown reading x (exec .init h) k (some c)).2 = true ↔ ¬ Deep (exec .init h) k o ∧ ∃ ws f i, Way (exec .init h) o ws f i := by
  rw [← C112_raises_one h x k c o hc hg]
  unfold helpShown
  rw [Bool.and_eq_true, screen_ok]
  constructor
  · rintro ⟨h1, h2⟩
    refine ⟨by simp [h2], ?_⟩
    obtain ⟨ls, h3, h4⟩ := C112_one h x k c o hc hg h2
    rw [h3] at h1
    cases ls with
    | nil => exact absurd rfl (h1 _ (List.mem_cons_self ..))
    | cons l ls =>
      obtain ⟨ws, f, i, _, hw, _⟩ := (h4 l).1 (List.mem_cons_self ..)
      exact ⟨ws, f, i, hw⟩
  · rintro ⟨h1, ws, f, i, hw⟩
    have h2 : (helpOut x (exec .init h) k (some c)).2 = true := by simpa using h1
    refine ⟨?_, h2⟩
    obtain ⟨ls, h3, h4⟩ := C112_one h x k c o hc hg h2
    obtain ⟨u, hu, _⟩ := C112_suffix x i f
    have hm := (h4 _).2 ⟨ws, f, i, u, hw, hu, rfl⟩
    rw [h3, ← paragraphs_eq]
    intro b hb
    simp only [List.mem_cons, List.not_mem_nil, or_false] at hb
    rcases hb with rfl | rfl
    · cases ls with
      | nil => cases hm
      | cons l ls =>
        obtain ⟨_, _, _, _, _, _, rfl⟩ := (h4 l).1 (List.mem_cons_self ..)
        cases ls <;> simp [paragraphs]
    · simp

/-! ## Cases of the theorems -/

/-- `ping` with two arguments has a usage text, with one it has none. -/
def texts : Texts where
  help o := if o = 9 then "Add it".toList else "?".toList
  usage o n := if o = 6 ∧ n = 2 then some "[host] [n]".toList else if o = 1 then some "[batch_file]".toList else none
  podHelp _ _ := "Do it".toList

/-- `C112_all`, `C112_told`, `C112_one`, `C112_help`: the commands of `ready` (Props/Shell). -/
example : helpOut texts ready 1000 none = (["  help [cmd]\n".toList, "  batch [batch_file]\n".toList, "  quit/0\n".toList, "  ping/1\n".toList, "  ping [host] [n]\n".toList,
    "  net add/*\n".toList], true) := by decide +kernel

example : helpOut texts ready 1000 (some "ping".toList) = (["ping/1\n  Do it\n\nping [host] [n]\n  Do it".toList, "\n".toList], true) ∧
    helpOut texts ready 1000 (some "net".toList) = (["net add/*\n  Add it".toList, "\n".toList], true) ∧
    ready.commands.get "pong".toList = none ∧ ready.commands.get "net".toList = some 8 ∧ usageHelp texts ready 1000 8 = some ["net add/*".toList] := by decide +kernel

/-- A way: `net add`, with any words. -/
example : Way ready 8 ["add".toList] .any 9 := .sub 8 9 9 _ _ _ (by decide +kernel) (by decide +kernel) (.single 9 (by decide +kernel) (by decide +kernel))

example : Means ready 8 ["add".toList, "x".toList] ⟨.user 3, none⟩ ["x".toList] :=
  .sub 8 9 _ _ _ _ (by decide +kernel) (by decide +kernel) (by
    have := Means.single (s := ready) 9 ["x".toList] ⟨.user 3, none⟩ (by decide +kernel) (by decide +kernel)
    exact this)

/-! ## What does not hold -/

/-- A command `a` that is its own subcommand, and then `ping`. -/
def looped : List Ev := [.new "a".toList .sub none, .configureSub 6 6, .register 6, .new "ping".toList .single (some (3, none)), .register 8]

/-- C112 is false if a command is its own subcommand, which `configureSubcommand` lets it be: whatever the recursion limit is, `help` ends in an exception, and lists
no command that was registered afterwards, although it works. -/
theorem C112_false_cycle (x : Texts) (k : Nat) (hx : x.usage 1 1 = none) : (exec .init looped).commands.get "ping".toList = some 8 ∧ Way (exec .init looped) 8 [] .any 8 ∧
    helpOut x (exec .init looped) (k + 1) none = (["  help [cmd]\n".toList, "  batch/1\n".toList, "  quit/0\n".toList], false) := by
  have hd : ∀ k, Deep (exec .init looped) k 6 := fun k => by
    induction k with
    | zero => trivial
    | succ k ih => exact ⟨by decide +kernel, "a".toList, 6, by decide +kernel, ih⟩
  have hu : usageHelp x (exec .init looped) (k + 1) 6 = none := (deep_iff (Named.reachable looped) _ _).mpr (hd _)
  have h1 : usageHelp x (exec .init looped) (k + 1) 1 = some ["batch/1".toList] := by
    have e : (exec .init looped).obj 1 = ⟨"batch".toList, .standard, none, [(1, ⟨.batch, none⟩)], [], false⟩ := (Inv.reachable looped).batch
    simp only [usageHelp, listing, e, dfltLines, Dict.keys, List.map, podLine, hx]
    decide +kernel
  have h2 : usageHelp x (exec .init looped) (k + 1) 2 = some ["quit/0".toList] := by
    have e : (exec .init looped).obj 2 = ⟨"quit".toList, .standard, some ⟨.quit, none⟩, [], [], false⟩ := (Inv.reachable looped).quit
    simp only [usageHelp, listing, e, dfltLines, Dict.keys, List.map]
    decide +kernel
  refine ⟨by decide +kernel, .single 8 (by decide +kernel) (by decide +kernel), ?_⟩
  have hv : (exec .init looped).commands.vals = [0, 1, 2, 6, 8] := by decide +kernel
  simp only [helpOut, hv, helpAll, h1, h2, hu]
  rfl

/-- C112 is false at the terminal for a command that cannot be used yet (no default callback, nothing configured): `help` of it ends in an exception, instead of saying
nothing. -/
theorem C112_false_bare (reading : Nat → Bool) (x : Texts) (k : Nat) :
    (exec .init [.new "new".toList .standard none, .register 6]).commands.get "new".toList = some 6 ∧
    helpOut x (exec .init [.new "new".toList .standard none, .register 6]) (k + 1) (some "new".toList) = ([[], ['\n']], true) ∧
    (helpShown reading x (exec .init [.new "new".toList .standard none, .register 6]) (k + 1) (some "new".toList)).2 = false := by
  have hg : (exec .init [.new "new".toList .standard none, .register 6]).commands.get "new".toList = some 6 := by decide +kernel
  have ho : (exec .init [.new "new".toList .standard none, .register 6]).obj 6 = ⟨"new".toList, .standard, none, [], [], true⟩ := by decide +kernel
  have hh : helpOut x (exec .init [.new "new".toList .standard none, .register 6]) (k + 1) (some "new".toList) = ([[], ['\n']], true) := by
    have : "new".toList = 'n' :: ['e', 'w'] := by decide
    rw [this] at hg ⊢
    simp only [helpOut]
    rw [← this] at hg ⊢
    rw [hg]
    simp only [helpLines, listing, ho, dfltLines, Dict.keys, List.map, List.append_nil]
    rfl
  refine ⟨hg, hh, ?_⟩
  unfold helpShown
  rw [hh]
  simp [screen]

end Verif.Shell
