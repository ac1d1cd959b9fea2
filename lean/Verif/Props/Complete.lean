import Verif.Lemmas.Complete
import Verif.Lemmas.PyStr
import Verif.Props.Shell
/-! # C89: tab completion -/
namespace Verif.Shell
open Verif.Shlex (typed quote split Safe)

/-- **C89 (partial: names of commands without blanks; see `C89_false_blank`).** While the names of a command are typed, completion offers exactly the command lines that begin with the text and
have no more names than it, each once; whatever was registered and configured, and whatever the order of numbers asked. -/
theorem C89_names_partial (fs : Files) (h : List Ev) (hh : ∀ e ∈ h, OneWord e) (t : Str) (ht : ∀ p r, ¬ InArgs (exec .init h) (exec .init h).commands t p r) :
    ∃ L, Offers (shellComplete fs (exec .init h) t) L ∧ L.Nodup ∧
      ∀ c, c ∈ L ↔ (∃ o, Path (exec .init h) (exec .init h).commands c o) ∧ t <+: c ∧ c.count ' ' = t.count ' ' := by
  have hp := Plain.init.exec h hh
  obtain ⟨L, h1, h2⟩ := (level fs hp t.length _ hp.cmd hp.cmds t (Nat.le_refl _)).1 ht
  exact ⟨L, h2, h1⟩

/-- **C89 (partial: names without blanks, no two slashes at the end of the directory).** In the arguments of a command, an argument that begins with `f://` is completed to the names of the files
that begin as the path does, in the directory that it names or else in the current one. -/
theorem C89_files_partial (fs : Files) (hs : fs.Sane) (h : List Ev) (hh : ∀ e ∈ h, OneWord e) (t p r fin x q D b : Str)
    (ht : InArgs (exec .init h) (exec .init h).commands t p r) (hw : LastWord r fin ("f://".toList ++ x)) (hl : Looks fs (fs.expand x) q D b) :
    Offers (shellComplete fs (exec .init h) t) ((entries fs D b).map (fun f => p ++ fin ++ "f://".toList ++ q ++ f)) := by
  have hp := Plain.init.exec h hh
  have := (level fs hp t.length _ hp.cmd hp.cmds t (Nat.le_refl _)).2 p r _ ht (args_file fs hw (files_offer hs hl))
  simp only [List.map_map, Function.comp_def] at this
  have e : (entries fs D b).map (fun f => p ++ fin ++ "f://".toList ++ q ++ f) = (entries fs D b).map (fun f => p ++ (fin ++ "f://".toList ++ (q ++ f))) := by
    refine List.map_congr_left ?_; intro f _; simp only [List.append_assoc]
  rw [e]
  exact this

/-- **C89 (partial: names without blanks).** No other argument is completed. -/
theorem C89_other_partial (fs : Files) (h : List Ev) (hh : ∀ e ∈ h, OneWord e) (t p r fin w : Str)
    (ht : InArgs (exec .init h) (exec .init h).commands t p r) (hw : LastWord r fin w) (hn : ¬ "f://".toList <+: w) :
    Offers (shellComplete fs (exec .init h) t) [] := by
  have hp := Plain.init.exec h hh
  exact (level fs hp t.length _ hp.cmd hp.cmds t (Nat.le_refl _)).2 p r _ ht (args_other fs hw hn)

theorem InArgs.text {s : St} {d : Dict Str Nat} {t p r : Str} (h : InArgs s d t p r) : t = p ++ r := by
  induction h with
  | here => simp
  | down d k o t p r _ _ _ ih => simp [ih]

/-- **C89 (partial: see `C89_false_relative`).** What is offered begins with what was typed, if a path in it has its directory and means itself (no `~`). -/
theorem C89_extends_partial (fs : Files) (hs : fs.Sane) (h : List Ev) (hh : ∀ e ∈ h, OneWord e) (t : Str)
    (hf : ∀ p r fin x, InArgs (exec .init h) (exec .init h).commands t p r → LastWord r fin ("f://".toList ++ x) → ∃ q D b, x = q ++ b ∧ Before q D ∧ '/' ∉ b ∧ fs.expand x = x)
    (n : Nat) (c : Str) (hc : shellComplete fs (exec .init h) t n = .text c) : t <+: c := by
  by_cases ht : ∃ p r, InArgs (exec .init h) (exec .init h).commands t p r
  · obtain ⟨p, r, ht⟩ := ht
    obtain ⟨fin, w, hw⟩ := last_word r
    by_cases hk : "f://".toList <+: w
    · obtain ⟨x, rfl⟩ := hk
      obtain ⟨q, D, b, rfl, hb, hn, he⟩ := hf p r fin x ht hw
      have ho := C89_files_partial fs hs h hh t p r fin (q ++ b) q D b ht hw (by rw [he]; exact .written q D b hb hn) n
      rw [hc] at ho
      have ho := (List.getElem?_eq_some_iff.mp ho.symm).elim (fun i e => e ▸ List.getElem_mem i)
      obtain ⟨f, hf, rfl⟩ := List.mem_map.mp ho
      have hbf : b <+: f := by
        unfold entries at hf
        split at hf
        · exact List.isPrefixOf_iff_prefix.mp (List.mem_filter.mp hf).2
        · cases hf
      obtain ⟨y, rfl⟩ := hbf
      rw [ht.text, hw.1]
      exact ⟨y, by simp only [List.append_assoc]⟩
    · have ho := C89_other_partial fs h hh t p r fin w ht hw hk n
      rw [hc] at ho; simp [shown] at ho
  · obtain ⟨L, ho, _, hL⟩ := C89_names_partial fs h hh t (fun p r hx => ht ⟨p, r, hx⟩)
    have ho := ho n
    rw [hc] at ho
    have ho := (List.getElem?_eq_some_iff.mp ho.symm).elim (fun i e => e ▸ List.getElem_mem i)
    exact ((hL c).mp ho).2.1

theorem typed_cons (w v : Str) (ws : List Str) : typed (w :: v :: ws) = quote w ++ ' ' :: typed (v :: ws) := rfl

theorem path_words {s : St} (hp : Plain s) {d : Dict Str Nat} {c : Str} {o : Nat} (h : Path s d c o) (hd : ∀ k ∈ d.keys, ' ' ∉ k) (hs : ∀ x ∈ c, x = ' ' ∨ Safe x)
    (he : [] ∉ splitOn ' ' c) : ∃ k ws o1, c = typed (k :: ws) ∧ d.get k = some o1 ∧ k ≠ [] ∧ (∀ w ∈ ws, w ≠ []) ∧ ∀ p args, Means s o [] p args → Means s o1 ws p args := by
  have hq : ∀ k : Str, ' ' ∉ k → k ≠ [] → (∀ x ∈ k, x = ' ' ∨ Safe x) → quote k = k := by
    intro k h1 h2 h3
    unfold Shlex.quote
    rw [if_neg h2, if_pos]
    intro x hx
    rcases h3 x hx with e | e
    · exact absurd (e ▸ hx) h1
    · exact e
  induction h with
  | last d k o h =>
    have hk := hd k (Dict.mem_keys_iff.mpr ⟨_, h⟩)
    have hne : k ≠ [] := by rintro rfl; exact he (by decide)
    exact ⟨k, [], o, (hq k hk hne hs).symm, h, hne, by simp, fun _ _ hm => hm⟩
  | down d k o c o' h hm _ ih =>
    have hk := hd k (Dict.mem_keys_iff.mpr ⟨_, h⟩)
    rw [splitOn_append hk] at he
    have hne : k ≠ [] := by rintro rfl; exact he (by simp)
    obtain ⟨k', ws, o1, rfl, h1, h2, h3, h4⟩ := ih (hp.sub o) (fun x hx => hs x (by simp [hx])) (fun hx => he (by simp [hx]))
    refine ⟨k, k' :: ws, o, ?_, h, hne, by simpa [h2] using h3, fun p args ha => .sub o o1 k' ws p args hm h1 (h4 p args ha)⟩
    rw [typed_cons, hq k hk hne (fun x hx => hs x (by simp [hx]))]

/-- **C89.** A command line that is offered can be entered as it is: if its names are plain words, and the command at its end can be called without arguments, the line means that command. -/
theorem C89_entered_partial (h : List Ev) (hh : ∀ e ∈ h, OneWord e) (c : Str) (o : Nat) (p : Pod) (hc : Path (exec .init h) (exec .init h).commands c o)
    (hs : ∀ x ∈ c, x = ' ' ∨ Safe x) (he : [] ∉ splitOn ' ' c) (hd : ((exec .init h).obj o).dflt = some p) : Commands (exec .init h) c p [] := by
  have hp := Plain.init.exec h hh
  obtain ⟨k, ws, o1, rfl, h1, h2, h3, h4⟩ := path_words hp hc hp.cmd hs he
  refine C66_typed_means _ k ws o1 p [] h2 h3 h1 (h4 p [] ?_)
  by_cases hm : ((exec .init h).obj o).mode = .single
  · exact .single o [] p hm hd
  · exact .alone o p hm hd

/-! ## Cases of the theorems -/

/-- The home directory has the files `notes` and `new plan`; the current directory is `/w`. -/
def disk : Files where
  expand p := if ['~', '/'].isPrefixOf p then "/home/u/".toList ++ p.drop 2 else p
  cwd := "/w".toList
  dir D := if D = "/w".toList then some (some ["data".toList, "disk".toList, "x".toList]) else if D = "/home/u".toList then some (some ["notes".toList, "new plan".toList])
    else if D = "/w/x".toList then some none else none

theorem disk_sane : disk.Sane := by
  intro D l h
  unfold disk at h
  dsimp only at h
  by_cases h1 : D = "/w".toList
  · rw [if_pos h1] at h; cases h; decide
  · rw [if_neg h1] at h
    by_cases h2 : D = "/home/u".toList
    · rw [if_pos h2] at h; cases h; decide
    · rw [if_neg h2] at h
      by_cases h3 : D = "/w/x".toList
      · rw [if_pos h3] at h; cases h
      · rw [if_neg h3] at h; cases h

theorem setup_words : ∀ e ∈ setup, OneWord e := by
  intro e he
  simp only [setup, List.mem_cons, List.not_mem_nil, or_false] at he
  rcases he with rfl | rfl | rfl | rfl | rfl | rfl | rfl | rfl <;> simp only [OneWord] <;> decide

/-- `C89_names_partial`, for one name and for two. -/
example : (List.range 3).map (shellComplete disk ready "n".toList) = [.text "net".toList, .nothing, .nothing] ∧
    (List.range 2).map (shellComplete disk ready "net ".toList) = [.text "net add".toList, .raised] ∧
    (List.range 6).map (shellComplete disk ready "help ".toList) = [.text "help help".toList, .text "help batch".toList, .text "help quit".toList, .text "help ping".toList,
      .text "help net".toList, .raised] ∧ shellComplete disk ready "nix ".toList 0 = .nothing := by decide +kernel

theorem net_free (p r : Str) : ¬ InArgs ready ready.commands "net a".toList p r := by
  intro h
  have h : InArgs ready ready.commands ("net".toList ++ ' ' :: "a".toList) p r := h
  have hp := Plain.init.exec setup setup_words
  obtain ⟨o, h1, h2⟩ := h.cut hp.cmd (by decide)
  have e : ready.commands.get "net".toList = some 8 := by decide +kernel
  rw [e] at h1; cases h1
  have hm : (ready.obj 8).mode = .sub := by decide +kernel
  rcases h2 with ⟨h2, _⟩ | ⟨_, p', _, h3⟩
  · exact h2 hm
  · generalize hc : "a".toList = t at h3
    have : ' ' ∉ t := by rw [← hc]; decide
    cases h3 <;> simp at this

/-- The hypotheses of `C89_names_partial` and `C89_extends_partial` hold of `net a`; the text is completed. -/
example : (∀ p r, ¬ InArgs ready ready.commands "net a".toList p r) ∧ shellComplete disk ready "net a".toList 0 = .text "net add".toList := ⟨net_free, by decide +kernel⟩

theorem ping_args (r : Str) : InArgs ready ready.commands ("ping ".toList ++ r) "ping ".toList r :=
  .here ready.commands "ping".toList 6 r (by decide +kernel) (by decide +kernel)

/-- `C89_files_partial`: a path with its directory, the second argument of `ping`. -/
example : InArgs ready ready.commands "ping a f:///w/d".toList "ping ".toList "a f:///w/d".toList ∧ LastWord "a f:///w/d".toList "a ".toList ("f://".toList ++ "/w/d".toList) ∧
    Looks disk (disk.expand "/w/d".toList) "/w/".toList "/w".toList "d".toList ∧ entries disk "/w".toList "d".toList = ["data".toList, "disk".toList] ∧
    (List.range 3).map (shellComplete disk ready "ping a f:///w/d".toList) = [.text "ping a f:///w/data".toList, .text "ping a f:///w/disk".toList, .raised] :=
  ⟨ping_args _, ⟨rfl, by decide, by decide⟩, .written "/w/".toList "/w".toList "d".toList (.dir "/w".toList (by decide) (by decide)) (by decide), by decide, by decide +kernel⟩

/-- And in the current directory. -/
example : Looks disk (disk.expand "d".toList) "/w/".toList "/w".toList "d".toList := .current "/w/".toList "d".toList (.dir "/w".toList (by decide) (by decide)) (by decide)

/-- `C89_other_partial`. -/
example : InArgs ready ready.commands "ping d".toList "ping ".toList "d".toList ∧ LastWord "d".toList [] "d".toList ∧ ¬ "f://".toList <+: "d".toList ∧
    shellComplete disk ready "ping d".toList 0 = .raised := ⟨ping_args _, ⟨rfl, by decide, .inl rfl⟩, by decide, by decide +kernel⟩

/-- `C89_entered_partial`: `net add`. -/
example : Path ready ready.commands "net add".toList 9 ∧ (∀ x ∈ "net add".toList, x = ' ' ∨ Safe x) ∧ [] ∉ splitOn ' ' "net add".toList ∧ (ready.obj 9).dflt = some ⟨.user 3, none⟩ :=
  ⟨.down ready.commands "net".toList 8 "add".toList 9 (by decide +kernel) (by decide +kernel) (.last _ "add".toList 9 (by decide +kernel)), by decide, by decide, by decide +kernel⟩

/-! ## What does not hold -/

/-- "A completer returns None when there are no more completions" is false below the first name: a `TypeError` is raised (`readline` does not show it). -/
theorem C89_false_none : shellComplete disk ready "net ".toList 1 = .raised ∧ shellComplete disk ready "ping ".toList 0 = .raised ∧ shellComplete disk ready "zz".toList 0 = .nothing := by
  decide +kernel

/-- "What is offered begins with what was typed" is false of a file in the current directory and of one in the home directory: what was typed is replaced. -/
theorem C89_false_relative : shellComplete disk ready "ping f://d".toList 0 = .text "ping f:///w/data".toList ∧ ¬ "ping f://d".toList <+: "ping f:///w/data".toList ∧
    shellComplete disk ready "ping f://~/no".toList 0 = .text "ping f:///home/u/notes".toList ∧ ¬ "ping f://~/no".toList <+: "ping f:///home/u/notes".toList := by decide +kernel

/-- "What is offered can be entered" is false of a file with a blank in its name: it is not quoted, and the line has one argument more. And quoted, it is not completed. -/
theorem C89_false_quoting : shellComplete disk ready "ping f:///home/u/ne".toList 0 = .text "ping f:///home/u/new plan".toList ∧
    split "ping f:///home/u/new plan".toList = .ok ["ping".toList, "f:///home/u/new".toList, "plan".toList] ∧
    shellComplete disk ready "ping 'f:///home/u/ne".toList 0 = .raised ∧ shellComplete disk ready "ping f:///home/u/new p".toList 0 = .raised := by decide +kernel

/-- A command with a blank in its name can be registered; its name is not completed once a command with the first part of it is there (and the shell cannot call it without quotes). -/
def blankSetup : List Ev := [.new "net".toList .sub none, .register 6, .new "net up".toList .single (some (3, none)), .register 8]

theorem C89_false_blank : (exec .init blankSetup).commands.get "net up".toList = some 8 ∧ Path (exec .init blankSetup) (exec .init blankSetup).commands "net up".toList 8 ∧
    shellComplete disk (exec .init blankSetup) "net u".toList 0 = .raised := ⟨by decide +kernel, .last _ _ _ (by decide +kernel), by decide +kernel⟩

/-- Two slashes at the end of the directory: what is offered has one. -/
theorem C89_false_slashes : shellComplete disk ready "ping f:///w//d".toList 0 = .text "ping f:///w/data".toList ∧ ¬ "ping f:///w//d".toList <+: "ping f:///w/data".toList := by decide +kernel

end Verif.Shell
