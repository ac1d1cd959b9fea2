import Verif.Lemmas.ShellInv
import Verif.Props.Shlex
/-! # C66: the commands of the shell -/
namespace Verif.Shell
open Verif.Shlex (Line pySpace stripLine split typed quote Safe)

/-! ## One line -/

theorem Means.one {s : St} {o : Nat} {ws : List Str} {p p' : Pod} {a a' : List Str} (h : Means s o ws p a) (h' : Means s o ws p' a') : p = p' ∧ a = a' := by
  induction h with
  | single o ws p h1 h2 =>
    cases h' with
    | single _ _ _ g1 g2 => rw [h2] at g2; cases g2; exact ⟨rfl, rfl⟩
    | alone _ _ g1 g2 => exact absurd h1 g1
    | count _ _ _ g1 _ _ => rw [h1] at g1; cases g1
    | sub _ _ _ _ _ _ g1 _ _ => rw [h1] at g1; cases g1
  | alone o p h1 h2 =>
    cases h' with
    | single _ _ _ g1 g2 => exact absurd g1 h1
    | alone _ _ g1 g2 => rw [h2] at g2; cases g2; exact ⟨rfl, rfl⟩
    | count _ _ _ _ g2 _ => exact absurd rfl g2
  | count o ws p h1 h2 h3 =>
    cases h' with
    | single _ _ _ g1 g2 => rw [h1] at g1; cases g1
    | alone _ _ g1 g2 => exact absurd rfl h2
    | count _ _ _ _ _ g3 => rw [h3] at g3; cases g3; exact ⟨rfl, rfl⟩
    | sub _ _ _ _ _ _ g1 _ _ => rw [h1] at g1; cases g1
  | sub o o' w ws p args h1 h2 _ ih =>
    cases h' with
    | single _ _ _ g1 g2 => rw [h1] at g1; cases g1
    | count _ _ _ g1 _ _ => rw [h1] at g1; cases g1
    | sub _ _ _ _ _ _ g1 g2 g3 => rw [h2] at g2; cases g2; exact ih g3

/-- **C66.** A line means one thing at most. -/
theorem C66_one {s : St} {l : Str} {p p' : Pod} {a a' : List Str} (h : Commands s l p a) (h' : Commands s l p' a') : p = p' ∧ a = a' := by
  obtain ⟨m, ws, c, rest, o, h1, h2, h3, h4, h5⟩ := h
  obtain ⟨m', ws', c', rest', o', g1, g2, g3, g4, g5⟩ := h'
  rw [trim_iff] at h1 g1
  rw [h1] at g1
  subst g1
  have := Shlex.C66_one_reading h2 g2
  subst this
  rw [h3] at g3
  cases g3
  rw [h4] at g4
  cases g4
  exact h5.one g5

theorem handled_iff (e : Env) (p : Pod) (args : List Str) (vs : List Val) : handled e p args = .args vs ↔ Hands e p args vs := by
  obtain ⟨c, k⟩ := p
  cases k with
  | none =>
    constructor
    · intro h; simp only [handled, ArgRes.args.injEq] at h; subst h; exact .plain c args
    · intro h; cases h; rfl
  | some k =>
    constructor
    · intro h; exact .handler c k args vs h
    · intro h; cases h; assumption

theorem called_handler (p : Pod) (args : List Str) : called (handlerEff p args) = [] := by
  unfold handlerEff; split <;> rfl

theorem runCb_quiet (e : Env) (s : St) (c : Cb) (vs : List Val) : ∃ l, (runCb e s c vs).1.out = s.out ++ l ∧ called l = [] := by
  unfold runCb
  split
  · split
    · exact ⟨_, rfl, rfl⟩
    · exact ⟨[], by simp, rfl⟩
    · exact ⟨[], by simp, rfl⟩
  · exact ⟨[], by simp, rfl⟩
  · unfold runBatch
    split
    · split <;> exact ⟨_, rfl, rfl⟩
    · exact ⟨_, rfl, rfl⟩
  · exact ⟨[], by simp, rfl⟩

/-- **C66.** A line that means a callback runs exactly this callback, once, on what the argument handler makes of the words; and the result is that of the callback. -/
theorem C66_runs (e : Env) (s : St) (l : Str) (p : Pod) (args : List Str) (vs : List Val) (h : Commands s l p args) (hv : Hands e p args vs) :
    calls s (lineReceived e s l).1 = [(p.cb, vs)] ∧
    (∀ n, p.cb = .user n → (lineReceived e s l).2 = match e.run n vs with
      | .raised => .failed
      | .plain => .ok .plain
      | .fut f => .ok (.fut (.user f))) := by
  rw [line_means h]
  unfold invoke
  simp only
  rw [(handled_iff ..).mpr hv]
  dsimp only
  refine ⟨?_, ?_⟩
  · obtain ⟨k, h1, h2⟩ := runCb_quiet e (emit (emit s (handlerEff p args)) [.ran p.cb vs]) p.cb vs
    unfold calls
    rw [h1]
    simp only [emit, List.append_assoc, List.drop_left]
    rw [called_append, called_append, called_handler, h2]
    rfl
  · intro n hn
    rw [hn]
    simp only [runCb]
    split <;> simp_all

/-- **C66.** If the argument handler does not accept the words, no callback runs and the line fails. -/
theorem C66_refused (e : Env) (s : St) (l : Str) (p : Pod) (args : List Str) (h : Commands s l p args) (hv : ∀ vs, ¬ Hands e p args vs) :
    calls s (lineReceived e s l).1 = [] ∧ (lineReceived e s l).2 = .failed := by
  rw [line_means h]
  unfold invoke
  simp only
  split
  · exact ⟨by simp [calls, emit, called_append, called_handler, called], rfl⟩
  · exact ⟨by simp [calls, emit, called_append, called_handler, called], rfl⟩
  · next vs hx => exact absurd ((handled_iff ..).mp hx) (hv vs)

/-- **C66.** A line that means nothing (an unknown command or subcommand, a number of arguments that was not configured, bad quotes, an empty line) runs no callback
and fails. -/
theorem C66_nothing (e : Env) (s : St) (l : Str) (h : ∀ p args, ¬ Commands s l p args) :
    calls s (lineReceived e s l).1 = [] ∧ (lineReceived e s l).2 = .failed := line_nothing h

/-- **C66.** No line changes the commands or what they mean. -/
theorem C66_frame (e : Env) (s : St) (l : Str) : (lineReceived e s l).1.commands = s.commands ∧ (lineReceived e s l).1.obj = s.obj :=
  ⟨(frame_line e s l).commands, (frame_line e s l).obj⟩

/-! ## Typing a command -/

theorem safe_or_quote (w : Str) (h : w ≠ []) : (∀ c, (quote w).head? = some c → pySpace c = false) ∧ (∀ c, (quote w).getLast? = some c → pySpace c = false) := by
  unfold quote
  rw [if_neg h]
  split
  · next hs =>
    exact ⟨fun c hc => Shlex.safe_space (hs c (List.mem_of_mem_head? hc)), fun c hc => Shlex.safe_space (hs c (List.mem_of_getLast? hc))⟩
  · constructor
    · intro c hc
      simp only [Shlex.quoted, List.cons_append, List.head?_cons, Option.some.injEq] at hc
      subst hc; decide
    · intro c hc
      simp only [Shlex.quoted, List.getLast?_append, List.getLast?_singleton, Option.or_some, Option.some.injEq] at hc
      simp at hc
      subst hc; decide

theorem quote_ne (w : Str) : quote w ≠ [] := by
  unfold quote
  split
  · simp
  · split
    · assumption
    · simp [Shlex.quoted]

theorem typed_ne (w : Str) (ws : List Str) : typed (w :: ws) ≠ [] := by
  cases ws with
  | nil => exact quote_ne w
  | cons => simp [typed]

/-- C66. What is removed at the ends of a line is Python's white space. -/
theorem C66_space (c : Char) : pySpace c = true ↔ c.toNat ∈ whitespace := by
  generalize hn : c.toNat = n
  simp only [pySpace, hn, whitespace, List.mem_cons, List.not_mem_nil, or_false, Bool.or_eq_true, Bool.and_eq_true, decide_eq_true_eq, beq_iff_eq]
  omega

theorem typed_trim (ws : List Str) (h : ∀ w ∈ ws, w ≠ []) : Trim (typed ws) (typed ws) := by
  refine ⟨[], [], by simp, by simp, by simp, ?_, ?_⟩
  · intro c hc
    cases ws with
    | nil => simp [typed] at hc
    | cons w ws =>
      refine (safe_or_quote w (h w (by simp))).1 c ?_
      cases ws with
      | nil => exact hc
      | cons v ws =>
        rw [typed, List.head?_append] at hc
        · cases hq : (quote w).head? with
          | none => rw [List.head?_eq_none_iff] at hq; exact absurd hq (quote_ne w)
          | some y => rw [hq] at hc; simpa using hc
        · simp
  · intro c hc
    induction ws with
    | nil => simp [typed] at hc
    | cons w ws ih =>
      cases ws with
      | nil => exact (safe_or_quote w (h w (by simp))).2 c hc
      | cons v ws =>
        refine ih (fun x hx => h x (by simp [hx])) ?_
        rw [typed, List.getLast?_append] at hc
        · rw [List.getLast?_cons] at hc
          cases hq : (typed (v :: ws)).getLast? with
          | none => rw [List.getLast?_eq_none_iff] at hq; exact absurd hq (typed_ne v ws)
          | some y => rw [hq] at hc; simpa using hc
        · simp

/-- **C66.** Whatever non-empty words a command takes, they can be typed. -/
theorem C66_typed_means (s : St) (c : Str) (ws : List Str) (o : Nat) (p : Pod) (args : List Str) (hc : c ≠ []) (hw : ∀ w ∈ ws, w ≠ []) (hr : s.commands.get c = some o)
    (hm : Means s o ws p args) : Commands s (typed (c :: ws)) p args := by
  have hall : ∀ w ∈ c :: ws, w ≠ [] := by simpa [hc] using hw
  refine ⟨_, c :: ws, c, ws, o, typed_trim _ hall, (Shlex.C66_words _ _).mp (Shlex.C66_typed _), ?_, hr, hm⟩
  rw [List.filter_eq_self]
  simpa using hall

/-! ## Histories -/

theorem Means.lasts {s s' : St} (hi : Inv s) (hl : Lasts s s') {o : Nat} {ws : List Str} {p : Pod} {args : List Str} (h : Means s o ws p args) (ho : o < s.nObj) :
    Means s' o ws p args := by
  induction h with
  | single o ws p h1 h2 => exact .single o ws p ((hl.same o ho).2.1.trans h1) ((hl.same o ho).2.2.1.trans h2)
  | alone o p h1 h2 => exact .alone o p (by rw [(hl.same o ho).2.1]; exact h1) ((hl.same o ho).2.2.1.trans h2)
  | count o ws p h1 h2 h3 => exact .count o ws p ((hl.same o ho).2.1.trans h1) h2 (hl.pods o _ p ho h3)
  | sub o o' w ws p args h1 h2 _ ih => exact .sub o o' w ws p args ((hl.same o ho).2.1.trans h1) (hl.subs o w o' ho h2) (ih (hi.subs o w o' ho h2))

/-- **C66.** What a line means it means forever, whatever is registered, configured and typed later. -/
theorem C66_keeps (h h' : List Ev) (l : Str) (p : Pod) (args : List Str) (hc : Commands (exec .init h) l p args) : Commands (exec .init (h ++ h')) l p args := by
  obtain ⟨m, ws, c, rest, o, h1, h2, h3, h4, h5⟩ := hc
  have hi := Inv.reachable h
  have hl := (Inv.exec hi h').2
  rw [exec_append]
  exact ⟨m, ws, c, rest, o, h1, h2, h3, hl.commands c o h4, h5.lasts hi hl (hi.low c o h4).1⟩

/-- **C66.** `registerCommand` raises exactly for a name that starts with an underscore or is taken, and then changes nothing; otherwise the command has its name and
all others keep theirs. -/
theorem C66_register (h : List Ev) (o : Nat) (ho : mine (exec .init h) o = true) :
    let s := exec .init h
    let s' := exec .init (h ++ [.register o])
    ((∃ r, (s.obj o).txt = '_' :: r) ∨ s.commands.has (s.obj o).txt = true → s' = emit s [.raised]) ∧
    (¬ ((∃ r, (s.obj o).txt = '_' :: r) ∨ s.commands.has (s.obj o).txt = true) → s'.out = s.out ∧ s'.commands.get (s.obj o).txt = some o ∧
      ∀ c, c ≠ (s.obj o).txt → s'.commands.get c = s.commands.get c) := by
  intro s s'
  have hs' : s' = register s o := by
    show exec .init (h ++ [.register o]) = _
    rw [exec_append]; simp only [exec, step]; rw [if_pos ho]
  have hu : (∃ r, (s.obj o).txt = '_' :: r) ↔ (s.obj o).txt.head? = some '_' := by
    cases (s.obj o).txt with
    | nil => simp
    | cons x r => simp
  rw [hs', hu]
  unfold register
  constructor
  · intro hx
    split
    · rfl
    · next h1 =>
      rcases hx with hx | hx
      · exact absurd hx h1
      · unfold addCommand; simp only; rw [if_pos hx]
  · intro hx
    rw [if_neg (fun x => hx (.inl x))]
    unfold addCommand
    simp only
    rw [if_neg (fun x => hx (.inr x))]
    refine ⟨rfl, Dict.get_set_self _ _ _, fun c hc => Dict.get_set_ne _ _ (Ne.symm hc)⟩

/-- **C66.** `configure` raises exactly for a command that is not in standard mode, a number of arguments below one, or one that is configured already, and then changes
nothing; otherwise the command has the callback for this number. -/
theorem C66_configure (h : List Ev) (o : Nat) (n : Int) (p : Nat × Option Nat) (ho : mine (exec .init h) o = true) :
    let s := exec .init h
    let s' := exec .init (h ++ [.configure o n p])
    ((s.obj o).mode ≠ .standard ∨ n < 1 ∨ (s.obj o).pods.has n.toNat = true → s' = emit s [.raised]) ∧
    (¬ ((s.obj o).mode ≠ .standard ∨ n < 1 ∨ (s.obj o).pods.has n.toNat = true) → s'.out = s.out ∧ (s'.obj o).pods.get n.toNat = some (app p) ∧
      (∀ k, k ≠ n.toNat → (s'.obj o).pods.get k = (s.obj o).pods.get k) ∧ ∀ o', o' ≠ o → s'.obj o' = s.obj o') := by
  intro s s'
  have hs' : s' = configure s o n (app p) := by
    show exec .init (h ++ [.configure o n p]) = _
    rw [exec_append]; simp only [exec, step]; rw [if_pos ho]
  rw [hs']
  unfold configure
  constructor
  · intro hx
    split
    · rfl
    · next h1 =>
      split
      · rfl
      · next h2 =>
        split
        · rfl
        · next h3 =>
          rcases hx with hx | hx | hx
          · exact absurd hx h1
          · exact absurd hx h3
          · exact absurd ⟨hx, by omega⟩ h2
  · intro hx
    rw [if_neg (fun x => hx (.inl x)), if_neg (fun x => hx (.inr (.inr x.1))), if_neg (fun x => hx (.inr (.inl x)))]
    refine ⟨rfl, ?_, ?_, ?_⟩
    · simp [upd, Dict.get_set_self]
    · intro k hk; simp [upd, Dict.get_set_ne _ _ (Ne.symm hk)]
    · intro o' hne; simp [upd, hne]

/-- **C66.** `configureSubcommand` raises exactly for a command that is not in subcommand mode or a name that is taken there, and then changes nothing; otherwise the
command has the subcommand. -/
theorem C66_configureSub (h : List Ev) (o o' : Nat) (ho : mine (exec .init h) o = true) (ho' : mine (exec .init h) o' = true) :
    let s := exec .init h
    let s' := exec .init (h ++ [.configureSub o o'])
    ((s.obj o).mode ≠ .sub ∨ (s.obj o).subs.has (s.obj o').txt = true → s' = emit s [.raised]) ∧
    (¬ ((s.obj o).mode ≠ .sub ∨ (s.obj o).subs.has (s.obj o').txt = true) → s'.out = s.out ∧ (s'.obj o).subs.get (s.obj o').txt = some o' ∧
      (∀ w, w ≠ (s.obj o').txt → (s'.obj o).subs.get w = (s.obj o).subs.get w) ∧ ∀ x, x ≠ o → s'.obj x = s.obj x) := by
  intro s s'
  have hs' : s' = configureSub s o o' := by
    show exec .init (h ++ [.configureSub o o']) = _
    rw [exec_append]; simp only [exec, step]; rw [if_pos ⟨ho, ho'⟩]
  rw [hs']
  unfold configureSub
  constructor
  · intro hx
    split
    · rfl
    · next h1 =>
      rcases hx with hx | hx
      · exact absurd hx h1
      · rw [if_pos hx]
  · intro hx
    rw [if_neg (fun x => hx (.inl x)), if_neg (fun x => hx (.inr x))]
    refine ⟨rfl, ?_, ?_, ?_⟩
    · simp [upd, Dict.get_set_self]
    · intro k hk; simp [upd, Dict.get_set_ne _ _ (Ne.symm hk)]
    · intro x hne; simp [upd, hne]

/-- **C66.** The shell's own commands always mean what they are: nobody can take their names or change them. -/
theorem C66_builtin (h : List Ev) :
    Commands (exec .init h) "quit".toList ⟨.quit, none⟩ [] ∧
    (∀ f, f ≠ [] → Commands (exec .init h) (typed ["batch".toList, f]) ⟨.batch, none⟩ [bare f]) ∧
    Commands (exec .init h) "help".toList ⟨.help none, none⟩ [] ∧
    ∀ ws p args, Commands (exec .init h) (typed ("quit".toList :: ws)) p args → (∀ w ∈ ws, w ≠ []) → ws = [] := by
  have hi := Inv.reachable h
  refine ⟨?_, ?_, ?_, ?_⟩
  · have := C66_typed_means (exec .init h) "quit".toList [] 2 ⟨.quit, none⟩ [] (by decide) (by simp) hi.own.2.2 (.alone 2 _ (by rw [hi.quit]; decide) (by rw [hi.quit]))
    have e : typed ["quit".toList] = "quit".toList := by decide
    rwa [e] at this
  · intro f hf
    refine C66_typed_means _ _ [f] 1 _ _ (by decide) (by simpa using hf) hi.own.2.1 ?_
    have := Means.count (s := exec .init h) 1 [f] ⟨.batch, none⟩ (by rw [hi.batch]) (by simp) (by rw [hi.batch]; rfl)
    exact this
  · have := C66_typed_means (exec .init h) "help".toList [] 0 ⟨.help none, none⟩ [] (by decide) (by simp) hi.own.1 (.alone 0 _ (by rw [hi.help.2.1]; decide) hi.help.2.2.1)
    have e : typed ["help".toList] = "help".toList := by decide
    rwa [e] at this
  · intro ws p args hc hw
    obtain ⟨m, ws', c, rest, o, h1, h2, h3, h4, h5⟩ := hc
    have hall : ∀ w ∈ "quit".toList :: ws, w ≠ [] := by
      intro w hm
      rcases List.mem_cons.mp hm with rfl | hm
      · decide
      · exact hw w hm
    have e1 := (trim_iff _ _).mp h1
    rw [(trim_iff _ _).mp (typed_trim _ hall)] at e1
    subst e1
    have e2 := Shlex.C66_one_reading h2 ((Shlex.C66_words _ _).mp (Shlex.C66_typed _))
    subst e2
    rw [List.filter_eq_self.mpr (by simpa using hall)] at h3
    cases h3
    rw [hi.own.2.2] at h4
    cases h4
    cases h5 with
    | single _ _ _ g _ => rw [hi.quit] at g; cases g
    | alone => rfl
    | count _ _ _ _ _ g => rw [hi.quit] at g; cases g
    | sub _ _ _ _ _ _ g _ _ => rw [hi.quit] at g; cases g

/-- **C66.** `help` knows exactly the registered commands. -/
theorem C66_help (h : List Ev) (c : Str) (hc : c ≠ []) :
    ((exec .init h).commands.has c = true → Commands (exec .init h) (typed ["help".toList, c]) ⟨.help (some c), none⟩ []) ∧
    ((exec .init h).commands.has c = false → ∀ p args, ¬ Commands (exec .init h) (typed ["help".toList, c]) p args) := by
  have hi := Inv.reachable h
  have hall : ∀ w ∈ ["help".toList, c], w ≠ [] := by
    intro w hm
    simp only [List.mem_cons, List.not_mem_nil, or_false] at hm
    rcases hm with rfl | rfl
    · decide
    · exact hc
  constructor
  · intro hx
    obtain ⟨o, h1, h2⟩ := hi.known c hx
    refine C66_typed_means _ _ [c] 0 _ _ (by decide) (by simpa using hc) hi.own.1 (.sub 0 o c [] _ _ hi.help.2.1 h1 ?_)
    exact .single o [] _ (by rw [h2]) (by rw [h2])
  · rintro hx p args ⟨m, ws', d, rest, o, h1, h2, h3, h4, h5⟩
    have e1 := (trim_iff _ _).mp h1
    rw [(trim_iff _ _).mp (typed_trim _ hall)] at e1
    subst e1
    have e2 := Shlex.C66_one_reading h2 ((Shlex.C66_words _ _).mp (Shlex.C66_typed _))
    subst e2
    rw [List.filter_eq_self.mpr (by simpa using hall)] at h3
    cases h3
    rw [hi.own.1] at h4
    cases h4
    have hn := hi.unknown c (by simpa [Dict.has] using hx)
    cases h5 with
    | single _ _ _ g _ => rw [hi.help.2.1] at g; cases g
    | count _ _ _ g _ _ => rw [hi.help.2.1] at g; cases g
    | sub _ _ _ _ _ _ _ g _ => rw [hn] at g; cases g

/-- **C66.** From the API to the callback: a command that was made, configured for `n` arguments and registered is called by every line with its name and `n` words, whatever
happens in between and later. -/
theorem C66_end_to_end (h1 h2 h3 h4 : List Ev) (txt : Str) (d : Option (Nat × Option Nat)) (n : Nat) (p : Nat × Option Nat) (ws : List Str)
    (htxt : txt ≠ []) (hu : txt.head? ≠ some '_') (hn : ws.length = n) (h0 : 0 < n) (hw : ∀ w ∈ ws, w ≠ [])
    (hp : ((exec .init (h1 ++ .new txt .standard d :: h2)).obj (exec .init h1).nObj).pods.has n = false)
    (hc : (exec .init (h1 ++ .new txt .standard d :: h2 ++ .configure (exec .init h1).nObj n p :: h3)).commands.has txt = false) :
    Commands (exec .init (h1 ++ .new txt .standard d :: h2 ++ .configure (exec .init h1).nObj n p :: h3 ++ .register (exec .init h1).nObj :: h4)) (typed (txt :: ws))
      (app p) (ws.map bare) := by
  generalize ho : (exec .init h1).nObj = o at *
  have a1 : exec .init (h1 ++ .new txt .standard d :: h2) = exec (alloc (exec .init h1) ⟨txt, .standard, d.map app, [], [], true⟩) h2 := by
    rw [exec_append]; simp only [exec, step]; rw [if_neg (by simp)]
  have i1 : Inv (alloc (exec .init h1) ⟨txt, .standard, d.map app, [], [], true⟩) := (Inv.reachable h1).alloc (by simp) rfl rfl
  have l2 := (i1.exec h2).2
  rw [← a1] at l2
  have x1 : (alloc (exec .init h1) ⟨txt, .standard, d.map app, [], [], true⟩).obj o = ⟨txt, .standard, d.map app, [], [], true⟩ := by
    simp [alloc, upd, ho]
  have x2 : o < (alloc (exec .init h1) ⟨txt, .standard, d.map app, [], [], true⟩).nObj := by simp [alloc, ho]
  obtain ⟨t2, m2, _, u2⟩ := l2.same o x2
  rw [x1] at t2 m2 u2
  dsimp only at t2 m2 u2
  have n2 := Nat.lt_of_lt_of_le x2 l2.nObj
  have mine2 : mine (exec .init (h1 ++ .new txt .standard d :: h2)) o = true := by simp [mine, u2, n2]
  have key := (C66_configure (h1 ++ .new txt .standard d :: h2) o n p mine2).2 (by
    rintro (h | h | h)
    · exact h m2
    · omega
    · simp only [Int.toNat_natCast] at h; rw [hp] at h; cases h)
  have split3 : h1 ++ Ev.new txt .standard d :: h2 ++ .configure o n p :: h3 = (h1 ++ Ev.new txt .standard d :: h2 ++ [.configure o n p]) ++ h3 := by simp
  have i3 := Inv.reachable (h1 ++ Ev.new txt .standard d :: h2 ++ [.configure o n p])
  have l3 := (i3.exec h3).2
  rw [← exec_append, ← split3] at l3
  have l3' := ((Inv.reachable (h1 ++ Ev.new txt .standard d :: h2)).exec (.configure o n p :: h3)).2
  rw [← exec_append] at l3'
  obtain ⟨t3, m3, _, u3⟩ := l3'.same o n2
  rw [t2] at t3
  rw [m2] at m3
  rw [u2] at u3
  have n3 := Nat.lt_of_lt_of_le n2 l3'.nObj
  have lc := ((Inv.reachable (h1 ++ Ev.new txt .standard d :: h2)).exec [.configure o n p]).2
  rw [← exec_append] at lc
  have p3 := l3.pods o n (app p) (Nat.lt_of_lt_of_le n2 lc.nObj) (by have := key.2.1; rwa [Int.toNat_natCast] at this)
  have mine3 : mine (exec .init (h1 ++ .new txt .standard d :: h2 ++ .configure o n p :: h3)) o = true := by unfold mine; rw [u3, decide_eq_true n3]; rfl
  have reg := (C66_register _ o mine3).2 (by
    rw [t3]
    rintro (⟨r, h⟩ | h)
    · exact hu (by rw [h]; rfl)
    · rw [hc] at h; cases h)
  have l4' := ((Inv.reachable (h1 ++ .new txt .standard d :: h2 ++ .configure o n p :: h3)).exec (.register o :: h4)).2
  rw [← exec_append] at l4'
  have split4 : h1 ++ Ev.new txt .standard d :: h2 ++ .configure o n p :: h3 ++ .register o :: h4 =
      (h1 ++ Ev.new txt .standard d :: h2 ++ .configure o n p :: h3 ++ [.register o]) ++ h4 := by simp
  have l4 := ((Inv.reachable (h1 ++ Ev.new txt .standard d :: h2 ++ .configure o n p :: h3 ++ [.register o])).exec h4).2
  rw [← exec_append, ← split4] at l4
  refine C66_typed_means _ _ ws o _ _ htxt hw (l4.commands _ _ (by have r := reg.2.1; rwa [t3] at r)) (.count o ws _ ((l4'.same o n3).2.1.trans m3) ?_ ?_)
  · rintro rfl; simp at hn; omega
  · rw [hn]; exact l4'.pods o n _ n3 p3

/-! ## Cases of the theorems -/

/-- An environment: argument handler 7 takes one word that is a digit, callback 3 gives a future, callback 4 raises. -/
def env : Env where
  arg k ws := if k = 7 ∧ ws = ["5".toList] then .args [.obj 5] else .refused
  run n _ := if n = 3 then .fut 30 else if n = 4 then .raised else .plain
  file f := if f = "b".toList then .lines ["net add x\n".toList, "quit\n".toList] else .missing

/-- A standard command `ping` (one argument; two with an argument handler), and `net add`, a subcommand. -/
def setup : List Ev := [.new "ping".toList .standard none, .configure 6 1 (3, none), .configure 6 2 (4, some 7), .register 6,
  .new "net".toList .sub none, .new "add".toList .single (some (3, none)), .configureSub 8 9, .register 8]

def ready : St := exec .init setup

theorem ready_ping : Commands ready "ping 'a b'".toList ⟨.user 3, none⟩ ["a b".toList] :=
  C66_end_to_end [] [] [.configure 6 2 (4, some 7)] [.new "net".toList .sub none, .new "add".toList .single (some (3, none)), .configureSub 8 9, .register 8] "ping".toList none 1 (3, none)
    ["a b".toList] (by decide) (by decide) rfl (by decide) (by decide) (by decide) (by decide)

/-- `net add x f://y`. -/
theorem ready_net : Commands ready (typed ["net".toList, "add".toList, "x".toList, "f://y".toList]) ⟨.user 3, none⟩ ["x".toList, "y".toList] :=
  C66_typed_means ready "net".toList ["add".toList, "x".toList, "f://y".toList] 8 _ _ (by decide) (by decide) (by decide +kernel)
    (.sub 8 9 _ _ _ _ (by decide +kernel) (by decide +kernel) (by
      have := Means.single (s := ready) 9 ["x".toList, "f://y".toList] ⟨.user 3, none⟩ (by decide +kernel) (by decide +kernel)
      exact this))

example : Hands env ⟨.user 3, none⟩ ["a b".toList] [.text "a b".toList] := .plain _ _

/-- `C66_runs` on it. -/
example : (lineReceived env ready "ping 'a b'".toList).2 = .ok (.fut (.user 30)) ∧ calls ready (lineReceived env ready "ping 'a b'".toList).1 = [(.user 3, [.text "a b".toList])] := by
  decide +kernel

/-- `C66_refused`: the handler of `ping` with two arguments refuses. -/
example : Commands ready "ping 5 6".toList ⟨.user 4, some 7⟩ ["5".toList, "6".toList] ∧ ∀ vs, ¬ Hands env ⟨.user 4, some 7⟩ ["5".toList, "6".toList] vs := by
  constructor
  · exact C66_typed_means ready "ping".toList ["5".toList, "6".toList] 6 _ _ (by decide) (by decide) (by decide +kernel)
      (.count 6 ["5".toList, "6".toList] ⟨.user 4, some 7⟩ (by decide +kernel) (by decide) (by decide +kernel))
  · intro vs h
    have h' := (handled_iff ..).mpr h
    have : handled env ⟨.user 4, some 7⟩ ["5".toList, "6".toList] = .refused := by decide +kernel
    rw [this] at h'
    cases h'

/-- `C66_register`, `C66_configure` and `C66_configureSub` both ways: objects of the application, names free and taken. -/
example : mine ready 6 = true ∧ mine ready 8 = true ∧ mine ready 9 = true ∧ ready.commands.has "add".toList = false ∧ ready.commands.has (ready.obj 6).txt = true ∧
    (ready.obj 6).mode = .standard ∧ (ready.obj 6).pods.has 1 = true ∧ (ready.obj 6).pods.has 3 = false ∧ (ready.obj 8).subs.has (ready.obj 9).txt = true ∧
    (ready.obj 8).subs.has (ready.obj 6).txt = false := by decide +kernel

/-! ## What does not hold -/

/-- C66 is false for empty words: a command for one argument is not called with one argument that is empty, because empty words are removed. -/
theorem C66_false_empty : (ready.obj 6).pods.get 1 = some ⟨.user 3, none⟩ ∧ ready.commands.get "ping".toList = some 6 ∧ split (typed ["ping".toList, []]) = .ok ["ping".toList, []] ∧
    calls ready (lineReceived env ready (typed ["ping".toList, []])).1 = [] ∧ (lineReceived env ready (typed ["ping".toList, []])).2 = .failed := by decide +kernel

/-- C66 is false for a line that ends in an escaped blank: the blank is removed before the line is split, and the line is an error. -/
theorem C66_false_blank : split "ping a\\ ".toList = .ok ["ping".toList, "a ".toList] ∧
    calls ready (lineReceived env ready "ping a\\ ".toList).1 = [] ∧ (lineReceived env ready "ping a\\ ".toList).2 = .failed := by decide +kernel

end Verif.Shell
