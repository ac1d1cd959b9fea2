import Verif.Props.Launch
/-! # C69: the status file of the VNIC daemon and what PNMS reads from it -/
namespace Verif.Launch

theorem render_text (c : Cfg) (b : Bool) : render c (if b then connectedStr else disconnectedStr) = fileText c b := by
  unfold render fileText joinWith joinWith connectedStr disconnectedStr
  simp only [List.append_assoc, List.cons_append, List.nil_append]

theorem render_up (c : Cfg) : render c connectedStr = fileText c true := render_text c true
theorem render_down (c : Cfg) : render c disconnectedStr = fileText c false := render_text c false

/-- The contents the file goes through in a write. -/
def goes (c : Cfg) (b : Bool) : Write → List Str
  | .ok => [[], fileText c b]
  | .noOpen => []
  | .cut n => [[], (fileText c b).take n]

theorem writeStatus_files (c : Cfg) (w : Write) (s : St) (b : Bool) :
    (writeStatus c w s (if b then connectedStr else disconnectedStr)).1.files = s.files ++ goes c b w := by
  unfold writeStatus goes
  rw [render_text]
  cases w <;> simp

theorem writeStatus_other (c : Cfg) (w : Write) (s : St) (x : Str) (t : List Nat) :
    (writeStatus c w { s with timers := t } x).1.files = (writeStatus c w s x).1.files := by
  cases w <;> rfl

theorem alert_files (c : Cfg) (w : Write) (s : St) (a : Alert) :
    (alert c w s a).1.files = s.files ++ goes c (decide (a = .connectionMade)) w := by
  cases a with
  | connectionMade =>
    have := writeStatus_files c w s true
    rw [if_pos rfl] at this
    unfold alert statusAlert connectAlert
    dsimp only
    split
    · cases h : writeStatus c w s connectedStr with
      | mk s1 b => rw [h] at this; cases b <;> exact this
    · exact this
  | connectionLost =>
    have := writeStatus_files c w s false
    rw [if_neg (by simp)] at this
    unfold alert statusAlert connectAlert
    dsimp only
    split
    · cases h : writeStatus c w s disconnectedStr with
      | mk s1 b => rw [h] at this; cases b <;> exact this
    · exact (writeStatus_other c w s disconnectedStr _).trans this

/-- The state of the link after an event, and what the event does to the file. -/
theorem step_files {c : Cfg} {z n d i l : Nat} {safe : Prop} {s : St} {m : Mode} {p : Prom.Phase} (hi : Inv z n d i safe l s m p) (e : Ev) :
    ((step c s e).files = s.files ∧ ((step c s e).links = [] ↔ s.links = [])) ∨
    (∃ k w tx, e = .made k w ∧ (step c s e).files = s.files ++ goes c true w ∧ (step c s e).links = [tx]) ∨
    (∃ tx w, e = .lost tx w ∧ (step c s e).files = s.files ++ goes c false w ∧ (step c s e).links = []) := by
  cases e with
  | wait n => exact .inl ⟨rfl, Iff.rfl⟩
  | setLevel l => exact .inl ⟨rfl, Iff.rfl⟩
  | fire due => left; unfold step; dsimp only; split <;> exact ⟨rfl, Iff.rfl⟩
  | refuse k => left; unfold step; dsimp only; split <;> exact ⟨rfl, Iff.rfl⟩
  | accept k => left; unfold step; dsimp only; split <;> exact ⟨rfl, Iff.rfl⟩
  | finish k => left; unfold step; dsimp only; split <;> exact ⟨rfl, Iff.rfl⟩
  | made k w =>
    by_cases hk : ∃ tx, s.task k = some (.opening tx)
    · obtain ⟨tx, hk⟩ := hk
      refine .inr (.inl ⟨k, w, tx, rfl, ?_, (made_link hi hk w).2.2⟩)
      have hs := hi.sched
      have hp : p = .opening tx := by
        cases m with
        | linked tx' => exact absurd (.inr (.inr ⟨tx, hk⟩)) (hs.2.2.2.1 k)
        | waiting t0 =>
          rcases hs.2.2.2 with ⟨due', hle, hle', hT⟩ | ⟨j, hj, hf⟩ | ⟨_, hD⟩
          · exact absurd (.inr (.inr ⟨tx, hk⟩)) (hT.2.1 k)
          · have := one_task hj hk (fun _ h => nomatch h)
            subst this
            rw [hk] at hf; cases hf
          · exact absurd (.inr (.inr ⟨tx, hk⟩)) (hD.2.1 k)
        | trying =>
          obtain ⟨hlive, j, hj, hs⟩ := hs
          have := one_task hj hk (fun _ h => nomatch h)
          subst this
          rcases hs with ⟨_, hf⟩ | ⟨tx', hp, hf⟩
          · rw [hk] at hf; cases hf
          · rw [hk] at hf; cases hf; exact hp
      subst hp
      have hnet := (hi.net.step (e := .made tx) (p' := .up tx) (by simp [Prom.nextPhase])).1
      have hr : raised s.net (Prom.made s.net tx) = false := raised_false (a := s.net) hnet
      unfold step
      dsimp only
      rw [hk]
      dsimp only
      unfold connectionMade
      dsimp only
      rw [show (setTask s k (some (.made tx))).net = s.net from rfl, hr, if_neg (by simp), alert_files]
      rfl
    · left
      unfold step
      dsimp only
      split
      · rename_i tx h; exact absurd ⟨tx, h⟩ hk
      · exact ⟨rfl, Iff.rfl⟩
  | lost tx w =>
    by_cases hl : tx ∈ s.links
    · refine .inr (.inr ⟨tx, w, rfl, ?_, ?_⟩)
      · unfold step
        dsimp only
        rw [if_pos hl]
        unfold connectionLost
        dsimp only
        rw [alert_files]
        rfl
      · have hs := hi.sched
        have hx : s.links = [tx] := by
          cases m with
          | waiting t0 =>
            rcases hs.2.2.2 with ⟨due', hle, hle', hT⟩ | ⟨j, hj, hf⟩ | ⟨_, hD⟩
            · rw [hT.2.2] at hl; cases hl
            · rw [hj.2.2] at hl; cases hl
            · rw [hD.2.2] at hl; cases hl
          | trying => obtain ⟨_, k, hk, _⟩ := hs; rw [hk.2.2] at hl; cases hl
          | linked tx' =>
            have hy := hs.2.2.2.2
            rw [hy, List.mem_singleton] at hl
            rw [hy, hl]
        unfold step
        dsimp only
        rw [if_pos hl]
        unfold connectionLost
        dsimp only
        obtain ⟨f, hf⟩ := alert_lost c w
          { s with net := Prom.lost s.net tx, links := s.links.filter (· ≠ tx), out := s.out ++ [(s.now, .down tx)], live := notConnectedStr }
        rcases hf with hf | ⟨_, _, hf⟩ <;> rw [hf] <;> simp [hx]
    · left
      unfold step
      dsimp only
      rw [if_neg hl]
      exact ⟨rfl, Iff.rfl⟩

/-- An invariant over all histories. -/
theorem files_ind {c : Cfg} {z n d i : Nat} {old : Str} {w : Write} {s : St} (h : start c (addr z n d i) old w = some s)
    (P : List Str → Prop → Prop) (Q : Ev → Prop) (h0 : P [old, [], fileText c false] False)
    (hm : ∀ f b k w, Q (.made k w) → P f b → P (f ++ goes c true w) True)
    (hl : ∀ f b tx w, Q (.lost tx w) → P f b → P (f ++ goes c false w) False)
    (hP : ∀ f a b, (a ↔ b) → P f a → P f b) :
    ∀ es : List Ev, (∀ e ∈ es, Q e) → P (exec c s es).files ((exec c s es).links ≠ []) := by
  intro es
  have : ∀ n, n ≤ es.length → (∀ e ∈ es, Q e) → P (exec c s (es.take n)).files ((exec c s (es.take n)).links ≠ []) := by
    intro n
    induction n with
    | zero =>
      intro _ _
      show P s.files (s.links ≠ [])
      unfold start at h
      cases w with
      | ok =>
        simp only [writeStatus, Option.some.injEq] at h
        subst h
        rw [render_down]
        refine hP _ False _ ?_ h0
        simp [connect]
      | noOpen => cases h
      | cut x => cases h
    | succ n ih =>
      intro hn hQ
      have hn' : n < es.length := by omega
      rw [List.take_succ_eq_append_getElem hn', exec_append]
      have := ih (by omega) hQ
      obtain ⟨m, p, hi⟩ := Inv.reachable h (es.take n)
      have he : Q es[n] := hQ _ (List.getElem_mem hn')
      show P (step c (exec c s (es.take n)) es[n]).files ((step c (exec c s (es.take n)) es[n]).links ≠ [])
      rcases step_files (c := c) hi es[n] with ⟨h1, h2⟩ | ⟨k, w, tx, hk, h1, h2⟩ | ⟨tx, w, hk, h1, h2⟩
      · rw [h1]
        exact hP _ _ _ (not_congr h2.symm) this
      · rw [h1, h2]
        rw [hk] at he
        exact hP _ True _ (by simp) (hm _ _ _ _ he this)
      · rw [h1, h2]
        rw [hk] at he
        exact hP _ False _ (by simp) (hl _ _ _ _ he this)
  intro hQ
  have := this es.length (Nat.le_refl _) hQ
  rwa [List.take_length] at this

/-- C69. When the file can be written, it always says what the link is: port, address of the switch, and "Connected" exactly when there
is a link. -/
theorem C69_file_partial {c : Cfg} {z n d i : Nat} {old : Str} {w : Write} {s : St} (h : start c (addr z n d i) old w = some s)
    (es : List Ev) (ho : WritesOk es) : file (exec c s es) = fileText c (decide ((exec c s es).links ≠ [])) := by
  have := files_ind h (fun f b => ∀ x : Bool, (x = true ↔ b) → f.getLast?.getD [] = fileText c x)
    (fun e => match e with | .made _ w | .lost _ w => w = .ok | _ => True) ?_ ?_ ?_ ?_ es ho
  · exact this _ (by simp)
  · intro x hx
    cases x with
    | true => exact absurd (hx.1 rfl) id
    | false => rfl
  · intro f b k w hw _ x hx
    dsimp only at hw
    subst hw
    rw [hx.2 trivial]
    simp [goes]
  · intro f b k w hw _ x hx
    dsimp only at hw
    subst hw
    cases x with
    | true => exact absurd (hx.1 rfl) id
    | false => simp [goes]
  · intro f a b hab hp x hx
    exact hp x (hx.trans hab.symm)

example : WritesOk exHist := by
  intro e he
  simp only [exHist, List.mem_cons, List.not_mem_nil, or_false] at he
  rcases he with rfl | rfl | rfl | rfl | rfl | rfl | rfl | rfl | rfl | rfl | rfl | rfl | rfl | rfl | rfl | rfl <;> trivial

example : (exRun true exHist).map file = some "4123\n10.0.0.1:9090\nConnected".toList := by decide +kernel

/-- Writing the file at a change of the link makes it right whatever happened before. -/
theorem C69_written {c : Cfg} {z n d i : Nat} {old : Str} {w : Write} {s : St} (h : start c (addr z n d i) old w = some s) (es : List Ev) :
    (∀ k tx, (exec c s es).task k = some (.opening tx) → file (exec c s (es ++ [.made k .ok])) = fileText c true) ∧
    (∀ tx, tx ∈ (exec c s es).links → file (exec c s (es ++ [.lost tx .ok])) = fileText c false) := by
  obtain ⟨m, p, hi⟩ := Inv.reachable h es
  constructor
  · intro k tx hk
    rw [exec_append]
    show file (step c (exec c s es) (.made k .ok)) = _
    rcases step_files (c := c) hi (.made k .ok) with ⟨_, h2⟩ | ⟨k', w, tx', hk', h1, h2⟩ | ⟨tx', w, hk', h1, h2⟩
    · have hL := (made_link (c := c) hi hk .ok).2.2
      rw [hL] at h2
      have := mt h2.2 (by simp)
      have hs := hi.sched
      cases m with
      | linked tx' => exact absurd (.inr (.inr ⟨tx, hk⟩)) (hs.2.2.2.1 k)
      | waiting t0 =>
        rcases hs.2.2.2 with ⟨due', hle, hle', hT⟩ | ⟨j, hj, hf⟩ | ⟨_, hD⟩
        · exact absurd hT.2.2 this
        · exact absurd hj.2.2 this
        · exact absurd hD.2.2 this
      | trying => obtain ⟨_, j, hj, _⟩ := hs; exact absurd hj.2.2 this
    · cases hk'
      simp [file, h1, goes]
    · cases hk'
  · intro tx hl
    rw [exec_append]
    show file (step c (exec c s es) (.lost tx .ok)) = _
    unfold step
    dsimp only
    rw [if_pos hl]
    unfold connectionLost
    dsimp only
    unfold file
    rw [alert_files]
    simp [goes]

/-- Whatever another process finds in the file, unless a write was cut short, is what was there before the daemon, nothing, or the port,
the address of the switch and one of the two words. -/
theorem C69_visible_partial {c : Cfg} {z n d i : Nat} {old : Str} {w : Write} {s : St} (h : start c (addr z n d i) old w = some s)
    (es : List Ev) (hc : NeverCut es) (x : Str) (hx : x ∈ (exec c s es).files) :
    x = old ∨ x = [] ∨ ∃ b, x = fileText c b := by
  have := files_ind h (fun f _ => ∀ x ∈ f, x = old ∨ x = [] ∨ ∃ b, x = fileText c b)
    (fun e => match e with | .made _ (.cut _) | .lost _ (.cut _) => False | _ => True) ?_ ?_ ?_ ?_ es hc
  · exact this x hx
  · intro x hx
    simp at hx
    rcases hx with h | h | h
    · exact .inl h
    · exact .inr (.inl h)
    · exact .inr (.inr ⟨_, h⟩)
  · intro f b k w hw hp x hx
    rcases List.mem_append.1 hx with hx | hx
    · exact hp x hx
    · cases w with
      | ok =>
        simp [goes] at hx
        rcases hx with h | h
        · exact .inr (.inl h)
        · exact .inr (.inr ⟨_, h⟩)
      | noOpen => cases hx
      | cut => exact absurd hw id
  · intro f b k w hw hp x hx
    rcases List.mem_append.1 hx with hx | hx
    · exact hp x hx
    · cases w with
      | ok =>
        simp [goes] at hx
        rcases hx with h | h
        · exact .inr (.inl h)
        · exact .inr (.inr ⟨_, h⟩)
      | noOpen => cases hx
      | cut => exact absurd hw id
  · intro f a b _ hp; exact hp

example : (exRun true (exHist.take 8)).map (·.files) =
    some [[], [], "4123\n10.0.0.1:9090\nDisconnected".toList, [], "4123\n10.0.0.1:9090\nConnected".toList] := by decide +kernel

theorem takeWhile_text (c : Cfg) (b : Bool) : (fileText c b).takeWhile (· ≠ '\n') = natStr c.port := by
  have hn : ∀ x ∈ natStr c.port, x ≠ '\n' := by
    intro x hx he
    have := (natStr_digits c.port).no_ws x hx
    rw [he] at this
    cases this
  have hf : fileText c b = natStr c.port ++ '\n' :: (c.switchIp ++ [':'] ++ natStr c.switchPort ++ ['\n'] ++
      (if b then "Connected".toList else "Disconnected".toList)) := by
    unfold fileText
    simp only [List.append_assoc, List.cons_append, List.nil_append]
  rw [hf, List.takeWhile_append_of_pos (by simpa using hn), List.takeWhile_cons_of_neg (by decide), List.append_nil]

/-- PNMS reads the port from it. -/
theorem C69_port (c : Cfg) (b : Bool) : readPort (fileText c b) = some (c.port : Int) := by
  unfold readPort
  rw [takeWhile_text, strip_of_no_ws (natStr_digits _).no_ws, pyInt_natStr]

example : fileText (exCfg true) true = "4123\n10.0.0.1:9090\nConnected".toList := by decide +kernel

theorem isPrefixOf_iff (w t : Str) : w.isPrefixOf t = true ↔ ∃ b, t = w ++ b := by
  rw [List.isPrefixOf_iff_prefix]
  exact ⟨fun ⟨b, h⟩ => ⟨b, h.symm⟩, fun ⟨b, h⟩ => ⟨b, h.symm⟩⟩

theorem contains_iff (w : Str) : ∀ t : Str, contains w t = true ↔ Occurs w t
  | [] => by
    unfold contains
    rw [isPrefixOf_iff]
    constructor
    · rintro ⟨b, h⟩; exact ⟨[], b, by simpa using h⟩
    · rintro ⟨a, b, h⟩
      have := List.append_eq_nil_iff.1 h.symm
      have h2 := List.append_eq_nil_iff.1 this.1
      exact ⟨[], by simp [h2.2]⟩
  | x :: t => by
    unfold contains
    rw [Bool.or_eq_true, isPrefixOf_iff, contains_iff w t]
    constructor
    · rintro (⟨b, h⟩ | ⟨a, b, h⟩)
      · exact ⟨[], b, by simpa using h⟩
      · exact ⟨x :: a, b, by simp [h]⟩
    · rintro ⟨a, b, h⟩
      cases a with
      | nil => exact .inl ⟨b, by simpa using h⟩
      | cons y a =>
        simp only [List.cons_append, List.cons.injEq] at h
        exact .inr ⟨a, b, h.2⟩

/-- A word without the separator is on one of its sides. -/
theorem occurs_sep {w x y : Str} {c : Char} (hc : c ∉ w) (h : Occurs w (x ++ c :: y)) : Occurs w x ∨ Occurs w y := by
  obtain ⟨a, b, h⟩ := h
  rcases List.append_eq_append_iff.1 h with ⟨a', h1, h2⟩ | ⟨c', h1, h2⟩
  · cases a' with
    | nil => exact .inl ⟨a, [], by simpa using h1.symm⟩
    | cons q a'' =>
      simp only [List.cons_append, List.cons.injEq] at h2
      obtain ⟨rfl, h2⟩ := h2
      rcases List.append_eq_append_iff.1 h1 with ⟨a3, h3, h4⟩ | ⟨c3, h3, h4⟩
      · exact absurd (by rw [h4]; simp) hc
      · cases c3 with
        | nil =>
          exact absurd (by rw [List.nil_append] at h4; rw [← h4]; simp) hc
        | cons q c4 =>
          simp only [List.cons_append, List.cons.injEq] at h4
          exact .inr ⟨c4, b, by rw [h2, h4.2]⟩
  · exact .inl ⟨a, c', by simpa using h1⟩

theorem norm_append (x y : Str) : Routes.norm (x ++ y) = Routes.norm x ++ Routes.norm y := List.map_append

theorem no_word_digits {w x : Str} (h : ∃ c ∈ w, c.toNat > 57) (hx : AllDigits x) : ¬ Occurs w (Routes.norm x) := by
  rintro ⟨a, b, he⟩
  obtain ⟨c, hc, hn⟩ := h
  have hm : c ∈ Routes.norm x := by rw [he]; simp [hc]
  obtain ⟨y, hy, rfl⟩ := List.mem_map.1 hm
  obtain ⟨e, he10, rfl⟩ := hx y hy
  have : ∀ e : Fin 10, (digitChar e).toLower.toNat ≤ 57 := by decide
  have := this ⟨e, he10⟩
  dsimp only at this
  omega

theorem norm_text (c : Cfg) (b : Bool) : Routes.norm (fileText c b) = Routes.norm (natStr c.port) ++ '\n' :: (Routes.norm c.switchIp ++
    ':' :: (Routes.norm (natStr c.switchPort) ++ '\n' :: (if b then "connected".toList else "disconnected".toList))) := by
  unfold fileText
  rw [norm_append, norm_append, norm_append, norm_append, norm_append, norm_append]
  have h1 : Routes.norm ['\n'] = ['\n'] := by decide
  have h2 : Routes.norm [':'] = [':'] := by decide
  have h3 : Routes.norm (if b then "Connected".toList else "Disconnected".toList) = (if b then "connected".toList else "disconnected".toList) := by
    cases b <;> decide
  rw [h1, h2, h3]
  simp only [List.append_assoc, List.cons_append, List.nil_append]

/-- The word is in the file only where one expects it, or in the name of the switch. -/
theorem disconnected_iff (c : Cfg) (b : Bool) : Occurs "disconnected".toList (Routes.norm (fileText c b)) ↔
    b = false ∨ Occurs "disconnected".toList (Routes.norm c.switchIp) := by
  rw [norm_text]
  constructor
  · intro h
    rcases occurs_sep (by decide) h with h | h
    · exact absurd h (no_word_digits (by decide) (natStr_digits _))
    rcases occurs_sep (by decide) h with h | h
    · exact .inr h
    rcases occurs_sep (by decide) h with h | h
    · exact absurd h (no_word_digits (by decide) (natStr_digits _))
    · cases b with
      | false => exact .inl rfl
      | true =>
        rw [if_pos rfl] at h
        exact absurd ((contains_iff _ _).2 h) (by decide)
  · rintro (rfl | ⟨x, y, h⟩)
    · rw [if_neg (by decide)]
      exact ⟨Routes.norm (natStr c.port) ++ '\n' :: (Routes.norm c.switchIp ++ ':' :: (Routes.norm (natStr c.switchPort) ++ ['\n'])), [], by
        simp only [List.append_assoc, List.cons_append, List.nil_append, List.append_nil]⟩
    · rw [h]
      refine ⟨Routes.norm (natStr c.port) ++ '\n' :: x, y ++ ':' :: (Routes.norm (natStr c.switchPort) ++ '\n' ::
        (if b then "connected".toList else "disconnected".toList)), ?_⟩
      simp only [List.append_assoc, List.cons_append, List.nil_append]

/-- What PNMS makes of the file: "Failed" when it says Disconnected or when the name of the switch contains the word, else "Live". -/
theorem C69_status (c : Cfg) (b : Bool) (h : Decidable (Occurs "disconnected".toList (Routes.norm c.switchIp))) :
    connectionStatus (fileText c b) =
      if b = false ∨ Occurs "disconnected".toList (Routes.norm c.switchIp) then "Failed".toList else "Live".toList := by
  unfold connectionStatus
  by_cases hd : b = false ∨ Occurs "disconnected".toList (Routes.norm c.switchIp)
  · rw [if_pos ((contains_iff _ _).2 ((disconnected_iff c b).2 hd)), if_pos hd]
  · rw [if_neg (fun hx => hd ((disconnected_iff c b).1 ((contains_iff _ _).1 hx))), if_neg hd, if_pos]
    rw [contains_iff, norm_text]
    have hb : b = true := by
      cases b
      · exact absurd (.inl rfl) hd
      · rfl
    subst hb
    rw [if_pos rfl]
    exact ⟨Routes.norm (natStr c.port) ++ '\n' :: (Routes.norm c.switchIp ++ ':' :: (Routes.norm (natStr c.switchPort) ++ ['\n'])), [], by
      simp only [List.append_assoc, List.cons_append, List.nil_append, List.append_nil]⟩

/-- C69. From daemon to PNMS: after any history with successful writes, PNMS finds the daemon's port and reports "Live" exactly while
there is a link, "Failed" otherwise, unless the switch has the word "disconnected" in its name. -/
theorem C69_pnms_partial {c : Cfg} {z n d i : Nat} {old : Str} {w : Write} {s : St} (h : start c (addr z n d i) old w = some s)
    (es : List Ev) (ho : WritesOk es) (hn : ¬ Occurs "disconnected".toList (Routes.norm c.switchIp)) :
    readPort (file (exec c s es)) = some (c.port : Int) ∧
    connectionStatus (file (exec c s es)) = if (exec c s es).links = [] then "Failed".toList else "Live".toList := by
  rw [C69_file_partial h es ho]
  refine ⟨C69_port _ _, ?_⟩
  rw [C69_status _ _ (Classical.propDecidable _)]
  by_cases hl : (exec c s es).links = []
  · rw [if_pos hl, if_pos (.inl (by simp [hl]))]
  · rw [if_neg hl, if_neg]
    rintro (h | h)
    · simp [hl] at h
    · exact hn h

example : ¬ Occurs "disconnected".toList (Routes.norm (exCfg true).switchIp) := by
  rw [← contains_iff]
  decide +kernel

/-- A switch with an unlucky name is reported "Failed" while the link is there. -/
theorem C69_false_name :
    let c : Cfg := ⟨4123, "disconnected.example.org".toList, 9090, true⟩
    ((start c (addr 1 2 3 4) [] .ok).map fun s => exec c s [.accept 0, .made 0 .ok]).map (fun s => (s.links, connectionStatus (file s))) =
      some ([0], "Failed".toList) := by decide +kernel

/-- A write that fails leaves what was there: the link is lost, PNMS reports "Live". -/
theorem C69_false_unwritten :
    (exRun true [.accept 0, .made 0 .ok, .lost 0 .noOpen]).map (fun s => (s.links, connectionStatus (file s))) = some ([], "Live".toList) := by
  decide +kernel

/-- A write that is cut short (no space left) leaves a piece of the port: PNMS connects to another one. -/
theorem C69_false_cut :
    (exRun true [.accept 0, .made 0 (.cut 2)]).map (fun s => (s.links, readPort (file s))) = some ([0], some 41) := by decide +kernel

/-- The file is emptied before it is written: whoever reads it in between gets a ValueError for the port and "Unknown". -/
theorem C69_false_moment :
    ((exRun true [.accept 0, .made 0 .ok]).map (·.files)).map (fun f => f.map fun x => (readPort x, connectionStatus x)) =
      some [(none, "Unknown".toList), (none, "Unknown".toList), (some 4123, "Failed".toList), (none, "Unknown".toList),
        (some 4123, "Live".toList)] := by decide +kernel

end Verif.Launch
