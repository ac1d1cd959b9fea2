import Verif.Spec.RawLines
import Verif.Props.Lines
/-! # C110: lines and raw data -/
namespace Verif.RawLines
open Lines
variable {σ : Type}

theorem splitOnce_append {d b l r : Bytes} (c : Bytes) (h : splitOnce d b = some (l, r)) : splitOnce d (b ++ c) = some (l, r ++ c) := by
  have hd : d ≠ [] := by
    intro e; simp [splitOnce, e] at h
  obtain ⟨h1, h2, h3⟩ := splitOnce_some h
  cases hs : splitOnce d (b ++ c) with
  | none => exact absurd ⟨l, r ++ c, by rw [h1]; simp⟩ (splitOnce_none hd hs)
  | some q =>
    obtain ⟨l', r'⟩ := q
    obtain ⟨k1, k2, k3⟩ := splitOnce_some hs
    have e : l ++ d ++ (r ++ c) = l' ++ d ++ r' := by rw [← k1, h1]; simp
    have hl : l = l' := by
      rcases Nat.le_total l.length l'.length with hle | hle
      · exact line_unique k2 e hle
      · exact (line_unique h2 e.symm hle).symm
    subst hl
    rw [List.append_cancel_left e]

/-- More fuel makes no difference. -/
theorem loop_fuel {H : Handler σ} (hH : Streams H) (d : Bytes) (max : Nat) : ∀ (n m : Nat) (s : St σ), turns s < n → turns s < m → loop H d max n s = loop H d max m s
  | 0, _, _, h, _ => by omega
  | _, 0, _, _, h => by omega
  | n + 1, m + 1, s, hn, hm => by
    unfold loop
    split
    · rfl
    · next h0 =>
      have hpos := List.length_pos_iff.mpr h0
      split
      · next hr =>
        have ht : turns s = 2 * s.buffer.length + 1 := by simp [turns, hr]
        split
        · exact loop_fuel hH d max n m _ (by simp [turns, hr]; omega) (by simp [turns, hr]; omega)
        · next h e he =>
          have := hH.part _ _ _ _ he
          exact loop_fuel hH d max n m _ (by simp [turns]; omega) (by simp [turns]; omega)
        · rfl
      · next hr =>
        have ht : turns s = 2 * s.buffer.length := by simp [turns, hr]
        split
        · rfl
        · next line rest hs =>
          have := (splitOnce_some hs).2.2
          split
          · rfl
          · split
            · exact loop_fuel hH d max n m _ (by simp [turns, hr]; omega) (by simp [turns, hr]; omega)
            · exact loop_fuel hH d max n m _ (by simp [turns]; omega) (by simp [turns]; omega)
            · rfl

/-- One turn, with enough fuel for what follows. -/
def run (H : Handler σ) (d : Bytes) (max : Nat) (s : St σ) : St σ := loop H d max (turns s + 1) s

theorem loop_run {H : Handler σ} (hH : Streams H) (d : Bytes) (max : Nat) (n : Nat) (s : St σ) (h : turns s < n) : loop H d max n s = run H d max s :=
  loop_fuel hH d max _ _ _ h (by omega)

theorem run_empty (H : Handler σ) (d : Bytes) (max : Nat) (s : St σ) (h : s.buffer = []) : run H d max s = s := by
  unfold run loop; rw [if_pos h]

theorem run_raw {H : Handler σ} (hH : Streams H) (d : Bytes) (max : Nat) (s : St σ) (h : s.buffer ≠ []) (hr : s.rawMode = true) :
    run H d max s = match H.raw s.h s.buffer with
      | (h, .go) => { s with h := h, buffer := [] }
      | (h, .line extra) => run H d max { s with h := h, buffer := extra, rawMode := false }
      | (h, .stop) => { s with h := h, buffer := [] } := by
  have hpos := List.length_pos_iff.mpr h
  have ht : turns s = 2 * s.buffer.length + 1 := by simp [turns, hr]
  conv => lhs; unfold run loop
  rw [if_neg h, if_pos hr]
  rcases hraw : H.raw s.h s.buffer with ⟨h', a⟩
  cases a with
  | go =>
    dsimp only
    rw [loop_run hH _ _ _ _ (by simp [turns, hr]; omega), run_empty _ _ _ _ rfl]
  | line e =>
    have := hH.part _ _ _ _ hraw
    exact loop_run hH _ _ _ _ (by simp [turns, hr]; omega)
  | stop => rfl

theorem run_line {H : Handler σ} (hH : Streams H) (d : Bytes) (max : Nat) (s : St σ) (h : s.buffer ≠ []) (hr : s.rawMode = false) :
    run H d max s = match splitOnce d s.buffer with
      | none => if s.buffer.length > max then { s with buffer := [], exceeded := s.exceeded ++ [s.buffer] } else s
      | some (line, rest) =>
        if line.length > max then { s with buffer := [], exceeded := s.exceeded ++ [line ++ d ++ rest] }
        else match H.line s.h line with
          | (h, .go) => run H d max { s with h := h, buffer := rest }
          | (h, .raw) => run H d max { s with h := h, buffer := rest, rawMode := true }
          | (h, .stop) => { s with h := h, buffer := rest } := by
  have hpos := List.length_pos_iff.mpr h
  have ht : turns s = 2 * s.buffer.length := by simp [turns, hr]
  conv => lhs; unfold run loop
  rw [if_neg h, if_neg (by simp [hr])]
  cases hs : splitOnce d s.buffer with
  | none => rfl
  | some q =>
    obtain ⟨line, rest⟩ := q
    have := (splitOnce_some hs).2.2
    dsimp only
    by_cases hl : line.length > max
    · rw [if_pos hl, if_pos hl]
    · rw [if_neg hl, if_neg hl]
      rcases hline : H.line s.h line with ⟨h', a⟩
      cases a with
      | go => exact loop_run hH _ _ _ _ (by simp [turns, hr]; omega)
      | raw => exact loop_run hH _ _ _ _ (by simp [turns]; omega)
      | stop => rfl

theorem append_ne {a : Bytes} (b : Bytes) (h : a ≠ []) : a ++ b ≠ [] := by simp [h]

/-- What comes later is added. -/
theorem run_append {H : Handler σ} (hH : Streams H) (d : Bytes) (max : Nat) : ∀ (n : Nat) (s : St σ), turns s < n → (run H d max s).exceeded = s.exceeded →
    ∀ b, run H d max { s with buffer := s.buffer ++ b } = run H d max { run H d max s with buffer := (run H d max s).buffer ++ b }
  | 0, _, h => by omega
  | n + 1, s, hn => by
    intro hx b
    by_cases h0 : s.buffer = []
    · rw [run_empty _ _ _ s h0]
    · have hpos := List.length_pos_iff.mpr h0
      rcases Bool.eq_false_or_eq_true s.rawMode with hr | hr
      ·
        have ht : turns s = 2 * s.buffer.length + 1 := by simp [turns, hr]
        rw [run_raw hH d max s h0 hr] at hx ⊢
        rw [run_raw hH d max { s with buffer := s.buffer ++ b } (append_ne b h0) hr]
        rcases hraw : H.raw s.h s.buffer with ⟨h', a⟩
        cases a with
        | go =>
          dsimp only
          by_cases hb : b = []
          · subst hb
            simp only [List.append_nil, hraw]
            rw [run_empty _ _ _ _ rfl]
          · rw [hH.go _ _ _ _ hb hraw, run_raw hH d max { s with h := h', buffer := [] ++ b } (by simpa using hb) hr]
            simp only [List.nil_append]
        | line e =>
          have hp := hH.part _ _ _ _ hraw
          rw [hraw] at hx
          dsimp only at hx ⊢
          rw [hH.line _ _ _ _ b hraw]
          exact run_append hH d max n { s with h := h', buffer := e, rawMode := false } (by simp [turns]; omega) hx b
        | stop => exact absurd (by rw [hraw]) (hH.rawGoes s.h s.buffer)
      ·
        have ht : turns s = 2 * s.buffer.length := by simp [turns, hr]
        cases hs : splitOnce d s.buffer with
        | none =>
          have : run H d max s = s := by
            rw [run_line hH d max s h0 hr, hs] at hx ⊢
            dsimp only at hx ⊢
            split
            · next hl =>
              rw [if_pos hl] at hx
              have := congrArg List.length hx
              simp at this
            · rfl
          rw [this]
        | some q =>
          obtain ⟨line, rest⟩ := q
          have hlt := (splitOnce_some hs).2.2
          rw [run_line hH d max s h0 hr, hs] at hx ⊢
          rw [run_line hH d max { s with buffer := s.buffer ++ b } (append_ne b h0) hr, splitOnce_append b hs]
          dsimp only at hx ⊢
          split
          · next hl =>
            rw [if_pos hl] at hx
            have := congrArg List.length hx
            simp at this
          · next hl =>
            rw [if_neg hl] at hx
            rcases hline : H.line s.h line with ⟨h', a⟩
            rw [hline] at hx
            cases a with
            | go => exact run_append hH d max n { s with h := h', buffer := rest } (by simp [turns, hr]; omega) hx b
            | raw => exact run_append hH d max n { s with h := h', buffer := rest, rawMode := true } (by simp [turns]; omega) hx b
            | stop => exact absurd (by rw [hline]) (hH.lineGoes s.h line)

/-- The buffer is empty in raw mode, or there is nothing more to do with it. -/
theorem run_run {H : Handler σ} (hH : Streams H) (d : Bytes) (max : Nat) (s : St σ) (hx : (run H d max s).exceeded = s.exceeded) : run H d max (run H d max s) = run H d max s := by
  have := run_append hH d max _ s (Nat.lt_succ_self _) hx []
  simpa using this.symm

/-- The list of the overlong lines grows. -/
theorem run_grows {H : Handler σ} (hH : Streams H) (d : Bytes) (max : Nat) : ∀ (n : Nat) (s : St σ), turns s < n → s.exceeded.length ≤ (run H d max s).exceeded.length ∧
    ((run H d max s).exceeded.length ≤ s.exceeded.length → (run H d max s).exceeded = s.exceeded)
  | 0, _, h => by omega
  | n + 1, s, hn => by
    by_cases h0 : s.buffer = []
    · rw [run_empty _ _ _ s h0]; simp
    · have hpos := List.length_pos_iff.mpr h0
      rcases Bool.eq_false_or_eq_true s.rawMode with hr | hr
      ·
        have ht : turns s = 2 * s.buffer.length + 1 := by simp [turns, hr]
        rw [run_raw hH d max s h0 hr]
        split
        · simp
        · next h e he =>
          have := hH.part _ _ _ _ he
          exact run_grows hH d max n { s with h := h, buffer := e, rawMode := false } (by simp [turns]; omega)
        · simp
      ·
        have ht : turns s = 2 * s.buffer.length := by simp [turns, hr]
        rw [run_line hH d max s h0 hr]
        split
        · split
          · simp
          · simp
        · next line rest hs =>
          have := (splitOnce_some hs).2.2
          split
          · simp
          · split
            · next h _ => exact run_grows hH d max n { s with h := h, buffer := rest } (by simp [turns, hr]; omega)
            · next h _ => exact run_grows hH d max n { s with h := h, buffer := rest, rawMode := true } (by simp [turns]; omega)
            · simp

theorem receive_grows {H : Handler σ} (hH : Streams H) (d : Bytes) (max : Nat) : ∀ (cs : List Bytes) (s : St σ), s.exceeded.length ≤ (receive H d max s cs).exceeded.length
  | [], _ => Nat.le_refl _
  | c :: cs, s => Nat.le_trans (run_grows hH d max _ { s with buffer := s.buffer ++ c } (Nat.lt_succ_self _)).1 (receive_grows hH d max cs (dataReceived H d max s c))

/-- C110. If no line is found too long while the data come in parts, then the subclass sees what it would see if they came at once. -/
theorem C110_chunking_partial {H : Handler σ} (hH : Streams H) (d : Bytes) (max : Nat) (h : σ) (raw : Bool) : ∀ (cs : List Bytes),
    (receive H d max ⟨h, [], raw, []⟩ cs).exceeded = [] → receive H d max ⟨h, [], raw, []⟩ cs = dataReceived H d max ⟨h, [], raw, []⟩ cs.flatten := by
  suffices key : ∀ (cs : List Bytes) (s : St σ), run H d max s = s → s.exceeded = [] → (receive H d max s cs).exceeded = [] →
      receive H d max s cs = dataReceived H d max s cs.flatten from
    fun cs hx => key cs _ (run_empty _ _ _ _ rfl) rfl hx
  intro cs
  induction cs with
  | nil =>
    intro s hs _ _
    show s = run H d max { s with buffer := s.buffer ++ [] }
    simp [hs]
  | cons c cs ih =>
    intro s hs hs0 hx
    have hx1 : (run H d max { s with buffer := s.buffer ++ c }).exceeded = { s with buffer := s.buffer ++ c }.exceeded := by
      refine (run_grows hH d max _ { s with buffer := s.buffer ++ c } (Nat.lt_succ_self _)).2 ?_
      have := receive_grows hH d max cs (dataReceived H d max s c)
      have hx' : (receive H d max (dataReceived H d max s c) cs).exceeded = [] := hx
      rw [hx'] at this
      show (dataReceived H d max s c).exceeded.length ≤ s.exceeded.length
      simp at this
      simp [this]
    show receive H d max (dataReceived H d max s c) cs = _
    rw [ih (dataReceived H d max s c) (run_run hH d max _ hx1) (hx1.trans hs0) hx]
    show run H d max { run H d max { s with buffer := s.buffer ++ c } with buffer := (run H d max { s with buffer := s.buffer ++ c }).buffer ++ cs.flatten } = _
    rw [← run_append hH d max _ { s with buffer := s.buffer ++ c } (Nat.lt_succ_self _) hx1 cs.flatten]
    show run H d max { s with buffer := s.buffer ++ c ++ cs.flatten } = run H d max { s with buffer := s.buffer ++ (c :: cs).flatten }
    simp

/-- What one more byte than the delimiter leaves makes no difference. -/
theorem run_short {H : Handler σ} (hH : Streams H) (d : Bytes) (max m : Nat) (hm : m + d.length ≤ max + 1) (hd : d ≠ []) (b : Bytes) : ∀ (n : Nat) (s : St σ), turns s < n →
    (run H d m { s with buffer := s.buffer ++ b }).exceeded = s.exceeded →
      (run H d max s).exceeded = s.exceeded ∧ run H d m { s with buffer := s.buffer ++ b } = run H d m { run H d max s with buffer := (run H d max s).buffer ++ b }
  | 0, _, h => by omega
  | n + 1, s, hn => by
    intro hx
    have hdl := List.length_pos_iff.mpr hd
    by_cases h0 : s.buffer = []
    · rw [run_empty _ _ _ s h0]; simp
    · have hpos := List.length_pos_iff.mpr h0
      rcases Bool.eq_false_or_eq_true s.rawMode with hr | hr
      ·
        have ht : turns s = 2 * s.buffer.length + 1 := by simp [turns, hr]
        rw [run_raw hH d max s h0 hr]
        rw [run_raw hH d m { s with buffer := s.buffer ++ b } (append_ne b h0) hr] at hx ⊢
        rcases hraw : H.raw s.h s.buffer with ⟨h', a⟩
        cases a with
        | go =>
          refine ⟨rfl, ?_⟩
          dsimp only
          by_cases hb : b = []
          · subst hb
            simp only [List.append_nil, hraw]
            rw [run_empty _ _ _ _ rfl]
          · rw [hH.go _ _ _ _ hb hraw, run_raw hH d m { s with h := h', buffer := [] ++ b } (by simpa using hb) hr]
            simp only [List.nil_append]
        | line e =>
          have hp := hH.part _ _ _ _ hraw
          dsimp only at hx ⊢
          rw [hH.line _ _ _ _ b hraw] at hx ⊢
          exact run_short hH d max m hm hd b n { s with h := h', buffer := e, rawMode := false } (by simp [turns]; omega) hx
        | stop => exact absurd (by rw [hraw]) (hH.rawGoes s.h s.buffer)
      ·
        have ht : turns s = 2 * s.buffer.length := by simp [turns, hr]
        cases hs : splitOnce d s.buffer with
        | none =>
          have hl : s.buffer.length ≤ max := by
            rw [run_line hH d m { s with buffer := s.buffer ++ b } (append_ne b h0) hr] at hx
            cases hs' : splitOnce d (s.buffer ++ b) with
            | none =>
              rw [hs'] at hx
              dsimp only at hx
              split at hx
              · have := congrArg List.length hx
                simp at this
              · next hl => simp at hl; omega
            | some q =>
              obtain ⟨line, rest⟩ := q
              rw [hs'] at hx
              dsimp only at hx
              split at hx
              · have := congrArg List.length hx
                simp at this
              · next hl =>
                obtain ⟨k1, -, -⟩ := splitOnce_some hs'
                rcases Nat.lt_or_ge s.buffer.length (line ++ d).length with hlt | hge
                · simp at hlt; omega
                · exfalso
                  have e := congrArg (List.take (line ++ d).length) k1
                  rw [List.take_left, List.take_append_of_le_length hge] at e
                  exact splitOnce_none hd hs ⟨line, s.buffer.drop (line ++ d).length, (by conv => lhs; rw [← List.take_append_drop (line ++ d).length s.buffer, e])⟩
          have : run H d max s = s := by
            rw [run_line hH d max s h0 hr, hs]
            dsimp only
            rw [if_neg (by omega)]
          rw [this]
          exact ⟨rfl, rfl⟩
        | some q =>
          obtain ⟨line, rest⟩ := q
          have hlt := (splitOnce_some hs).2.2
          rw [run_line hH d max s h0 hr, hs]
          rw [run_line hH d m { s with buffer := s.buffer ++ b } (append_ne b h0) hr, splitOnce_append b hs] at hx ⊢
          dsimp only at hx ⊢
          by_cases hl : line.length > m
          · rw [if_pos hl] at hx
            have := congrArg List.length hx
            simp at this
          · rw [if_neg hl] at hx ⊢
            rw [if_neg (by omega)]
            rcases hline : H.line s.h line with ⟨h', a⟩
            rw [hline] at hx
            cases a with
            | go => exact run_short hH d max m hm hd b n { s with h := h', buffer := rest } (by simp [turns, hr]; omega) hx
            | raw => exact run_short hH d max m hm hd b n { s with h := h', buffer := rest, rawMode := true } (by simp [turns]; omega) hx
            | stop => exact absurd (by rw [hline]) (hH.lineGoes s.h line)

/-- C110. If all lines are shorter than the maximum by the delimiter (up to one byte), then this is so for every division of the data. -/
theorem C110_short {H : Handler σ} (hH : Streams H) (d : Bytes) (hd : d ≠ []) (max m : Nat) (hm : m + d.length ≤ max + 1) (h : σ) (raw : Bool) (cs : List Bytes)
    (hx : (dataReceived H d m ⟨h, [], raw, []⟩ cs.flatten).exceeded = []) : receive H d max ⟨h, [], raw, []⟩ cs = dataReceived H d max ⟨h, [], raw, []⟩ cs.flatten := by
  refine C110_chunking_partial hH d max h raw cs ?_
  suffices key : ∀ (cs : List Bytes) (s : St σ), s.exceeded = [] → (run H d m { s with buffer := s.buffer ++ cs.flatten }).exceeded = [] → (receive H d max s cs).exceeded = [] from
    key cs _ rfl hx
  intro cs
  induction cs with
  | nil => exact fun s hs _ => hs
  | cons c cs ih =>
    intro s hs hx
    have hx' : (run H d m { s with buffer := s.buffer ++ c ++ cs.flatten }).exceeded = s.exceeded := by
      have e : s.buffer ++ c ++ cs.flatten = s.buffer ++ (c :: cs).flatten := by simp
      rw [e, hx, hs]
    have h1 := run_short hH d max m hm hd cs.flatten _ { s with buffer := s.buffer ++ c } (Nat.lt_succ_self _) hx'
    refine ih (dataReceived H d max s c) (h1.1.trans hs) ?_
    have h2 := congrArg St.exceeded h1.2
    exact h2.symm.trans (hx'.trans hs)

theorem bodies_streams (size : Bytes → Nat) : Streams (bodies size) := by
  constructor
  · intro s s' x y _ h
    simp only [bodies] at h
    split at h
    · next hl =>
      simp only [Prod.mk.injEq, and_true] at h
      subst h
      simp only [bodies, List.length_append]
      by_cases hy : x.length + y.length < size s.head - s.body.length
      · rw [if_pos hy, if_pos (by omega)]; simp
      · rw [if_neg hy, if_neg (by omega)]
        have e : size s.head - (s.body.length + x.length) = size s.head - s.body.length - x.length := by omega
        rw [e, List.take_append, List.take_of_length_le (by omega), List.drop_append, List.drop_of_length_le (by omega)]
        simp
    · simp at h
  · intro s s' x e y h
    simp only [bodies] at h ⊢
    split at h
    · simp at h
    · next hl =>
      simp only [Prod.mk.injEq, RawAct.line.injEq] at h
      obtain ⟨h1, h2⟩ := h
      rw [if_neg (by simp; omega), List.take_append_of_le_length (by omega), List.drop_append_of_le_length (by omega), h1, h2]
  · intro s s' x e h
    simp only [bodies] at h
    split at h
    · simp at h
    · simp only [Prod.mk.injEq, RawAct.line.injEq] at h
      rw [← h.2]; simp
  · intro s l
    simp only [bodies]
    split <;> simp
  · intro s l
    simp only [bodies]
    split <;> simp

/-- What there is of the lines and bodies of a peer when all of it comes at once. -/
theorem run_sent (size : Bytes → Nat) (d : Bytes) (hd : d ≠ []) (max : Nat) : ∀ (l : List (Bytes × Bytes)), (∀ p ∈ l, IsLine d p.1 ∧ p.2.length = size p.1 ∧ p.1.length ≤ max) →
    ∀ (s : Items), s.body = [] → (run (bodies size) d max ⟨s, sent d l, false, []⟩).exceeded = [] ∧ (run (bodies size) d max ⟨s, sent d l, false, []⟩).h.done = s.done ++ l ∧
      (run (bodies size) d max ⟨s, sent d l, false, []⟩).buffer = [] ∧ (run (bodies size) d max ⟨s, sent d l, false, []⟩).rawMode = false
  | [], _, s, _ => by rw [run_empty _ _ _ _ rfl]; simp [sent]
  | (x, b) :: l, h, s, hs => by
    obtain ⟨h1, h2, h3⟩ := h (x, b) (List.mem_cons_self ..)
    have ih := run_sent size d hd max l fun p hp => h p (List.mem_cons_of_mem _ hp)
    have hH := bodies_streams size
    have e : sent d ((x, b) :: l) = x ++ d ++ (b ++ sent d l) := by simp [sent]
    have hne : x ++ d ++ (b ++ sent d l) ≠ [] := by simp [hd]
    have hsp : splitOnce d (x ++ d ++ (b ++ sent d l)) = some (x, b ++ sent d l) := by
      cases hc : splitOnce d (x ++ d ++ (b ++ sent d l)) with
      | none => exact absurd ⟨x, b ++ sent d l, rfl⟩ (splitOnce_none hd hc)
      | some q =>
        obtain ⟨x', r'⟩ := q
        obtain ⟨k1, k2, k3⟩ := splitOnce_some hc
        have hx : x = x' := by
          rcases Nat.le_total x.length x'.length with hle | hle
          · exact line_unique k2 k1 hle
          · exact (line_unique h1 k1.symm hle).symm
        subst hx
        rw [List.append_cancel_left k1]
    dsimp only at h2
    rw [e, run_line hH d max _ hne rfl]
    dsimp only
    rw [hsp]
    dsimp only
    rw [if_neg (by show ¬ x.length > max; dsimp only at h3; omega)]
    simp only [bodies]
    by_cases hz : size x = 0
    · have hb : b = [] := List.eq_nil_of_length_eq_zero (by omega)
      subst hb
      rw [if_pos hz]
      have := ih ⟨s.done ++ [(x, [])], s.head, s.body⟩ hs
      simp only [List.nil_append]
      rw [List.append_assoc] at this
      exact this
    · rw [if_neg hz]
      have hb : b ++ sent d l ≠ [] := by
        intro he
        rw [(List.append_eq_nil_iff.1 he).1] at h2
        exact hz h2.symm
      show (run (bodies size) d max ⟨⟨s.done, x, []⟩, b ++ sent d l, true, []⟩).exceeded = [] ∧ _
      have hr : run (bodies size) d max ⟨⟨s.done, x, []⟩, b ++ sent d l, true, []⟩ = run (bodies size) d max ⟨⟨s.done ++ [(x, b)], x, []⟩, sent d l, false, []⟩ := by
        rw [run_raw hH d max _ hb rfl]
        simp only [bodies, List.length_nil, Nat.sub_zero]
        rw [if_neg (by simp; omega), ← h2]
        simp
      have := ih ⟨s.done ++ [(x, b)], x, []⟩ rfl
      rw [← hr] at this
      simpa [bodies] using this

/-- C110. A subclass for lines with bodies gets the lines and bodies that the peer has sent, however they are divided, if the lines are shorter than the maximum by the
delimiter (up to one byte). -/
theorem C110_bodies (size : Bytes → Nat) (d : Bytes) (hd : d ≠ []) (max : Nat) (l : List (Bytes × Bytes))
    (hl : ∀ p ∈ l, IsLine d p.1 ∧ p.2.length = size p.1 ∧ p.1.length + d.length ≤ max + 1) (cs : List Bytes) (hc : cs.flatten = sent d l) :
    let s := receive (bodies size) d max ⟨⟨[], [], []⟩, [], false, []⟩ cs
    s.h.done = l ∧ s.buffer = [] ∧ s.rawMode = false ∧ s.exceeded = [] := by
  have hdl := List.length_pos_iff.mpr hd
  intro s
  have hs : s = dataReceived (bodies size) d max ⟨⟨[], [], []⟩, [], false, []⟩ cs.flatten := by
    by_cases hz : l = []
    · subst hz
      refine C110_chunking_partial (bodies_streams size) d max _ _ cs ?_
      have key : ∀ (cs : List Bytes) (s : St Items), s.buffer = [] → cs.flatten = [] → receive (bodies size) d max s cs = s := by
        intro cs
        induction cs with
        | nil => intros; rfl
        | cons c cs ih =>
          intro s hs hc
          simp at hc
          have : dataReceived (bodies size) d max s c = s := by
            rw [hc.1]
            show run (bodies size) d max { s with buffer := s.buffer ++ [] } = s
            simp only [List.append_nil]
            exact run_empty _ _ _ _ hs
          show receive (bodies size) d max (dataReceived (bodies size) d max s c) cs = s
          rw [this, ih s hs (by simpa using hc.2)]
      rw [key cs _ rfl hc]
    · obtain ⟨p, hp⟩ := List.exists_mem_of_ne_nil l hz
      have hm : max + 1 - d.length + d.length ≤ max + 1 := by have := (hl p hp).2.2; omega
      refine C110_short (bodies_streams size) d hd max (max + 1 - d.length) hm _ _ cs ?_
      rw [hc]
      exact (run_sent size d hd _ l (fun p hp => ⟨(hl p hp).1, (hl p hp).2.1, by have := (hl p hp).2.2; omega⟩) ⟨[], [], []⟩ rfl).1
  have hr := run_sent size d hd max l (fun p hp => ⟨(hl p hp).1, (hl p hp).2.1, by have := (hl p hp).2.2; omega⟩) ⟨[], [], []⟩ rfl
  have e : dataReceived (bodies size) d max ⟨⟨[], [], []⟩, [], false, []⟩ cs.flatten = run (bodies size) d max ⟨⟨[], [], []⟩, sent d l, false, []⟩ := by rw [hc]; rfl
  rw [hs, e]
  exact ⟨by simpa using hr.2.1, hr.2.2.1, hr.2.2.2, hr.1⟩

/-- The subclass of the examples: the first byte of a line is the length of its body. -/
def exSize (l : Bytes) : Nat := match l with
  | [] => 0
  | x :: _ => x.toNat

/-- That the division makes no difference is false for longer lines: a line of the maximal length is lost, with all that follows, if its delimiter comes in two parts. -/
theorem C110_false_boundary : (dataReceived (bodies exSize) [13, 10] 3 ⟨⟨[], [], []⟩, [], false, []⟩ [1, 7, 7, 13, 10, 9]).h.done = [([1, 7, 7], [9])] ∧
    (receive (bodies exSize) [13, 10] 3 ⟨⟨[], [], []⟩, [], false, []⟩ [[1, 7, 7, 13], [10, 9]]).h.done = [] := by
  constructor <;> decide +kernel

def exL : List (Bytes × Bytes) := [([2, 5], [13, 10]), ([], []), ([1], [7])]
example : ∀ p ∈ exL, IsLine [13, 10] p.1 ∧ p.2.length = exSize p.1 ∧ p.1.length + 2 ≤ 3 + 1 := by
  have key : ∀ l : Bytes, 13 ∉ l → 10 ∉ l → IsLine [13, 10] l := by
    intro l h1 h2 x y he
    have hlen := congrArg List.length he
    have hx : x.length = l.length := by
      rcases Nat.lt_trichotomy x.length l.length with h | h | h
      · exfalso
        have e := congrArg (·[x.length]?) he
        simp only [List.append_assoc, List.getElem?_append_right (Nat.le_refl _), Nat.sub_self, List.getElem?_append_left h] at e
        exact h1 (List.mem_of_getElem? (by simpa using e))
      · exact h
      · simp at hlen; omega
    simp at hlen
    exact List.eq_nil_of_length_eq_zero (by omega)
  intro p hp
  simp only [exL, List.mem_cons, List.not_mem_nil, or_false] at hp
  rcases hp with rfl | rfl | rfl
  · exact ⟨key _ (by decide) (by decide), by decide, by decide⟩
  · exact ⟨key _ (by decide) (by decide), by decide, by decide⟩
  · exact ⟨key _ (by decide) (by decide), by decide, by decide⟩
example : sent [13, 10] exL = [2, 5, 13, 10, 13, 10, 13, 10, 1, 13, 10, 7] := by decide +kernel
example : (receive (bodies exSize) [13, 10] 3 ⟨⟨[], [], []⟩, [], false, []⟩ [[2], [5, 13], [10, 13], [], [10, 13, 10, 1, 13, 10, 7]]).h.done = exL := by decide +kernel

end Verif.RawLines
