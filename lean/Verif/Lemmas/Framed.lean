import Verif.Model.Framed
import Verif.Props.Framing
import Verif.Lemmas.Stream
/-! Decoding inside a frame: the framing adapter shows the decoder the payload, as far as it has arrived, and 12 bytes less. -/
namespace Verif

/-- `y` is the beginning of a stream that starts with the frame of `pay`. -/
def Compat (pay y : Bytes) : Prop := ∃ rest fut, y ++ fut = frame pay ++ rest

theorem Compat.take12 {pay y : Bytes} (h : Compat pay y) (hy : 12 ≤ y.length) : y.take 12 = framePrefix pay.length := by
  obtain ⟨rest, fut, h⟩ := h
  have := congrArg (List.take 12) h
  rw [List.take_append_of_le_length hy] at this
  rw [this]
  unfold frame
  rw [List.append_assoc, List.append_assoc]
  exact List.take_left' (by simp)

theorem Compat.whole {pay y : Bytes} (h : Compat pay y) (hy : 24 + pay.length ≤ y.length) : ∃ rest, y = frame pay ++ rest := by
  obtain ⟨rest, fut, h⟩ := h
  rcases List.append_eq_append_iff.mp h with ⟨c, h1, h2⟩ | ⟨c, h1, h2⟩
  · have : c = [] := by
      have := congrArg List.length h1
      simp at this; apply List.eq_nil_of_length_eq_zero; omega
    subst this
    exact ⟨[], by simpa using h1.symm⟩
  · exact ⟨c, h1⟩

theorem Compat.window {pay y : Bytes} (h : Compat pay y) {p c : Nat} (hc : p + c ≤ pay.length) (hy : 12 + p + c ≤ y.length) :
    (y.drop (12 + p)).take c = (pay.drop p).take c := by
  obtain ⟨rest, fut, h⟩ := h
  have e : ((y ++ fut).drop (12 + p)).take c = ((frame pay ++ rest).drop (12 + p)).take c := by rw [h]
  rw [List.drop_append_of_le_length (by omega), List.take_append_of_le_length (by simp; omega)] at e
  rw [e]
  unfold frame
  rw [List.append_assoc, List.append_assoc, ← List.drop_drop, List.drop_left' (by simp), List.drop_append_of_le_length (by omega),
    List.take_append_of_le_length (by simp; omega)]

/-- The adapter `f` stands on the frame of `pay` of which `y` has arrived, and the decoder has read `p` bytes of the payload. -/
structure At (f : Frm) (pay y : Bytes) (p : Nat) : Prop where
  buf : f.s.buf.drop f.start = y
  le : f.start ≤ f.s.buf.length
  comp : Compat pay y
  small : pay.length < 2 ^ 32
  inside : p ≤ pay.length
  grown : 0 < p → 24 + p ≤ y.length
  state : (f.startChecked = false ∧ f.endChecked = false ∧ p = 0 ∧ f.s.pos ≤ f.start + 12) ∨
    (f.startChecked = true ∧ f.size = some pay.length ∧ 12 ≤ y.length ∧ f.s.pos = f.start + 12 + p ∧
      (f.endChecked = true → 24 + pay.length ≤ y.length))

/-- Nothing but the position and the flags have changed. -/
def SameStream (f f' : Frm) : Prop := f'.s.buf = f.s.buf ∧ f'.start = f.start

theorem SameStream.refl (f : Frm) : SameStream f f := ⟨rfl, rfl⟩
theorem SameStream.trans {f g h : Frm} (a : SameStream f g) (b : SameStream g h) : SameStream f h :=
  ⟨b.1.trans a.1, b.2.trans a.2⟩

theorem At.raw {f : Frm} {pay y : Bytes} {p : Nat} (h : At f pay y p) : f.rawSize = y.length := by
  unfold Frm.rawSize; rw [← h.buf]; simp

theorem At.len {f : Frm} {pay y : Bytes} {p : Nat} (h : At f pay y p) : f.s.buf.length = f.start + y.length := by
  have := h.le; rw [← h.buf]; simp; omega

theorem At.tell {f : Frm} {pay y : Bytes} {p : Nat} (h : At f pay y p) : f.tell = p := by
  unfold Frm.tell
  rw [h.raw]
  split
  next hlt =>
    by_cases hp : 0 < p
    · have := h.grown hp; omega
    · omega
  next hge =>
    rcases h.state with ⟨_, _, h3, h4⟩ | ⟨_, _, _, h4, _⟩ <;> omega

theorem At.check {f : Frm} {pay y : Bytes} {p : Nat} (h : At f pay y p) (hy : 12 ≤ y.length) :
    ∃ f', f.check = (.ok (), f') ∧ At f' pay y p ∧ SameStream f f' ∧ f'.startChecked = true ∧
      (24 + pay.length ≤ y.length → f'.endChecked = true) := by
  have hb := h.buf
  have hc := h.comp
  rcases h.state with ⟨s1, s2, s3, s4⟩ | ⟨s1, s2, s3, s4, s5⟩
  · subst s3
    rcases check_cases f s1 s2 h.le with ⟨h1, h2⟩ | ⟨n, hn, h1, h0, ⟨h2, h3⟩ | ⟨⟨q, rest, h2, h2'⟩, h3⟩⟩ | ⟨h1, _⟩
    · rw [hb] at h1; omega
    · rw [hb] at h1 h2
      have hnn : n = pay.length := framePrefix_inj hn h.small (by rw [← h1, hc.take12 hy])
      subst hnn
      refine ⟨_, h3, ⟨hb, h.le, hc, h.small, h.inside, h.grown, .inr ⟨rfl, rfl, hy, rfl, ?_⟩⟩, ⟨rfl, rfl⟩, rfl, ?_⟩
      · intro h5; exact absurd h5 (by show f.endChecked ≠ true; rw [s2]; simp)
      · intro h5; omega
    · rw [hb] at h1 h2'
      have hnn : n = pay.length := framePrefix_inj hn h.small (by rw [← h1, hc.take12 hy])
      rw [← hnn]
      refine ⟨_, h3, ⟨hb, h.le, hc, h.small, h.inside, h.grown, .inr ⟨rfl, by rw [hnn], hy, rfl, ?_⟩⟩, ⟨rfl, rfl⟩, rfl, fun _ => rfl⟩
      intro _
      rw [h2']; simp; omega
    · rw [hb] at h1
      exfalso
      refine not_bad_of_prefix h.small (hc.take12 hy) ?_ h1
      by_cases h24 : y.length < 24 + pay.length
      · exact .inl h24
      · obtain ⟨rest, hr⟩ := hc.whole (by omega)
        exact .inr ⟨pay, rest, rfl, hr⟩
  · unfold Frm.check
    rw [checkStart_done f s1]
    dsimp only
    by_cases he : f.endChecked = true
    · rw [checkEnd_done f (.inl he)]
      exact ⟨f, rfl, h, .refl f, s1, fun _ => he⟩
    · rcases checkEnd_cases f h.small s2 (by simpa using he) h.le with ⟨h1, h2⟩ | ⟨h1, h1', h2⟩ | ⟨h1, h1', q, hq, h2⟩
      · rw [hb] at h1
        exact ⟨f, h2, h, .refl f, s1, fun h3 => by omega⟩
      · rw [hb] at h1
        exact ⟨_, h2, ⟨hb, h.le, hc, h.small, h.inside, h.grown, .inr ⟨s1, s2, s3, s4, fun _ => h1⟩⟩, ⟨rfl, rfl⟩, s1, fun _ => rfl⟩
      · rw [hb] at h1 h1'
        obtain ⟨rest, hr⟩ := hc.whole h1
        exact absurd (is_frame_iff.mpr ⟨pay, rest, rfl, hr⟩).2.2 h1'

theorem At.move {f : Frm} {pay y : Bytes} {p p' : Nat} (h : At f pay y p) (hp : p' ≤ pay.length) (hg : 24 + p' ≤ y.length)
    (hs : f.startChecked = true ∨ p' = 0) : At (f.goto (f.start + 12 + p')) pay y p' := by
  refine ⟨h.buf, h.le, h.comp, h.small, hp, fun _ => hg, ?_⟩
  rcases h.state with ⟨s1, s2, s3, s4⟩ | ⟨s1, s2, s3, s4, s5⟩
  · rcases hs with hs | hs
    · rw [s1] at hs; cases hs
    · left; exact ⟨s1, s2, hs, by show f.start + 12 + p' ≤ f.start + 12; omega⟩
  · right; exact ⟨s1, s2, s3, rfl, s5⟩

theorem At.seekSet {f : Frm} {pay y : Bytes} {p p' : Nat} (h : At f pay y p) (hp : p' ≤ pay.length) (hg : 24 + p' ≤ y.length)
    (hs : f.startChecked = true ∨ p' = 0) : At (f.seekSet p') pay y p' ∧ SameStream f (f.seekSet p') := by
  unfold Frm.seekSet
  rw [h.raw, if_neg (by omega)]
  exact ⟨h.move hp hg hs, rfl, rfl⟩

theorem At.availableE {f : Frm} {pay y : Bytes} {p : Nat} (h : At f pay y p) :
    ∃ f' a, f.availableE = (a, f') ∧ At f' pay y p ∧ SameStream f f' ∧ f'.endChecked = f.endChecked ∧
      ((24 ≤ y.length ∧ a = (y.length : Int) - 24 - p) ∨ (y.length < 24 ∧ a = 0 ∧ p = 0)) := by
  unfold Frm.availableE
  have ht := h.tell
  have hr := h.raw
  have hl := h.len
  by_cases h24 : y.length < 24
  · have hp : p = 0 := by
      by_cases hp : 0 < p
      · have := h.grown hp; omega
      · omega
    have e1 : f.seekEnd = f := by unfold Frm.seekEnd; rw [hr, if_pos h24]
    have e2 : ∀ n, f.seekSet n = f := by intro n; unfold Frm.seekSet; rw [hr, if_pos h24]
    dsimp only
    rw [ht, e1, e2, ht]
    exact ⟨f, _, rfl, h, .refl f, rfl, .inr ⟨h24, by omega, hp⟩⟩
  · have e1 : f.seekEnd = f.goto (f.s.buf.length - 12) := by unfold Frm.seekEnd; rw [hr, if_neg h24]
    have e2 : (f.goto (f.s.buf.length - 12)).tell = y.length - 24 := by
      unfold Frm.tell
      rw [show (f.goto (f.s.buf.length - 12)).rawSize = f.rawSize from rfl, hr, if_neg h24]
      show f.s.buf.length - 12 - f.start - 12 = _
      omega
    have e3 : (f.goto (f.s.buf.length - 12)).seekSet p = f.goto (f.start + 12 + p) := by
      unfold Frm.seekSet
      rw [show (f.goto (f.s.buf.length - 12)).rawSize = f.rawSize from rfl, hr, if_neg h24]
      rfl
    dsimp only
    rw [ht, e1, e2, e3]
    refine ⟨_, _, rfl, ?_, ⟨rfl, rfl⟩, rfl, .inl ⟨by omega, by omega⟩⟩
    rcases h.state with ⟨s1, s2, s3, s4⟩ | ⟨s1, s2, s3, s4, s5⟩
    · exact h.move h.inside (by omega) (.inr s3)
    · by_cases hp : 0 < p
      · exact h.move h.inside (h.grown hp) (.inl s1)
      · exact h.move h.inside (by omega) (.inl s1)

theorem bio_read_nat {s : Bio} {c : Nat} (h : s.pos + c ≤ s.buf.length) :
    s.read c = ((s.buf.drop s.pos).take c, ⟨s.buf, s.pos + c⟩) := by
  rw [Bio.read_eq]
  have : wanted c (s.buf.length - s.pos) = c := by
    unfold wanted; rw [if_neg (by omega)]
    exact Nat.min_eq_left (by simp; omega)
  rw [this]

/-- Waiting for and reading `c` bytes of the payload. -/
theorem At.unpack {f : Frm} {pay y : Bytes} {p c : Nat} (h : At f pay y p) (hc : p + c ≤ pay.length) (hpos : 0 < p ∨ 0 < c) :
    (y.length < 24 + p + c ∧ ∃ f', f.unpack c = .wait f' ∧ At f' pay y p ∧ SameStream f f') ∨
    (24 + p + c ≤ y.length ∧ ∃ f', f.unpack c = .bytes ((pay.drop p).take c) f' ∧ At f' pay y (p + c) ∧ SameStream f f' ∧
      f'.startChecked = true ∧ (24 + pay.length ≤ y.length → f'.endChecked = true)) := by
  obtain ⟨f1, a, h1, h2, h3, _, h4⟩ := h.availableE
  unfold Frm.unpack
  rw [h1]
  dsimp only
  by_cases hlt : y.length < 24 + p + c
  · left
    refine ⟨hlt, f1, ?_, h2, h3⟩
    rw [if_pos]
    rcases h4 with ⟨_, h4⟩ | ⟨_, h4, h5⟩ <;> omega
  · right
    refine ⟨by omega, ?_⟩
    have ha : a = (y.length : Int) - 24 - p := by
      rcases h4 with ⟨_, h4⟩ | ⟨h6, h4, h5⟩ <;> omega
    rw [if_neg (by omega)]
    obtain ⟨f2, g1, g2, g3, g4, g5⟩ := h2.check (by omega)
    unfold Frm.read
    rw [g1]
    dsimp only
    rcases g2.state with ⟨s1, _⟩ | ⟨s1, s2, s3, s4, s5⟩
    · rw [s1] at g4; cases g4
    have hl := g2.len
    rw [if_neg (by rw [s1]; simp), if_neg (by
      rw [s4, s2]
      intro hor
      rcases hor with hor | hor
      · omega
      · split at hor
        · have := g2.inside; simp at hor; omega
        · omega)]
    have hav : f2.available = (y.length : Int) - 24 - p := by
      unfold Frm.available
      rw [g2.raw, if_neg (by omega), hl, s4]; omega
    rw [if_neg (by rw [hav]; omega)]
    have hrd : f2.s.read c = ((pay.drop p).take c, ⟨f2.s.buf, f2.s.pos + c⟩) := by
      rw [bio_read_nat (by rw [s4, hl]; omega), s4]
      rw [show f2.s.buf.drop (f2.start + 12 + p) = (f2.s.buf.drop f2.start).drop (12 + p) by rw [List.drop_drop]; congr 1; omega]
      rw [g2.buf, g2.comp.window hc (by omega)]
    rw [hrd]
    dsimp only
    rw [if_pos (by simp; omega)]
    refine ⟨_, rfl, ⟨g2.buf, g2.le, g2.comp, g2.small, hc, fun _ => by omega, .inr ⟨s1, s2, s3, ?_, s5⟩⟩, h3.trans ⟨g3.1, g3.2⟩, s1, g5⟩
    show f2.s.pos + c = f2.start + 12 + (p + c)
    omega

/-! ### The search for the packet length -/

theorem scanFrom_fuel (v : Bytes) : ∀ (fuel fuel' start : Nat), v.length < start + fuel → v.length < start + fuel' →
    scanFrom v fuel start = scanFrom v fuel' start := by
  intro fuel
  induction fuel with
  | zero =>
    intro fuel' start h h'
    cases fuel' with
    | zero => rfl
    | succ k => rw [scanFrom, scanFrom, if_pos (by omega)]
  | succ k ih =>
    intro fuel' start h h'
    cases fuel' with
    | zero => rw [scanFrom, scanFrom, if_pos (by omega)]
    | succ k' =>
      rw [scanFrom, scanFrom]
      rw [ih k' (start + 1) (by omega) (by omega)]

/-- How the searches over the payload (as far as it is visible) and over the adapter correspond. -/
def ScanSim (pay y : Bytes) (f : Frm) : ScanRes → Frm.Scan → Prop
  | .found len st, r => ∃ f', r = .found len st f' ∧ At f' pay y (st + 16) ∧ SameStream f f' ∧ f'.startChecked = true ∧
      (24 + pay.length ≤ y.length → f'.endChecked = true)
  | .wait1 st, r => y.length < 24 + pay.length → ∃ f', r = .wait1 st f' ∧ At f' pay y st ∧ SameStream f f'
  | .wait2 st q, r => y.length < 24 + pay.length → ∃ f', r = .wait2 st q f' ∧ At f' pay y (st + 8) ∧ SameStream f f'

theorem ScanSim.trans {pay y : Bytes} {f g : Frm} (h : SameStream f g) {a : ScanRes} {b : Frm.Scan} (hs : ScanSim pay y g a b) :
    ScanSim pay y f a b := by
  cases a with
  | found len st =>
    obtain ⟨f', h1, h2, h3, h4, h5⟩ := hs
    exact ⟨f', h1, h2, h.trans h3, h4, h5⟩
  | wait1 st =>
    intro hl
    obtain ⟨f', h1, h2, h3⟩ := hs hl
    exact ⟨f', h1, h2, h.trans h3⟩
  | wait2 st q =>
    intro hl
    obtain ⟨f', h1, h2, h3⟩ := hs hl
    exact ⟨f', h1, h2, h.trans h3⟩

/-- The payload as far as the decoder can see it. -/
def visible (pay y : Bytes) : Bytes := pay.take (y.length - 24)

theorem visible_length (pay y : Bytes) : (visible pay y).length = min (y.length - 24) pay.length := by
  simp [visible]

theorem visible_window {pay y : Bytes} {p c : Nat} (hc : p + c ≤ (visible pay y).length) :
    window (visible pay y) p c = (pay.drop p).take c := by
  rw [visible_length] at hc
  have := Nat.min_le_left (y.length - 24) pay.length
  rw [Nat.min_def] at hc
  unfold window visible
  rw [List.drop_take, List.take_take, Nat.min_eq_left (by split at hc <;> omega)]

theorem scan_second {pay y : Bytes} (fuel : Nat)
    (f : Frm) (start q1 : Nat) (again : Frm → Frm.Scan) (h : At f pay y (start + 8))
    (ih : ∀ f', SameStream f f' → At f' pay y (start + 1) →
      ScanSim pay y f' (scanFrom (visible pay y) fuel (start + 1)) (again f')) :
    ScanSim pay y f (if (visible pay y).length < start + 16 then .wait2 start q1
      else if q1 = compl64 (beDec (window (visible pay y) (start + 8) 8)) then .found q1 start
      else scanFrom (visible pay y) fuel (start + 1))
      (f.second start q1 again) := by
  unfold Frm.second
  have hvl := visible_length pay y
  by_cases hv : (visible pay y).length < start + 16
  · rw [if_pos hv]
    intro hpart
    have hin := h.inside
    by_cases hn : start + 8 + 8 ≤ pay.length
    · rcases h.unpack hn (.inl (by omega)) with ⟨h1, f', h2, h3, h4⟩ | ⟨h1, _⟩
      · rw [h2]; exact ⟨f', rfl, h3, h4⟩
      · rw [Nat.min_def] at hvl; split at hvl <;> omega
    · obtain ⟨f1, a, h1, h2, h3, _, h4⟩ := h.availableE
      unfold Frm.unpack
      rw [h1]; dsimp only
      rw [if_pos]
      · exact ⟨f1, rfl, h2, h3⟩
      · rcases h4 with ⟨_, h4⟩ | ⟨_, h4, h5⟩ <;> omega
  · rw [if_neg hv]
    rw [Nat.min_def] at hvl
    have hin : start + 16 ≤ pay.length ∧ 24 + (start + 16) ≤ y.length := by split at hvl <;> omega
    rcases h.unpack (c := 8) (by omega) (.inl (by omega)) with ⟨h1, _⟩ | ⟨h1, f', h2, h3, h4, h5, h6⟩
    · omega
    rw [h2]; dsimp only
    rw [visible_window (by omega)]
    by_cases hq : q1 = compl64 (beDec ((pay.drop (start + 8)).take 8))
    · rw [if_pos hq, if_pos hq]
      exact ⟨f', rfl, h3, h4, h5, h6⟩
    · rw [if_neg hq, if_neg hq]
      obtain ⟨g1, g2⟩ := h3.seekSet (p' := start + 1) (by omega) (by omega) (.inl h5)
      exact (ih _ (h4.trans g2) g1).trans (h4.trans g2)

theorem scan_loop {pay y : Bytes} : ∀ (fuel : Nat) (f : Frm) (start : Nat), At f pay y start →
    ScanSim pay y f (scanFrom (visible pay y) fuel start) (Frm.scanLoop fuel f start) := by
  intro fuel
  induction fuel with
  | zero => intro f start h _; exact ⟨f, rfl, h, .refl f⟩
  | succ fuel ih =>
    intro f start h
    rw [scanFrom, Frm.scanLoop]
    have hvl := visible_length pay y
    by_cases hv : (visible pay y).length < start + 8
    · rw [if_pos hv]
      intro hpart
      have hin := h.inside
      by_cases hn : start + 8 ≤ pay.length
      · rcases h.unpack hn (.inr (by omega)) with ⟨h1, f', h2, h3, h4⟩ | ⟨h1, _⟩
        · rw [h2]; exact ⟨f', rfl, h3, h4⟩
        · rw [Nat.min_def] at hvl; split at hvl <;> omega
      · obtain ⟨f1, a, h1, h2, h3, _, h4⟩ := h.availableE
        unfold Frm.unpack
        rw [h1]; dsimp only
        rw [if_pos]
        · exact ⟨f1, rfl, h2, h3⟩
        · rcases h4 with ⟨_, h4⟩ | ⟨_, h4, h5⟩ <;> omega
    · rw [if_neg hv]
      rw [Nat.min_def] at hvl
      have hin : start + 8 ≤ pay.length ∧ 24 + (start + 8) ≤ y.length := by split at hvl <;> omega
      rcases h.unpack (c := 8) (by omega) (.inr (by omega)) with ⟨h1, _⟩ | ⟨h1, f', h2, h3, h4, h5, h6⟩
      · omega
      rw [h2]; dsimp only
      rw [visible_window (by omega)]
      exact (scan_second fuel f' start _ _ h3 fun g _ hg => ih g _ hg).trans h4

theorem scan_sim {pay y : Bytes} (f : Frm) (start : Nat) (q : Option Nat)
    (h : At f pay y (match q with | none => start | some _ => start + 8)) :
    ScanSim pay y f (scan (visible pay y) start q) (f.scan start q) := by
  have hlen : (visible pay y).length < f.s.buf.length + 1 := by
    have := h.len
    have h2 := visible_length pay y
    have := Nat.min_le_left (y.length - 24) pay.length
    omega
  cases q with
  | none =>
    rw [scan, Frm.scan, scanFrom_fuel (visible pay y) _ (f.s.buf.length + 1) start (by omega) (by omega)]
    exact scan_loop _ f start h
  | some q1 =>
    rw [scan, Frm.scan, scanFrom_fuel (visible pay y) _ (f.s.buf.length + 1) (start + 1) (by omega) (by omega)]
    refine scan_second _ f start q1 _ h fun g hg hat => ?_
    rw [hg.1]
    exact scan_loop _ g (start + 1) hat

/-! ### Running a decoder over the adapter -/

/-- Running over the adapter gives what running over the visible payload gives. -/
def RunSim {α} (pay y : Bytes) (f : Frm) (read : Prop) (r : Out α × Nat) (r' : Out α × Frm) : Prop :=
  ∃ f', r' = (r.1, f') ∧ At f' pay y r.2 ∧ SameStream f f' ∧
    (24 + pay.length ≤ y.length → read ∨ f.endChecked = true → f'.endChecked = true)

theorem RunSim.trans {α} {pay y : Bytes} {f g : Frm} {A B : Prop} {r : Out α × Nat} {r' : Out α × Frm} (hs : SameStream f g)
    (h : RunSim pay y g A r r') (hAB : 24 + pay.length ≤ y.length → B ∨ f.endChecked = true → A ∨ g.endChecked = true) :
    RunSim pay y f B r r' := by
  obtain ⟨f', h1, h2, h3, h4⟩ := h
  exact ⟨f', h1, h2, hs.trans h3, fun hf hb => h4 hf (hAB hf hb)⟩

theorem visible_full {pay y : Bytes} (h : 24 + pay.length ≤ y.length) : visible pay y = pay :=
  List.take_of_length_le (by omega)

theorem visible_part {pay y : Bytes} (h : y.length < 24 + pay.length) : (visible pay y).length = y.length - 24 := by
  rw [visible_length, Nat.min_eq_left (by omega)]

/-- What is visible behind the first `p` bytes. -/
theorem visible_split {pay y pre bs : Bytes} (hp : pay = pre ++ bs) (hv : pre.length ≤ (visible pay y).length) :
    ∃ got miss, visible pay y = pre ++ got ∧ bs = got ++ miss ∧ (24 + pay.length ≤ y.length → miss = []) := by
  refine ⟨bs.take (y.length - 24 - pre.length), bs.drop (y.length - 24 - pre.length), ?_, by simp, ?_⟩
  · rw [visible_length] at hv
    have := Nat.min_le_left (y.length - 24) pay.length
    unfold visible
    rw [hp, List.take_append, List.take_of_length_le (by omega)]
  · intro hf
    rw [hp] at hf
    simp at hf
    apply List.drop_eq_nil_of_le; omega

theorem At.visible_le {f : Frm} {pay y : Bytes} {p : Nat} (h : At f pay y p) : p ≤ (visible pay y).length := by
  rw [visible_length, Nat.le_min]
  refine ⟨?_, h.inside⟩
  by_cases hp : 0 < p
  · have := h.grown hp; omega
  · omega

/-- The continuation of a search that found the packet length. -/
theorem sim_found {α} {pay y : Bytes} {f : Frm} {start : Nat} {q : Option Nat} {k : Nat → Nat → Dec α} {len st pos : Nat} {B : Prop}
    (hs : ScanSim pay y f (scan (visible pay y) start q) (f.scan start q))
    (hf : scan (visible pay y) start q = .found len st)
    (ih : ∀ g, At g pay y (st + 16) → ∃ A, RunSim pay y g A ((k len st).run (visible pay y) (st + 16)) ((k len st).runF g)) :
    RunSim pay y f B ((Dec.sync start q k).run (visible pay y) pos) ((Dec.sync start q k).runF f) := by
  rw [Dec.run, Dec.runF]
  rw [hf] at hs ⊢
  obtain ⟨f', h1, h2, h3, h4, h5⟩ := hs
  rw [h1]; dsimp only
  obtain ⟨A, hA⟩ := ih f' h2
  exact hA.trans h3 fun hfull _ => .inr (h5 hfull)

theorem sim_wait1 {α} {pay y : Bytes} {f : Frm} {start : Nat} {q : Option Nat} {k : Nat → Nat → Dec α} {st pos : Nat} {B : Prop}
    (hs : ScanSim pay y f (scan (visible pay y) start q) (f.scan start q))
    (hf : scan (visible pay y) start q = .wait1 st) (hpart : y.length < 24 + pay.length) :
    RunSim pay y f B ((Dec.sync start q k).run (visible pay y) pos) ((Dec.sync start q k).runF f) := by
  rw [Dec.run, Dec.runF]
  rw [hf] at hs ⊢
  obtain ⟨f', h1, h2, h3⟩ := hs hpart
  rw [h1]
  exact ⟨f', rfl, h2, h3, fun h => by omega⟩

theorem sim_wait2 {α} {pay y : Bytes} {f : Frm} {start : Nat} {q : Option Nat} {k : Nat → Nat → Dec α} {st q1 pos : Nat} {B : Prop}
    (hs : ScanSim pay y f (scan (visible pay y) start q) (f.scan start q))
    (hf : scan (visible pay y) start q = .wait2 st q1) (hpart : y.length < 24 + pay.length) :
    RunSim pay y f B ((Dec.sync start q k).run (visible pay y) pos) ((Dec.sync start q k).runF f) := by
  rw [Dec.run, Dec.runF]
  rw [hf] at hs ⊢
  obtain ⟨f', h1, h2, h3⟩ := hs hpart
  rw [h1]
  exact ⟨f', rfl, h2, h3, fun h => by omega⟩

theorem Parses.sim {α} {d : Dec α} {p bs a} (h : Parses p d bs a) : ∀ {pay y : Bytes} {f : Frm} (pre : Bytes), pre.length = p →
    pay = pre ++ bs → At f pay y p → (0 < p ∨ ∃ s q k, d = .sync s q k) →
    RunSim pay y f (bs ≠ []) (d.run (visible pay y) p) (d.runF f) := by
  induction h with
  | ret =>
    intro pay y f pre hp hpay hat _
    exact ⟨f, rfl, hat, .refl f, fun _ h => h.resolve_left (by simp)⟩
  | @read p n k b0 bs0 a hl _ ih =>
    intro pay y f pre hp hpay hat hd
    have h0 : 0 < p := by
      rcases hd with h | ⟨s, q, k', h⟩
      · exact h
      · cases h
    rw [Dec.run, Dec.runF]
    have hn : p + n ≤ pay.length := by rw [hpay]; simp; omega
    rcases hat.unpack hn (.inl h0) with ⟨h1, f', h2, h3, h4⟩ | ⟨h1, f', h2, h3, h4, h5, h6⟩
    · rw [h2, if_pos (by rw [visible_part (by omega)]; have := hat.grown h0; omega)]
      exact ⟨f', rfl, h3, h4, fun h => by omega⟩
    · have hv : p + n ≤ (visible pay y).length := by
        rw [visible_length, Nat.le_min]; omega
      rw [h2, if_neg (by omega), visible_window hv]
      have hb : (pay.drop p).take n = b0 := by
        rw [hpay, ← hp, List.drop_left, List.take_left' hl]
      rw [hb]
      exact (ih (pre ++ b0) (by simp [hp, hl]) (by rw [hpay]; simp) h3 (.inl (by omega))).trans h4
        fun hf _ => .inr (h6 hf)
  | @tell p k bs0 a _ ih =>
    intro pay y f pre hp hpay hat hd
    have h0 : 0 < p := by
      rcases hd with h | ⟨s, q, k', h⟩
      · exact h
      · cases h
    rw [Dec.run, Dec.runF, hat.tell]
    exact ih pre hp hpay hat (.inl h0)
  | @sync p k g len bs0 a hl hc _ ih =>
    intro pay y f pre hp hpay hat _
    have hs := scan_sim f p none hat
    obtain ⟨got, miss, e1, e2, e3⟩ := visible_split (y := y) hpay (by rw [hp]; exact hat.visible_le)
    subst hp
    rcases scanFrom_spec hl g pre got miss ((visible pay y).length + 1) e2.symm hc (by rw [e1]; simp; omega) with
      ⟨h, h1, h2, h3⟩ | ⟨u, g', h, h1, h2, h3, h4⟩ | ⟨u, g', qb, h, h1, h2, h3, h4, h5⟩
    · rw [← e1] at h3
      refine sim_found hs h3 fun f' hf' => ⟨_, ih (pre ++ (g ++ hdr16 len)) (by simp; omega) (by rw [hpay]; simp) hf' (.inl (by omega))⟩
    · rw [← e1] at h4
      refine sim_wait1 hs h4 ?_
      apply Nat.lt_of_not_le
      intro hfull
      rw [e3 hfull, List.append_nil] at e2
      have := congrArg List.length h1
      have := congrArg List.length h2
      have := congrArg List.length e2
      simp at *; omega
    · rw [← e1] at h5
      refine sim_wait2 hs h5 ?_
      apply Nat.lt_of_not_le
      intro hfull
      rw [e3 hfull, List.append_nil] at e2
      have := congrArg List.length h1
      have := congrArg List.length h2
      have := congrArg List.length e2
      simp at *; omega

theorem Resid.sim {α} {d : Dec α} {pre bs a} (h : Resid pre d bs a) {pay y : Bytes} {f : Frm} (hpay : pay = pre ++ bs)
    (hat : At f pay y pre.length) (hd : 0 < pre.length ∨ ∃ s q k, d = .sync s q k) :
    RunSim pay y f (bs ≠ []) (d.run (visible pay y) pre.length) (d.runF f) := by
  cases h with
  | main h => exact h.sim pre rfl hpay hat hd
  | @mid u qb g k cs len bs0 _ hl hc hq he hk =>
    have hat' : At f pay y (u.length + 8) := by simpa [hq] using hat
    have hs := scan_sim f u.length (some (beDec qb)) hat'
    obtain ⟨got, miss, e1, e2, e3⟩ := visible_split (y := y) hpay hat.visible_le
    rw [List.append_assoc] at e1
    rcases scan2_spec hl (bs := bs0) g u qb got miss hq (by rw [List.append_assoc, ← e2, he]) hc with
      ⟨h, h1, h2, h3⟩ | ⟨u', g', h, h1, h2, h3, h4, h5⟩ | ⟨u', g', qb', h, h1, h2, h3, h4, h5⟩
    · rw [← e1] at h3
      refine sim_found hs h3 fun f' hf' => ⟨_, hk.sim (u ++ (g ++ hdr16 len)) (by simp; omega) ?_ hf' (.inl (by omega))⟩
      rw [hpay, List.append_assoc, he]; simp
    · rw [← e1] at h5
      refine sim_wait1 hs h5 ?_
      apply Nat.lt_of_not_le
      intro hfull
      rw [e3 hfull, List.append_nil] at e2
      have := congrArg List.length h1
      have := congrArg List.length h2
      have := congrArg List.length e2
      have := congrArg List.length he
      simp at *; omega
    · rw [← e1] at h5
      refine sim_wait2 hs h5 ?_
      apply Nat.lt_of_not_le
      intro hfull
      rw [e3 hfull, List.append_nil] at e2
      have := congrArg List.length h1
      have := congrArg List.length h2
      have := congrArg List.length e2
      have := congrArg List.length he
      simp at *; omega

/-! ### The invariant of the Deserializer -/

/-- The frames of the packets, one after the other. -/
def fwire (env : Env) (ps : List Val) : Bytes := ps.flatMap fun p => frame (ser env p)

theorem fwire_cons (env : Env) (p : Val) (ps : List Val) : fwire env (p :: ps) = frame (ser env p) ++ fwire env ps := by
  simp [fwire]

/-- Can be carried in a frame. -/
structure FOK (env : Env) (cls : Cls) (p : Val) : Prop where
  carried : Carried env 1 cls p
  small : (ser env p).length < 2 ^ 32

/-- Where the Deserializer stands when `qs` is still to be delivered and the bytes `fut` have not arrived. -/
def FInv (env : Env) (cls : Cls) (st : FState) (qs : List Val) (fut : Bytes) : Prop :=
  match st.run, qs with
  | none, qs => st.frm.s.pos ≤ st.frm.s.buf.length ∧ st.frm.s.buf.drop st.frm.s.pos ++ fut = fwire env qs
  | some d, [] => fut = [] ∧ st.frm.start = st.frm.s.buf.length ∧ st.frm.s.pos ≤ st.frm.start + 12 ∧ st.frm.startChecked = false ∧
      st.frm.endChecked = false ∧ ∃ k : Nat → Nat → Nat → Dec (Val × Nat), framedGen env cls = .tell (fun s => .sync s none (k s)) ∧
      d = .sync 0 none (k 0)
  | some d, q :: qs' => ∃ y pre bs m, At st.frm (ser env q) y pre.length ∧ ser env q = pre ++ bs ∧ bs ≠ [] ∧
      Resid pre d bs (q, m) ∧ (0 < pre.length ∨ ∃ s q k, d = .sync s q k) ∧ y ++ fut = frame (ser env q) ++ fwire env qs'

/-- Bytes that still have to arrive before the next packet is complete. -/
def FBlocked (env : Env) (cls : Cls) (st : FState) (qs : List Val) (fut : Bytes) : Prop :=
  FInv env cls st qs fut ∧
  match qs with
  | [] => True
  | _ :: qs' => (fwire env qs').length < fut.length

theorem FInv.update {env : Env} {cls : Cls} {qs : List Val} {st : FState} {b fut : Bytes} (h : FInv env cls st qs (b ++ fut)) :
    FInv env cls (st.update b) qs fut := by
  obtain ⟨frm, run⟩ := st
  cases run with
  | none =>
    obtain ⟨h1, h2⟩ := h
    dsimp only at h1 h2
    refine ⟨?_, ?_⟩
    · show frm.s.pos ≤ (frm.s.buf ++ b).length
      simp; omega
    · show (frm.s.buf ++ b).drop frm.s.pos ++ fut = _
      rw [List.drop_append_of_le_length h1, List.append_assoc]; exact h2
  | some d =>
    cases qs with
    | nil =>
      obtain ⟨h1, h2, h3⟩ := h
      simp at h1
      obtain ⟨rfl, rfl⟩ := h1
      refine ⟨rfl, ?_, h3⟩
      show frm.start = (frm.s.buf ++ []).length
      simpa using h2
    | cons q qs =>
      obtain ⟨y, pre, bs, m, h1, h2, h3, h4, h5, h6⟩ := h
      refine ⟨y ++ b, pre, bs, m, ?_, h2, h3, h4, h5, by rw [List.append_assoc]; exact h6⟩
      refine ⟨?_, ?_, ⟨fwire env qs, fut, by rw [List.append_assoc]; exact h6⟩, h1.small, h1.inside, ?_, ?_⟩
      · show (frm.s.buf ++ b).drop frm.start = _
        rw [List.drop_append_of_le_length h1.le]; rw [h1.buf]
      · show frm.start ≤ (frm.s.buf ++ b).length
        have := h1.le; simp; dsimp only at this; omega
      · intro hp; have := h1.grown hp; simp; omega
      · rcases h1.state with ⟨s1, s2, s3, s4⟩ | ⟨s1, s2, s3, s4, s5⟩
        · exact .inl ⟨s1, s2, s3, s4⟩
        · refine .inr ⟨s1, s2, by simp; omega, s4, fun h => ?_⟩
          have := s5 h; simp; omega

/-- A search that has not read anything when it waits is still searching. -/
theorem sync_partial {α} {d : Dec α} {p bs a} (h : Parses p d bs a) {s q k} (hd : d = .sync s q k) (pre got miss : Bytes)
    (hp : pre.length = p) (hb : bs = got ++ miss) (hm : miss ≠ []) :
    ∃ d' n, d.run (pre ++ got) p = (.wait d', n) ∧ (0 < n ∨ ∃ s q k, d' = .sync s q k) := by
  cases h with
  | ret => cases hd
  | read _ _ => cases hd
  | tell _ => cases hd
  | @sync p k g len bs0 a hl hc hk =>
    rw [Dec.run, scan]
    subst hp
    rcases scanFrom_spec hl g pre got miss ((pre ++ got).length + 1) hb.symm hc (by simp; omega) with
      ⟨h, h1, h2, h3⟩ | ⟨u, g', h, h1, h2, h3, h4⟩ | ⟨u, g', qb, h, h1, h2, h3, h4, h5⟩
    · rw [h3]; simp only
      obtain ⟨d', used, hv, e1, e2, e3⟩ :=
        hk.run_partial (pre ++ (g ++ hdr16 len)) h miss (by simp; omega) h2 hm
      refine ⟨d', pre.length + g.length + 16 + used.length, ?_, .inl ?_⟩
      · rw [h1, show pre ++ (g ++ (hdr16 len ++ h)) = pre ++ (g ++ hdr16 len) ++ h by simp, e2]
      · omega
    · rw [h4]; exact ⟨_, _, rfl, .inr ⟨_, _, _, rfl⟩⟩
    · rw [h5]; exact ⟨_, _, rfl, .inr ⟨_, _, _, rfl⟩⟩

/-- Running a decoder that stands inside the frame of `q`. -/
theorem closed_run {env : Env} {q : Val} {f : Frm} {d : Dec (Val × Nat)} {y pre bs : Bytes} {m : Nat}
    (hat : At f (ser env q) y pre.length) (hpay : ser env q = pre ++ bs) (hbs : bs ≠ [])
    (hr : Resid pre d bs (q, m)) (hd : 0 < pre.length ∨ ∃ s q k, d = .sync s q k) :
    (24 + (ser env q).length ≤ y.length ∧ ∃ f', FState.closed (d.runF f) = (.done (q, m), f') ∧ f'.s.buf = f.s.buf ∧
      f'.s.pos = f.start + (24 + (ser env q).length)) ∨
    (y.length < 24 + (ser env q).length ∧ ∃ f' d' pre' bs', FState.closed (d.runF f) = (.wait d', f') ∧ SameStream f f' ∧
      At f' (ser env q) y pre'.length ∧ ser env q = pre' ++ bs' ∧ bs' ≠ [] ∧ Resid pre' d' bs' (q, m) ∧
      (0 < pre'.length ∨ ∃ s q k, d' = .sync s q k)) := by
  obtain ⟨f', h1, h2, h3, h4⟩ := hr.sim hpay hat hd
  obtain ⟨got, miss, e1, e2, e3⟩ := visible_split (y := y) hpay hat.visible_le
  by_cases hfull : 24 + (ser env q).length ≤ y.length
  · left
    refine ⟨hfull, ?_⟩
    have hm := e3 hfull
    subst hm
    rw [List.append_nil] at e2
    subst e2
    have hrun := hr.run []
    rw [List.append_nil, ← e1] at hrun
    rw [h1, hrun]
    have hend := h4 hfull (.inl hbs)
    rw [hrun] at h2
    rcases h2.state with ⟨s1, s2, _⟩ | ⟨s1, s2, s3, s4, s5⟩
    · rw [hend] at s2; cases s2
    refine ⟨f'.goto (f'.start + 12 + f'.size.getD 0 + 12), ?_, h3.1, ?_⟩
    · unfold FState.closed Frm.closeFrame
      dsimp only
      rw [if_neg (by rw [hend]; simp)]
    · show f'.start + 12 + f'.size.getD 0 + 12 = _
      rw [s2, h3.2]
      show f.start + 12 + (ser env q).length + 12 = _
      omega
  · right
    refine ⟨by omega, ?_⟩
    have hmiss : miss ≠ [] := by
      intro hm
      have hl := visible_part (pay := ser env q) (y := y) (by omega)
      rw [e1] at hl
      have hlt : y.length < 24 + (ser env q).length := by omega
      have h6 := congrArg List.length hpay
      have h7 := congrArg List.length e2
      have h9 := hat.grown
      have : 0 < bs.length := List.length_pos_iff.mpr hbs
      subst hm
      simp at *
      omega
    obtain ⟨d', used, hv, g1, g2, g3⟩ := hr.run_partial got miss e2 hmiss
    rw [← e1] at g2
    rw [g2] at h1 h2
    have hbs' : hv ++ miss ≠ [] := by simp [hmiss]
    refine ⟨f', d', pre ++ used, hv ++ miss, by rw [h1]; rfl, h3, h2, by rw [hpay, e2, g1]; simp, hbs', g3, ?_⟩
    by_cases hp : 0 < (pre ++ used).length
    · exact .inl hp
    · right
      have hpre : pre = [] := by
        apply List.eq_nil_of_length_eq_zero
        have : (pre ++ used).length = pre.length + used.length := List.length_append
        omega
      rcases hd with hd | ⟨s, q', k, rfl⟩
      · rw [hpre] at hd; simp at hd
      · cases hr with
        | mid _ _ hq _ _ => rw [(List.append_eq_nil_iff.mp hpre).2] at hq; simp at hq
        | main hr =>
          subst hpre
          obtain ⟨d2, n, r1, r2⟩ := sync_partial hr rfl [] got miss rfl e2 hmiss
          rw [List.nil_append] at r1
          rw [e1, List.nil_append] at g2
          rw [show ([] : Bytes).length = 0 from rfl] at g2
          rw [show ([] : Bytes).length = 0 from rfl] at r1
          rw [r1] at g2
          cases g2
          rcases r2 with r2 | r2
          · exact absurd r2 hp
          · exact r2

theorem fwire_nil_of {env : Env} {qs : List Val} {y fut : Bytes} (h : y ++ fut = fwire env qs) (hq : qs = []) : y = [] ∧ fut = [] := by
  subst hq; simpa [fwire] using h

/-- The state after a started generator of which nothing more is to come. -/
theorem idle_gen {env : Env} {cls : Cls} {f : Frm} (h1 : f.start = f.s.buf.length) (k : Nat → Nat → Nat → Dec (Val × Nat)) :
    (Dec.sync 0 none (k 0)).runF f = (.wait (.sync 0 none (k 0)), f) ∧
    (framedGen env cls = .tell (fun s => .sync s none (k s)) → (framedGen env cls).runF f = (.wait (.sync 0 none (k 0)), f)) := by
  have hr : f.rawSize < 24 := by unfold Frm.rawSize; omega
  have ht : f.tell = 0 := by unfold Frm.tell; rw [if_pos hr]
  have e1 : f.seekEnd = f := by unfold Frm.seekEnd; rw [if_pos hr]
  have e2 : ∀ n, f.seekSet n = f := by intro n; unfold Frm.seekSet; rw [if_pos hr]
  have hu : f.unpack 8 = .wait f := by
    unfold Frm.unpack Frm.availableE
    dsimp only
    rw [e1, e2, ht, if_pos (by decide)]
  have hrun : (Dec.sync 0 none (k 0)).runF f = (.wait (.sync 0 none (k 0)), f) := by
    rw [Dec.runF, Frm.scan, Frm.scanLoop, hu]
  refine ⟨hrun, fun hk => ?_⟩
  rw [hk, Dec.runF, ht, hrun]

theorem FInv.iter {env : Env} (hr : env.Registered) {cls : Cls} {qs : List Val} (hq : ∀ x ∈ qs, FOK env cls x) {st : FState} {fut : Bytes}
    (h : FInv env cls st qs fut) :
    (∃ st', st.iter env cls = (none, st') ∧ FBlocked env cls st' qs fut) ∨
    (∃ st' q qs', qs = q :: qs' ∧ st.iter env cls = (some (.packet q), st') ∧ FInv env cls st' qs' fut ∧
      st'.frm.s.buf.length < st.frm.s.buf.length) := by
  obtain ⟨k, hk⟩ := fresh_form env 0 cls
  have hk : framedGen env cls = .tell (fun s => .sync s none (k s)) := hk
  obtain ⟨frm, run⟩ := st
  -- a decoder inside the frame of `q`
  have main : ∀ (q : Val) (qs' : List Val) (f : Frm) (d : Dec (Val × Nat)) (y pre bs : Bytes) (m : Nat), qs = q :: qs' →
      f.s.buf = frm.s.buf → At f (ser env q) y pre.length → ser env q = pre ++ bs → bs ≠ [] → Resid pre d bs (q, m) →
      (0 < pre.length ∨ ∃ s q k, d = .sync s q k) → y ++ fut = frame (ser env q) ++ fwire env qs' →
      FState.genNext env cls ⟨frm, run⟩ = FState.closed (d.runF f) →
      (∃ st', FState.iter env cls ⟨frm, run⟩ = (none, st') ∧ FBlocked env cls st' qs fut) ∨
      (∃ st' q qs', qs = q :: qs' ∧ FState.iter env cls ⟨frm, run⟩ = (some (.packet q), st') ∧ FInv env cls st' qs' fut ∧
        st'.frm.s.buf.length < frm.s.buf.length) := by
    intro q qs' f d y pre bs m hqs hbuf hat hpay hbs hres hd hy hgen
    subst hqs
    rcases closed_run hat hpay hbs hres hd with ⟨hfull, f', g1, g2, g3⟩ | ⟨hpart, f', d', pre', bs', g1, g2, g3, g4, g5, g6, g7⟩
    · right
      refine ⟨⟨{ f' with s := ⟨f'.s.buf.drop f'.s.pos, 0⟩ }, none⟩, q, qs', rfl, ?_, ⟨Nat.zero_le _, ?_⟩, ?_⟩
      · unfold FState.iter
        rw [hgen, g1]
      · show (f'.s.buf.drop f'.s.pos).drop 0 ++ fut = _
        rw [g2, g3, List.drop_zero, ← List.drop_drop, hat.buf]
        have h24 : (frame (ser env q)).length = 24 + (ser env q).length := by simp; omega
        have := congrArg (List.drop (24 + (ser env q).length)) hy
        rw [List.drop_append_of_le_length hfull, List.drop_left' h24] at this
        exact this
      · show (f'.s.buf.drop f'.s.pos).length < _
        have := hat.len
        rw [g2, g3, ← hbuf]
        simp; omega
    · left
      refine ⟨⟨f', some d'⟩, ?_, ⟨y, pre', bs', m, g3, g4, g5, g6, g7, hy⟩, ?_⟩
      · unfold FState.iter
        rw [hgen, g1]
      · have := congrArg List.length hy
        simp at this
        show (fwire env qs').length < fut.length
        omega
  cases run with
  | none =>
    obtain ⟨h1, h2⟩ := h
    dsimp only at h1 h2
    cases qs with
    | nil =>
      left
      obtain ⟨hy, hf⟩ := fwire_nil_of h2 rfl
      rcases check_cases ⟨frm.s, frm.s.pos, false, false, none⟩ rfl rfl h1 with
        ⟨c1, c2⟩ | ⟨n, hn, c1, c0, _⟩ | ⟨c1, _⟩
      · have hlen : frm.s.pos = frm.s.buf.length := by
          have := congrArg List.length hy; simp at this; omega
        have hi := idle_gen (env := env) (cls := cls)
          (f := { (Frm.goto ⟨frm.s, frm.s.pos, false, false, none⟩ frm.s.pos) with size := none }) hlen k
        refine ⟨⟨{ (Frm.goto ⟨frm.s, frm.s.pos, false, false, none⟩ frm.s.pos) with size := none }, some (.sync 0 none (k 0))⟩, ?_,
          ⟨hf, hlen, ?_, rfl, rfl, k, hk, rfl⟩, trivial⟩
        · unfold FState.iter FState.genNext Frm.init
          dsimp only
          rw [c2]; dsimp only
          rw [hi.2 hk]
          rfl
        · show frm.s.pos ≤ frm.s.pos + 12
          omega
      · dsimp only at c0; rw [hy] at c0; simp at c0
      · dsimp only at c1; rw [hy] at c1
        exact absurd c1 (not_bad_of_short (by simp))
    | cons q qs' =>
      have hok := hq q (by simp)
      rw [fwire_cons] at h2
      have hcomp : Compat (ser env q) (frm.s.buf.drop frm.s.pos) := ⟨_, _, h2⟩
      have hat0 : At ⟨frm.s, frm.s.pos, false, false, none⟩ (ser env q) (frm.s.buf.drop frm.s.pos) 0 :=
        ⟨rfl, h1, hcomp, hok.small, Nat.zero_le _, by intro h; omega, .inl ⟨rfl, rfl, rfl, by show frm.s.pos ≤ frm.s.pos + 12; omega⟩⟩
      have hinit : ∃ f', Frm.init frm.s = (.ok (), f') ∧ At f' (ser env q) (frm.s.buf.drop frm.s.pos) 0 ∧ f'.s.buf = frm.s.buf := by
        by_cases h12 : 12 ≤ (frm.s.buf.drop frm.s.pos).length
        · obtain ⟨f', c1, c2, c3, _⟩ := hat0.check h12
          exact ⟨f', c1, c2, c3.1⟩
        · rcases check_cases ⟨frm.s, frm.s.pos, false, false, none⟩ rfl rfl h1 with
            ⟨c1, c2⟩ | ⟨n, hn, c1, c0, _⟩ | ⟨c1, _⟩
          · refine ⟨_, c2, ?_, rfl⟩
            exact ⟨rfl, h1, hcomp, hok.small, Nat.zero_le _, by intro h; omega,
              .inl ⟨rfl, rfl, rfl, by show frm.s.pos ≤ frm.s.pos + 12; omega⟩⟩
          · exact absurd c0 h12
          · exact absurd c1 (not_bad_of_short (by dsimp only; omega))
      obtain ⟨f', c1, c2, c3⟩ := hinit
      obtain ⟨m, hm⟩ := item_parses hr (x := ([], q)) ⟨hok.carried, by intro i hi; simp at hi⟩ 0
      have hpos := item_pos (x := ([], q)) ⟨hok.carried, by intro i hi; simp at hi⟩
      have hm : Parses 0 (framedGen env cls) (ser env q) (q, m) := hm
      have hm' : Parses 0 (.sync 0 none (k 0)) (ser env q) (q, m) := by
        rw [hk] at hm
        cases hm with
        | tell hm => exact hm
      refine main q qs' f' (.sync 0 none (k 0)) (frm.s.buf.drop frm.s.pos) [] (ser env q) m rfl c3 c2 rfl ?_ (.main hm')
        (.inr ⟨_, _, _, rfl⟩) h2 ?_
      · intro h0; rw [h0] at hpos; simp at hpos
      · unfold FState.genNext
        dsimp only
        rw [c1]; dsimp only
        rw [hk, Dec.runF, c2.tell]
  | some d =>
    cases qs with
    | nil =>
      left
      obtain ⟨h1, h2, h3, h4, h5, k', hk', rfl⟩ := h
      have hkk : k' 0 = k 0 := by
        rw [hk] at hk'
        injection hk' with hk'
        have := congrFun hk' 0
        injection this with _ _ this
        exact this.symm
      rw [hkk]
      have hi := idle_gen (env := env) (cls := cls) h2 k
      refine ⟨⟨frm, some (.sync 0 none (k 0))⟩, ?_, ⟨h1, h2, h3, h4, h5, k, hk, rfl⟩, trivial⟩
      unfold FState.iter FState.genNext
      dsimp only
      rw [hi.1]
      rfl
    | cons q qs' =>
      obtain ⟨y, pre, bs, m, h1, h2, h3, h4, h5, h6⟩ := h
      exact main q qs' frm d y pre bs m rfl rfl h1 h2 h3 h4 h5 h6 rfl

theorem FInv.next {env : Env} (hr : env.Registered) {cls : Cls} :
    ∀ (n : Nat) (qs : List Val) (st : FState) (fut : Bytes),
    (∀ x ∈ qs, FOK env cls x) → FInv env cls st qs fut → st.frm.s.buf.length < n →
    ∃ done left st', qs = done ++ left ∧ FState.nextLoop env cls n st = (done.map Event.packet, st', true) ∧
      FBlocked env cls st' left fut := by
  intro n
  induction n with
  | zero => intro qs st fut hq h hf; omega
  | succ n ih =>
    intro qs st fut hq h hf
    rw [FState.nextLoop]
    rcases h.iter hr hq with ⟨st', h1, h2⟩ | ⟨st', q, qs', rfl, h1, h2, h3⟩
    · rw [h1]; exact ⟨[], qs, st', rfl, rfl, h2⟩
    · rw [h1]
      obtain ⟨done, left, st'', e1, e2, e3⟩ := ih qs' st' fut (fun x hx => hq x (by simp [hx])) h2 (by omega)
      refine ⟨q :: done, left, st'', by simp [e1], ?_, e3⟩
      simp only [e2]; rfl

theorem FInv.ops {env : Env} (hr : env.Registered) {cls : Cls} :
    ∀ (ops : List DOp) (qs : List Val) (st : FState) (fut : Bytes), (∀ x ∈ qs, FOK env cls x) →
    FInv env cls st qs (received ops ++ fut) →
    ∃ done left st', qs = done ++ left ∧ FState.runOps env cls st ops = (done.map Event.packet, st', true) ∧
      FInv env cls st' left fut := by
  intro ops
  induction ops with
  | nil => intro qs st fut hq h; exact ⟨[], qs, st, rfl, rfl, h⟩
  | cons op ops ih =>
    intro qs st fut hq h
    cases op with
    | update b =>
      rw [received, List.append_assoc] at h
      exact ih qs (st.update b) fut hq h.update
    | next =>
      rw [received] at h
      obtain ⟨done, left, st', e1, e2, e3⟩ := FInv.next hr (st.frm.s.buf.length + 1) qs st _ hq h (by omega)
      obtain ⟨done', left', st'', f1, f2, f3⟩ := ih left st' fut (fun x hx => hq x (by simp [e1, hx])) e3.1
      refine ⟨done ++ done', left', st'', by simp [e1, f1], ?_, f3⟩
      rw [FState.runOps, FState.next]
      simp only [e2, f2, List.map_append, Bool.and_self]

end Verif
