import Verif.Lemmas.Framed
import Verif.Spec.Framed
/-! # A framing adapter accepts a packet only where there is a frame -/
namespace Verif

/-- What the adapter knows about the bytes. -/
structure Live (f : Frm) : Prop where
  low : f.startChecked = false → f.endChecked = false
  pfx : f.startChecked = true → ∃ n < 2 ^ 32, f.size = some n ∧ (f.s.buf.drop f.start).take 12 = framePrefix n ∧
    12 ≤ (f.s.buf.drop f.start).length
  whole : f.endChecked = true → ∃ p rest, f.size = some p.length ∧ f.s.buf.drop f.start = frame p ++ rest

/-- Same bytes, same frame, and nothing false learnt. -/
def Keeps (f g : Frm) : Prop := g.s.buf = f.s.buf ∧ g.start = f.start ∧ (Live f → Live g)

theorem Keeps.refl (f : Frm) : Keeps f f := ⟨rfl, rfl, id⟩
theorem Keeps.trans {f g h : Frm} (a : Keeps f g) (b : Keeps g h) : Keeps f h :=
  ⟨b.1.trans a.1, b.2.1.trans a.2.1, b.2.2 ∘ a.2.2⟩

theorem Live.same {f g : Frm} (h : Live f) (h1 : g.s.buf = f.s.buf) (h2 : g.start = f.start) (h3 : g.startChecked = f.startChecked)
    (h4 : g.endChecked = f.endChecked) (h5 : g.size = f.size) : Live g := by
  refine ⟨?_, ?_, ?_⟩
  · rw [h3, h4]; exact h.low
  · rw [h3, h5, h1, h2]; exact h.pfx
  · rw [h4, h5, h1, h2]; exact h.whole

theorem Keeps.goto (f : Frm) (p : Nat) : Keeps f (f.goto p) := ⟨rfl, rfl, fun h => h.same rfl rfl rfl rfl rfl⟩

theorem Keeps.seekSet (f : Frm) (p : Nat) : Keeps f (f.seekSet p) := by
  unfold Frm.seekSet; split
  · exact .refl f
  · exact .goto f _

theorem Keeps.seekEnd (f : Frm) : Keeps f f.seekEnd := by
  unfold Frm.seekEnd; split
  · exact .refl f
  · exact .goto f _

theorem Live.checkStart {f g : Frm} (h : Live f) (hc : f.checkStart = (.ok (), g)) :
    g.s.buf = f.s.buf ∧ g.start = f.start ∧ Live g ∧ (g.startChecked = false → g.size = none) := by
  cases hs : f.startChecked with
  | true =>
    unfold Frm.checkStart at hc
    rw [if_pos hs] at hc
    cases hc
    exact ⟨rfl, rfl, h, fun hx => by rw [hs] at hx; cases hx⟩
  | false =>
    have he := h.low hs
    rcases checkStart_cases f hs with ⟨h1, h2⟩ | ⟨n, hn, h0, h1, h2⟩ | ⟨h1, h2⟩
    · rw [h2] at hc; cases hc
      refine ⟨rfl, rfl, ⟨fun _ => he, ?_, ?_⟩, fun _ => rfl⟩
      · intro hx; simp [Frm.goto, hs] at hx
      · intro hx; simp [Frm.goto, he] at hx
    · rw [h2] at hc; cases hc
      refine ⟨rfl, rfl, ⟨fun hx => by simp at hx, fun _ => ⟨n, hn, rfl, h1, h0⟩, ?_⟩, fun hx => by simp at hx⟩
      intro hx; simp [Frm.goto, he] at hx
    · rw [h2] at hc; cases hc

theorem Keeps.check {f g : Frm} (hf : Live f) (hc : f.check = (.ok (), g)) : Keeps f g ∧ Live g := by
  unfold Frm.check at hc
  cases hcs : f.checkStart with
  | mk r f1 =>
    rw [hcs] at hc
    cases r with
    | error e => cases hc
    | ok u =>
      obtain ⟨h1, h2, h3, h4⟩ := hf.checkStart hcs
      dsimp only at hc
      have key : g.s.buf = f1.s.buf ∧ g.start = f1.start ∧ Live g := by
        cases hsc : f1.startChecked with
        | false =>
          rw [checkEnd_done _ (.inr (h4 hsc))] at hc
          cases hc; exact ⟨rfl, rfl, h3⟩
        | true =>
          obtain ⟨n, hn, hz, hp, hl⟩ := h3.pfx hsc
          cases hec : f1.endChecked with
          | true => rw [checkEnd_done _ (.inl hec)] at hc; cases hc; exact ⟨rfl, rfl, h3⟩
          | false =>
            rcases checkEnd_cases f1 hn hz hec (by simp at hl; omega) with ⟨a, b⟩ | ⟨a, b, c⟩ | ⟨a, b, p, hp', c⟩
            · rw [b] at hc; cases hc; exact ⟨rfl, rfl, h3⟩
            · rw [c] at hc; cases hc
              refine ⟨rfl, rfl, ⟨fun hx => ?_, fun _ => ⟨n, hn, hz, hp, hl⟩, fun _ => ?_⟩⟩
              · rw [show f1.startChecked = false from hx] at hsc; cases hsc
              · obtain ⟨p, rest, e1, e2⟩ := is_frame_iff.mp ⟨hp, a, b⟩
                exact ⟨p, rest, by rw [e1]; exact hz, e2⟩
            · rw [c] at hc; cases hc
      exact ⟨⟨key.1.trans h1, key.2.1.trans h2, fun _ => key.2.2⟩, key.2.2⟩

theorem Keeps.read {f g : Frm} {c : Int} {b : Bytes} (hf : Live f) (hc : f.read c = (.ok b, g)) : Keeps f g := by
  unfold Frm.read at hc
  cases hk : f.check with
  | mk r f1 =>
    rw [hk] at hc
    cases r with
    | error e => cases hc
    | ok u =>
      obtain ⟨h1, h2⟩ := Keeps.check hf hk
      dsimp only at hc
      have key : ∀ s' : Bio, s'.buf = f1.s.buf → Keeps f1 { f1 with s := s' } := fun s' hs =>
        ⟨hs, rfl, fun h => h.same hs rfl rfl rfl rfl⟩
      generalize (if f1.endChecked = true then f1.start + 12 + f1.size.getD 0 else f1.s.buf.length - 1) = m at hc
      split at hc
      · cases hc
      · split at hc
        · cases hc
        · split at hc
          · split at hc
            · cases hc
            · cases hc; exact h1.trans (key _ rfl)
          · cases hc; exact h1.trans (key _ rfl)

theorem checkStart_buf (f : Frm) : f.checkStart.2.s.buf = f.s.buf := by
  unfold Frm.checkStart Frm.failed Frm.goto
  dsimp only
  repeat' split
  all_goals rfl

theorem checkEnd_buf (f : Frm) : f.checkEnd.2.s.buf = f.s.buf := by
  unfold Frm.checkEnd Frm.failed Frm.goto
  dsimp only
  repeat' split
  all_goals rfl

theorem check_buf (f : Frm) : f.check.2.s.buf = f.s.buf := by
  unfold Frm.check
  have h := checkStart_buf f
  cases hk : f.checkStart with
  | mk r f1 =>
    rw [hk] at h
    cases r with
    | error e => exact h
    | ok u => exact (checkEnd_buf f1).trans h

theorem read_buf (f : Frm) (c : Int) : (f.read c).2.s.buf = f.s.buf := by
  unfold Frm.read
  have h := check_buf f
  cases hk : f.check with
  | mk r f1 =>
    rw [hk] at h
    cases r with
    | error e => exact h
    | ok u =>
      dsimp only
      generalize (if f1.endChecked = true then f1.start + 12 + f1.size.getD 0 else f1.s.buf.length - 1) = m
      unfold Frm.failed Frm.goto
      repeat' split
      all_goals exact h

theorem closeFrame_buf (f : Frm) : f.closeFrame.2.s.buf = f.s.buf := by
  unfold Frm.closeFrame Frm.failed Frm.goto
  split <;> rfl

theorem Keeps.availableE (f : Frm) : Keeps f f.availableE.2 := by
  unfold Frm.availableE
  exact (Keeps.seekEnd f).trans (Keeps.seekSet _ _)

/-- The adapter a `Got` leaves behind, unless it is an error. -/
def Got.keeps (f : Frm) : Frm.Got → Prop
  | .wait g => Keeps f g
  | .bytes _ g => Keeps f g
  | .error _ g => g.s.buf = f.s.buf

theorem Keeps.unpack {f : Frm} (hf : Live f) (n : Nat) : Got.keeps f (f.unpack n) := by
  unfold Frm.unpack
  have ha := Keeps.availableE f
  cases hk : f.availableE with
  | mk a f1 =>
    rw [hk] at ha
    dsimp only at ha ⊢
    split
    · exact ha
    · cases hr : f1.read n with
      | mk r f2 =>
        have hb := read_buf f1 n
        rw [hr] at hb
        cases r with
        | error e => exact hb.trans ha.1
        | ok b =>
          dsimp only
          split
          · exact ha.trans (Keeps.read (ha.2.2 hf) hr)
          · exact hb.trans ha.1

def Scan.keeps (f : Frm) : Frm.Scan → Prop
  | .found _ _ g => Keeps f g
  | .wait1 _ g => Keeps f g
  | .wait2 _ _ g => Keeps f g
  | .error _ g => g.s.buf = f.s.buf

theorem Scan.keeps.trans {f g : Frm} (h : Keeps f g) {s : Frm.Scan} (hs : Scan.keeps g s) : Scan.keeps f s := by
  cases s with
  | error e f => exact Eq.trans hs h.1
  | found a b c => exact h.trans hs
  | wait1 a b => exact h.trans hs
  | wait2 a b c => exact h.trans hs

theorem Keeps.second {f : Frm} (hf : Live f) (start q1 : Nat) (again : Frm → Frm.Scan)
    (ha : ∀ g, Live g → Scan.keeps g (again g)) : Scan.keeps f (f.second start q1 again) := by
  unfold Frm.second
  have hu := Keeps.unpack hf 8
  cases h : f.unpack 8 with
  | wait g => rw [h] at hu; exact hu
  | error e g => rw [h] at hu; exact hu
  | bytes b g =>
    rw [h] at hu
    dsimp only
    split
    · exact hu
    · have hk := Keeps.trans hu (Keeps.seekSet g (start + 1))
      exact Scan.keeps.trans hk (ha _ (hk.2.2 hf))

theorem Keeps.scanLoop : ∀ (fuel : Nat) {f : Frm} (start : Nat), Live f → Scan.keeps f (Frm.scanLoop fuel f start)
  | 0, f, _, _ => Keeps.refl f
  | fuel + 1, f, start, hf => by
    unfold Frm.scanLoop
    have hu := Keeps.unpack hf 8
    cases h : f.unpack 8 with
    | wait g => rw [h] at hu; exact hu
    | error e g => rw [h] at hu; exact hu
    | bytes b g =>
      rw [h] at hu
      dsimp only
      exact Scan.keeps.trans hu (Keeps.second (hu.2.2 hf) start _ _ fun g hg => Keeps.scanLoop fuel (start + 1) hg)

theorem Keeps.scan {f : Frm} (hf : Live f) (start : Nat) (q : Option Nat) : Scan.keeps f (f.scan start q) := by
  cases q with
  | none => exact Keeps.scanLoop _ _ hf
  | some q1 =>
    exact Keeps.second hf start q1 (fun g => Frm.scanLoop (g.s.buf.length + 1) g (start + 1)) fun g hg => Keeps.scanLoop _ _ hg

def Out.keeps {α} (f : Frm) : Out α × Frm → Prop
  | (.error _, g) => g.s.buf = f.s.buf
  | (_, g) => Keeps f g

theorem Out.keeps.trans {α} {f g : Frm} (h : Keeps f g) {r : Out α × Frm} (hs : Out.keeps g r) : Out.keeps f r := by
  obtain ⟨o, r⟩ := r
  cases o with
  | error e => exact Eq.trans hs h.1
  | done a => exact h.trans hs
  | wait d => exact h.trans hs

theorem Keeps.runF {α} : ∀ (d : Dec α) {f : Frm}, Live f → Out.keeps f (d.runF f)
  | .ret a, f, _ => by unfold Dec.runF; exact Keeps.refl f
  | .fail e, f, _ => by unfold Dec.runF; rfl
  | .read n k, f, hf => by
    unfold Dec.runF
    have hu := Keeps.unpack hf n
    cases h : f.unpack n with
    | wait g => rw [h] at hu; exact hu
    | error e g => rw [h] at hu; exact hu
    | bytes b g => rw [h] at hu; exact Out.keeps.trans hu (Keeps.runF (k b) (hu.2.2 hf))
  | .tell k, f, hf => by unfold Dec.runF; exact Keeps.runF (k f.tell) hf
  | .skip n k, f, hf => by
    unfold Dec.runF
    cases hr : f.read n with
    | mk r f2 =>
      cases r with
      | error e =>
        have hb := read_buf f n
        rw [hr] at hb
        exact hb
      | ok b => exact Out.keeps.trans (Keeps.read hf hr) (Keeps.runF k ((Keeps.read hf hr).2.2 hf))
  | .sync start q k, f, hf => by
    unfold Dec.runF
    have hu := Keeps.scan hf start q
    cases h : f.scan start q with
    | found len st g => rw [h] at hu; exact Out.keeps.trans hu (Keeps.runF (k len st) (hu.2.2 hf))
    | wait1 st g => rw [h] at hu; exact hu
    | wait2 st q1 g => rw [h] at hu; exact hu
    | error e g => rw [h] at hu; exact hu

theorem Live.fresh {s : Bio} {f : Frm} (h : Frm.init s = (.ok (), f)) : Live f ∧ f.s.buf = s.buf := by
  have hl : Live ⟨s, s.pos, false, false, none⟩ := ⟨(fun _ => rfl), (fun h => by cases h), (fun h => by cases h)⟩
  have := Keeps.check hl h
  exact ⟨this.2, this.1.1⟩

/-- After a frame was closed, the position is behind a frame. -/
theorem Live.close {f g : Frm} (hf : Live f) (hc : f.closeFrame = (.ok (), g)) :
    g.s.buf = f.s.buf ∧ ∃ gar p, f.s.buf = gar ++ frame p ++ g.s.buf.drop g.s.pos := by
  unfold Frm.closeFrame at hc
  cases he : f.endChecked with
  | false => rw [if_pos he] at hc; cases hc
  | true =>
    rw [if_neg (by simp [he])] at hc
    cases hc
    obtain ⟨p, rest, h1, h2⟩ := hf.whole he
    refine ⟨rfl, f.s.buf.take f.start, p, ?_⟩
    rw [h1, Option.getD_some]
    show f.s.buf = _ ++ _ ++ f.s.buf.drop (f.start + 12 + p.length + 12)
    rw [show f.start + 12 + p.length + 12 = f.start + (frame p).length by simp [frame]; omega, ← List.drop_drop, h2, List.drop_left,
      List.append_assoc, ← h2, List.take_append_drop]

theorem Live.append {f : Frm} (hf : Live f) (b : Bytes) : Live { f with s := { f.s with buf := f.s.buf ++ b } } := by
  refine ⟨hf.low, fun h => ?_, fun h => ?_⟩
  · obtain ⟨n, hn, h1, h2, h3⟩ := hf.pfx h
    have hs : f.start ≤ f.s.buf.length := by simp at h3; omega
    refine ⟨n, hn, h1, ?_, ?_⟩
    · show ((f.s.buf ++ b).drop f.start).take 12 = _
      rw [List.drop_append_of_le_length hs, List.take_append_of_le_length h3, h2]
    · show 12 ≤ ((f.s.buf ++ b).drop f.start).length
      rw [List.drop_append_of_le_length hs, List.length_append]; omega
  · obtain ⟨p, rest, h1, h2⟩ := hf.whole h
    have hs : f.start ≤ f.s.buf.length := by
      have := congrArg List.length h2
      simp [frame] at this; omega
    refine ⟨p, rest ++ b, h1, ?_⟩
    show (f.s.buf ++ b).drop f.start = _
    rw [List.drop_append_of_le_length hs, h2, List.append_assoc]

/-- What `genNext` leaves behind when the bytes were `buf`. -/
def CloseOK {α} (buf : Bytes) : Out α × Frm → Prop
  | (.done _, g) => g.s.buf = buf ∧ ∃ gar p, buf = gar ++ frame p ++ g.s.buf.drop g.s.pos
  | (.error _, g) => g.s.buf = buf
  | (.wait _, g) => g.s.buf = buf ∧ Live g

theorem Live.closed {α} {f : Frm} (hf : Live f) {r : Out α × Frm} (h : Out.keeps f r) :
    CloseOK f.s.buf (FState.closed r) := by
  obtain ⟨o, g⟩ := r
  cases o with
  | error e => exact h
  | wait d => exact ⟨h.1, h.2.2 hf⟩
  | done a =>
    unfold FState.closed
    dsimp only
    have hb := closeFrame_buf g
    cases hc : g.closeFrame with
    | mk x g' =>
      rw [hc] at hb
      cases x with
      | error e => exact hb.trans h.1
      | ok u =>
        obtain ⟨h1, gar, p, h2⟩ := Live.close (h.2.2 hf) hc
        exact ⟨hb.trans h.1, gar, p, by rw [← h.1]; exact h2⟩

theorem Live.genNext {env : Env} {cls : Cls} {st : FState} (h : st.run ≠ none → Live st.frm) :
    CloseOK st.frm.s.buf (st.genNext env cls) := by
  unfold FState.genNext
  cases hr : st.run with
  | some d =>
    have hl := h (by rw [hr]; simp)
    exact Live.closed hl (Keeps.runF d hl)
  | none =>
    dsimp only
    have hb := check_buf ⟨st.frm.s, st.frm.s.pos, false, false, none⟩
    cases hi : Frm.init st.frm.s with
    | mk x f =>
      have hb : f.s.buf = st.frm.s.buf := by
        unfold Frm.init at hi; rw [hi] at hb; exact hb
      cases x with
      | error e => exact hb
      | ok u =>
        have hl := (Live.fresh hi).1
        have := Live.closed hl (Keeps.runF (framedGen env cls) hl)
        dsimp only
        rw [hb] at this
        exact this

/-- One round of `nextPackets`. -/
theorem Live.iter {env : Env} {cls : Cls} {st : FState} (h : st.run ≠ none → Live st.frm) :
    match st.iter env cls with
    | (none, st') => st'.frm.s.buf = st.frm.s.buf ∧ (st'.run ≠ none → Live st'.frm)
    | (some (.packet _), st') => (∃ gar p, st.frm.s.buf = gar ++ frame p ++ st'.frm.s.buf) ∧ st'.run = none
    | (some (.error _), st') => st'.frm.s.buf = st.frm.s.buf ∧ st'.run = none := by
  unfold FState.iter
  have hg := Live.genNext (env := env) (cls := cls) h
  dsimp only
  cases hk : st.genNext env cls with
  | mk o g =>
    rw [hk] at hg
    cases o with
    | error e => exact ⟨hg, rfl⟩
    | wait d => exact ⟨hg.1, fun _ => hg.2⟩
    | done v => exact ⟨hg.2, rfl⟩

/-- The bytes `x` contain, one behind the other, the frames of `n` payloads, and end with `rest`. -/
def HasFrames (n : Nat) (x rest : Bytes) : Prop :=
  ∃ segs : List (Bytes × Bytes), segs.length = n ∧ x = (segs.flatMap fun s => s.1 ++ frame s.2) ++ rest

theorem HasFrames.step {n : Nat} {x gar p rest : Bytes} (h : HasFrames n x (gar ++ frame p ++ rest)) : HasFrames (n + 1) x rest := by
  obtain ⟨segs, h1, h2⟩ := h
  exact ⟨segs ++ [(gar, p)], by simp [h1], by rw [h2]; simp⟩

theorem HasFrames.append {n : Nat} {x rest : Bytes} (h : HasFrames n x rest) (b : Bytes) : HasFrames n (x ++ b) (rest ++ b) := by
  obtain ⟨segs, h1, h2⟩ := h
  exact ⟨segs, h1, by rw [h2]; simp⟩

theorem Live.nextLoop {env : Env} {cls : Cls} : ∀ (n m : Nat) (x : Bytes) (st : FState), (st.run ≠ none → Live st.frm) →
    HasFrames m x st.frm.s.buf →
    ∃ m', m' = m + (packetsIn (FState.nextLoop env cls n st).1).length ∧
      HasFrames m' x (FState.nextLoop env cls n st).2.1.frm.s.buf ∧
      ((FState.nextLoop env cls n st).2.1.run ≠ none → Live (FState.nextLoop env cls n st).2.1.frm)
  | 0, m, x, st, h, hx => ⟨m, by simp [FState.nextLoop, packetsIn], hx, h⟩
  | n + 1, m, x, st, h, hx => by
    rw [FState.nextLoop]
    have hg := Live.iter (env := env) (cls := cls) h
    cases hk : st.iter env cls with
    | mk o st' =>
      rw [hk] at hg
      match o, hg with
      | none, hg => exact ⟨m, by simp [packetsIn], by dsimp only; rw [hg.1]; exact hx, hg.2⟩
      | some (.error e), hg =>
        obtain ⟨m', h1, h2, h3⟩ := Live.nextLoop n m x st' (fun hh => absurd hg.2 hh) (by rw [hg.1]; exact hx)
        exact ⟨m', by rw [h1]; simp [packetsIn], h2, h3⟩
      | some (.packet v), hg =>
        obtain ⟨⟨gar, p, hp⟩, hr⟩ := hg
        rw [hp] at hx
        obtain ⟨m', h1, h2, h3⟩ := Live.nextLoop n (m + 1) x st' (fun hh => absurd hr hh) hx.step
        exact ⟨m', by rw [h1]; simp [packetsIn]; omega, h2, h3⟩

theorem packetsIn_append : ∀ a b : List Event, packetsIn (a ++ b) = packetsIn a ++ packetsIn b
  | [], _ => rfl
  | .packet v :: a, b => by simp [packetsIn, packetsIn_append a b]
  | .error _ :: a, b => by simp [packetsIn, packetsIn_append a b]

theorem Live.ops {env : Env} {cls : Cls} : ∀ (ops : List DOp) (m : Nat) (x : Bytes) (st : FState), (st.run ≠ none → Live st.frm) →
    HasFrames m x st.frm.s.buf →
    HasFrames (m + (packetsIn (FState.runOps env cls st ops).1).length) (x ++ received ops)
      (FState.runOps env cls st ops).2.1.frm.s.buf
  | [], m, x, st, h, hx => by simpa [FState.runOps, packetsIn, received] using hx
  | .update b :: ops, m, x, st, h, hx => by
    rw [FState.runOps, received, ← List.append_assoc]
    exact Live.ops ops m (x ++ b) (st.update b) (fun hh => (h hh).append b) (hx.append b)
  | .next :: ops, m, x, st, h, hx => by
    rw [FState.runOps, received]
    obtain ⟨m', h1, h2, h3⟩ := Live.nextLoop (env := env) (cls := cls) (st.frm.s.buf.length + 1) m x st h hx
    have := Live.ops (env := env) (cls := cls) ops m' x _ h3 h2
    rw [h1] at this
    dsimp only
    rw [packetsIn_append, List.length_append, ← Nat.add_assoc]
    exact this

end Verif
