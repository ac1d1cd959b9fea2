import Verif.Props.VnicData
import Verif.Props.VnicOpen
import Verif.Spec.E2E
/-! # Lemmas: what a VNIC keeps, and what it hands to the link -/
namespace Verif.Vnic

/-- Objects are never changed into others: keys stay, connections that are gone do not come back, sockets keep their port and stay closed. -/
structure Grows (s s' : St) : Prop where
  nConn : s.nConn ≤ s'.nConn
  nCtl : s.nCtl ≤ s'.nCtl
  key : ∀ i, i < s.nConn → (s'.conn i).key = (s.conn i).key
  conns : ∀ k i, i < s.nConn → s'.conns.get k = some i → s.conns.get k = some i
  ctl : ∀ c, c < s.nCtl → (s'.ctl c).port = (s.ctl c).port ∧ (s'.ctl c).listener = (s.ctl c).listener ∧
    ((s.ctl c).closed = true → (s'.ctl c).closed = true)
  address : s'.address = s.address

theorem Grows.refl (s : St) : Grows s s := ⟨Nat.le_refl _, Nat.le_refl _, fun _ _ => rfl, fun _ _ _ h => h, fun _ _ => ⟨rfl, rfl, id⟩, rfl⟩

theorem Grows.trans {a b c : St} (h : Grows a b) (h' : Grows b c) : Grows a c where
  nConn := Nat.le_trans h.nConn h'.nConn
  nCtl := Nat.le_trans h.nCtl h'.nCtl
  key := fun i hi => (h'.key i (Nat.lt_of_lt_of_le hi h.nConn)).trans (h.key i hi)
  conns := fun k i hi hg => h.conns k i hi (h'.conns k i (Nat.lt_of_lt_of_le hi h.nConn) hg)
  ctl := fun c hc => by
    obtain ⟨a1, a2, a3⟩ := h.ctl c hc
    obtain ⟨b1, b2, b3⟩ := h'.ctl c (Nat.lt_of_lt_of_le hc h.nCtl)
    exact ⟨b1.trans a1, b2.trans a2, fun x => b3 (a3 x)⟩
  address := h'.address.trans h.address

theorem Grows.closes {s s' : St} (hw : Dict.WF s.conns) (h : Closes s s') : Grows s s' where
  nConn := by rw [h.nConn]; exact Nat.le_refl _
  nCtl := by rw [h.nCtl]; exact Nat.le_refl _
  key := fun i _ => by rw [h.conn]
  conns := fun k i _ hg => Dict.get_sublist hw h.conns hg
  ctl := fun c _ => ⟨(h.ctl c).2.2.2.1, (h.ctl c).2.1, (h.ctl c).2.2.2.2.1⟩
  address := h.address

/-- The parts that matter are the same. -/
theorem Grows.same {s s' : St} (e1 : s'.conn = s.conn) (e2 : s'.nConn = s.nConn) (e3 : s'.conns = s.conns) (e4 : s'.nCtl = s.nCtl)
    (e5 : ∀ c, (s'.ctl c).port = (s.ctl c).port ∧ (s'.ctl c).listener = (s.ctl c).listener ∧ (s'.ctl c).closed = (s.ctl c).closed)
    (e6 : s'.address = s.address) : Grows s s' :=
  ⟨by rw [e2]; exact Nat.le_refl _, by rw [e4]; exact Nat.le_refl _, fun i _ => by rw [e1], fun k i _ h => by rw [e3] at h; exact h,
    fun c _ => ⟨(e5 c).1, (e5 c).2.1, fun h => by rw [(e5 c).2.2]; exact h⟩, e6⟩

theorem Grows.emit (s : St) (e : Eff) : Grows s (s.emit e) := .same rfl rfl rfl rfl (fun _ => ⟨rfl, rfl, rfl⟩) rfl

theorem Grows.newConn (s : St) (c : Nat) (k : Key) (d : Bytes) : Grows s (newConn s c k d) where
  nConn := Nat.le_succ _
  nCtl := Nat.le_refl _
  key := fun i hi => by simp only [Vnic.newConn]; rw [upd_ne _ _ (by omega)]
  conns := fun k' i hi hg => by
    simp only [Vnic.newConn] at hg
    rw [Dict.get_set] at hg
    split at hg
    · cases hg; omega
    · exact hg
  ctl := fun _ _ => ⟨rfl, rfl, id⟩
  address := rfl

theorem Grows.newCtl (s : St) (p i : Nat) (l : Bool) : Grows s (newCtl s p i l) where
  nConn := Nat.le_refl _
  nCtl := Nat.le_succ _
  key := fun _ _ => rfl
  conns := fun _ _ _ h => h
  ctl := fun c hc => by simp only [Vnic.newCtl]; rw [upd_ne _ _ (by omega)]; exact ⟨rfl, rfl, id⟩
  address := rfl

theorem Grows.setPort {s s' : St} (h : Grows s s') (c p : Nat) (hc : s.nCtl ≤ c) : Grows s (setPort s' c p) where
  nConn := h.nConn
  nCtl := h.nCtl
  key := h.key
  conns := h.conns
  ctl := fun x hx => by simp only [Vnic.setPort, St.setCtl]; rw [upd_ne _ _ (by omega)]; exact h.ctl x hx
  address := h.address

theorem Grows.open' {s : St} (p i : Nat) (r : Req) : Grows s (openSocket s p i r) := by
  unfold Vnic.openSocket
  split
  · exact .emit _ _
  · split
    · next dst dport =>
      unfold openConnect
      split
      · exact (Grows.newCtl s p i false).trans (.emit _ _)
      · next q _ =>
        refine Grows.trans ?_ (.emit _ _)
        refine Grows.setPort ?_ _ _ (Nat.le_refl _)
        refine (Grows.newCtl s p i false).trans ?_
        refine Grows.trans (b := { Vnic.newCtl s p i false with cursor := q + 1, ports := s.ports.set q s.nCtl }) ?_ ?_
        · exact .same rfl rfl rfl rfl (fun _ => ⟨rfl, rfl, rfl⟩) rfl
        · exact Grows.trans (Grows.newConn { Vnic.newCtl s p i false with cursor := q + 1, ports := s.ports.set q s.nCtl } s.nCtl ⟨s.address, q, dst, dport⟩ []) (.same rfl rfl rfl rfl (fun _ => ⟨rfl, rfl, rfl⟩) rfl)
    · unfold openListen
      split
      · exact (Grows.newCtl s p i true).trans (.emit _ _)
      · refine Grows.trans ?_ (.emit _ _)
        refine Grows.setPort ?_ _ _ (Nat.le_refl _)
        refine (Grows.newCtl s p i true).trans ?_
        exact .same rfl rfl rfl rfl (fun _ => ⟨rfl, rfl, rfl⟩) rfl
    · exact .emit _ _

theorem Grows.announce (s : St) (c t : Nat) (k : Key) : Grows s (announce s c t k) := by unfold Vnic.announce; split <;> exact .emit _ _

theorem Grows.setWriter (s : St) (i : Nat) (x : Writer) : Grows s { s with conn := upd s.conn i { s.conn i with writer := x } } where
  nConn := Nat.le_refl _
  nCtl := Nat.le_refl _
  key := fun j _ => by simp only [upd]; split <;> simp_all
  conns := fun _ _ _ h => h
  ctl := fun _ _ => ⟨rfl, rfl, id⟩
  address := rfl

theorem Grows.attach (s : St) (i n : Nat) (w : Writer) : Grows s (attach s i n w) := by
  cases w with
  | tr t => exact .emit _ _
  | buf b =>
    unfold Vnic.attach
    dsimp only
    split
    · exact (Grows.setWriter s i _).trans (.announce _ _ _ _)
    · exact ((Grows.emit s _).trans (.setWriter _ i _)).trans (.announce _ _ _ _)

theorem Grows.finish (s : St) (n : Nat) : Grows s (spawnFinished s n) := by
  unfold spawnFinished
  dsimp only
  have h1 : Grows s ({ s with spawn := upd s.spawn n { s.spawn n with stage := .finished } }.setCtl (s.spawn n).control
      { s.ctl (s.spawn n).control with spawned := if (s.spawn n).key ∈ (s.ctl (s.spawn n).control).spawned then (s.ctl (s.spawn n).control).spawned
        else (s.ctl (s.spawn n).control).spawned ++ [(s.spawn n).key] }) := by
    refine .same rfl rfl rfl rfl ?_ rfl
    intro c
    simp only [St.setCtl, upd]
    split
    · next e => subst e; exact ⟨rfl, rfl, rfl⟩
    · exact ⟨rfl, rfl, rfl⟩
  split
  · exact h1.trans (.emit _ _)
  · exact h1.trans (.attach _ _ _ _)

theorem Grows.linkWrite (s : St) (k : Key) (d : Bytes) : Grows s (linkWrite s k d) := by
  unfold Vnic.linkWrite
  split
  · exact .emit _ _
  · exact .refl s

theorem Grows.demux (s : St) (k : Key) (d : Bytes) : Grows s (demux s k d) := by
  have h0 : Grows s (dumpAll s k d) := .same rfl rfl rfl rfl (fun _ => ⟨rfl, rfl, rfl⟩) rfl
  rcases demux_eq s k d with ⟨j, _, e⟩ | ⟨_, e⟩ | ⟨_, c, e⟩
  · rw [e]
    refine h0.trans ?_
    unfold writeConn
    split
    · exact .setWriter _ _ _
    · exact .emit _ _
  · rw [e]; exact h0
  · rw [e]
    refine h0.trans ((Grows.newConn (dumpAll s k d) c k.inverse d).trans ?_)
    exact .same rfl rfl rfl rfl (fun _ => ⟨rfl, rfl, rfl⟩) rfl

theorem Grows.step {s : St} (hi : Inv [] s) (e : Ev) : Grows s (step s e) := by
  have keep : ∀ {s' : St}, s'.conn = s.conn → s'.nConn = s.nConn → s'.conns = s.conns → s'.nCtl = s.nCtl → s'.ctl = s.ctl → s'.address = s.address → Grows s s' := by
    intro s' e1 e2 e3 e4 e5 e6
    exact .same e1 e2 e3 e4 (fun c => by rw [e5]; exact ⟨rfl, rfl, rfl⟩) e6
  cases e with
  | ctlMade p => simp only [Vnic.step]; split <;> exact keep rfl rfl rfl rfl rfl rfl
  | ctlLost p =>
    simp only [Vnic.step]; split
    · unfold Vnic.ctlLost
      dsimp only
      have h1 : Grows s { s with dumps := s.dumps.erase p } := keep rfl rfl rfl rfl rfl rfl
      have h2 := Grows.closes (s := { s with dumps := s.dumps.erase p }) hi.wfc (closeAll_closes (s.ids p).vals _)
      exact (h1.trans h2).trans (.same rfl rfl rfl rfl (fun _ => ⟨rfl, rfl, rfl⟩) rfl)
    · exact .refl s
  | openSocket p i r => simp only [Vnic.step]; split; exact .open' p i r; exact .refl s
  | closeSocket p i =>
    simp only [Vnic.step]; split
    · unfold closeId
      split
      · exact .refl s
      · next c _ => exact (Grows.closes hi.wfc (close_good s c)).trans (.same rfl rfl rfl rfl (fun _ => ⟨rfl, rfl, rfl⟩) rfl)
    · exact .refl s
  | startDump p => simp only [Vnic.step]; split <;> exact keep rfl rfl rfl rfl rfl rfl
  | stopDump p => exact keep rfl rfl rfl rfl rfl rfl
  | rawWire p k d => simp only [Vnic.step]; split; exact .linkWrite _ _ _; exact .refl s
  | data k d => exact .demux s k d
  | connected n => simp only [Vnic.step]; split <;> exact keep rfl rfl rfl rfl rfl rfl
  | failed n =>
    simp only [Vnic.step]; split
    · exact (keep rfl rfl rfl rfl rfl rfl : Grows s { s with spawn := upd s.spawn n { s.spawn n with stage := .finished, lost := true } }).trans
        (.closes hi.wfc (close_good _ _))
    · exact .refl s
  | finished n => simp only [Vnic.step]; split; exact .finish s n; exact .refl s
  | lost n =>
    simp only [Vnic.step]; split
    · refine (keep rfl rfl rfl rfl rfl rfl : Grows s { s with spawn := upd s.spawn n { s.spawn n with lost := true } }).trans ?_
      unfold closeSpawned
      split
      · exact .closes hi.wfc (close_good.conn _ _)
      · exact .closes hi.wfc (close_good _ _)
    · exact .refl s
  | reverse n d => simp only [Vnic.step]; split; exact .linkWrite _ _ _; exact .refl s
  | linkUp => exact keep rfl rfl rfl rfl rfl rfl
  | linkDown => exact keep rfl rfl rfl rfl rfl rfl

theorem Grows.exec : ∀ (h : List Ev) {s : St}, Inv [] s → Grows s (exec s h)
  | [], s, _ => .refl s
  | e :: h, s, hi => (Grows.step hi e).trans (Grows.exec h (hi.step e))

/-! ## All data for a connection arrives -/

/-- The data given to `demux` for the connection with the local key `k`. -/
def dataFor (k : Key) : List Ev → Bytes
  | [] => []
  | .data k' d :: h => (if k'.inverse = k then d else []) ++ dataFor k h
  | _ :: h => dataFor k h

/-- The part of `dataFor` of one event. -/
def dataNow (k : Key) : Ev → Bytes
  | .data k' d => if k'.inverse = k then d else []
  | _ => []

theorem dataFor_cons (k : Key) (e : Ev) (h : List Ev) : dataFor k (e :: h) = dataNow k e ++ dataFor k h := by cases e <;> rfl

theorem OpenOn.lt {s : St} (hi : Inv [] s) {c p : Nat} (h : OpenOn s c p) : c < s.nCtl := by
  rcases Nat.lt_or_ge c s.nCtl with x | x
  · exact x
  · have := hi.fresh c x
    rw [h.1] at this; cases this

theorem arrived_all : ∀ (h : List Ev) {s : St} (_ : Inv [] s) {k : Key} {i : Nat}, E2E.Holds s (exec s h) k i → arrived i s h = dataFor k h
  | [], s, hi, k, i, _ => rfl
  | e :: h, s, hi, k, i, hh => by
    have hi' := hi.step e
    have g1 := Grows.step hi e
    have g2 := Grows.exec h hi'
    have hF := (hi'.exec h).conn1 _ _ hh.now
    have hother : ∀ k' d, e = .data k' d → k'.inverse ≠ k → (step s e).conns.get k'.inverse ≠ some i := by
      intro k' d he hk hg
      obtain ⟨x1, x2⟩ := hi'.conn1 _ _ hg
      have := g2.key i x1
      rw [hF.2, x2] at this
      exact hk this.symm
    rw [arrived_cons, dataFor_cons]
    rcases hh.before with hb | ⟨hb, ⟨c, hc, hl, hcl⟩, honly⟩
    · have hlt := (hi.conn1 _ _ hb).1
      have hb' : (step s e).conns.get k = some i := g2.conns k i (Nat.lt_of_lt_of_le hlt g1.nConn) hh.now
      rw [arrived_all h hi' (k := k) (i := i) ⟨hh.now, .inl hb'⟩]
      congr 1
      cases e with
      | data k' d =>
        simp only [arrivedNow, dataNow]
        by_cases hk : k'.inverse = k
        · rw [if_pos hk, if_pos (by rw [hk]; exact hb')]
        · rw [if_neg hk, if_neg (hother k' d rfl hk)]
      | _ => rfl
    · cases hb' : (step s e).conns.get k with
      | none =>
        have hclt := hc.lt hi
        have hc' := g1.ctl c hclt
        have hc2 := g2.ctl c (Nat.lt_of_lt_of_le hclt g1.nCtl)
        have hcl' : ((step s e).ctl c).closed = false := by
          cases hx : ((step s e).ctl c).closed with
          | false => rfl
          | true => exact absurd ((hc2.2.2 hx).symm.trans hcl) (by decide)
        rw [arrived_all h hi' (k := k) (i := i) ⟨hh.now, .inr ⟨hb', ⟨c, ⟨hcl', by rw [hc'.1]; exact hc.2⟩, by rw [hc'.2.1]; exact hl, hcl⟩,
          fun j hj hj2 => honly j (Nat.le_trans g1.nConn hj) hj2⟩⟩]
        congr 1
        cases e with
        | data k' d =>
          simp only [arrivedNow, dataNow]
          by_cases hk : k'.inverse = k
          · exfalso
            have hp : s.ports.get k.sourcePort = some c := hi.port2 _ _ hc.1 hc.2
            simp only [step, demux, demuxLocal] at hb'
            rw [show (dumpAll s k' d).conns = s.conns from rfl, hk, hb] at hb'
            dsimp only at hb'
            rw [show (dumpAll s k' d).ports = s.ports from rfl, hp] at hb'
            dsimp only at hb'
            rw [if_pos (show ((dumpAll s k' d).ctl c).listener = true from hl)] at hb'
            simp only [startSpawn, newConn] at hb'
            rw [Dict.get_set_self] at hb'
            cases hb'
          · rw [if_neg hk, if_neg (hother k' d rfl hk)]
        | _ => rfl
      | some j =>
        obtain ⟨x1, x2⟩ := hi'.conn1 _ _ hb'
        have hj : s.nConn ≤ j := by
          rcases Nat.lt_or_ge j s.nConn with y | y
          · rw [g1.conns k j y hb'] at hb; cases hb
          · exact y
        have hji : j = i := honly j hj (Nat.lt_of_lt_of_le x1 g2.nConn) (by rw [show ((exec s (e :: h)).conn j).key = _ from g2.key j x1]; exact x2)
        subst hji
        rw [arrived_all h hi' (k := k) (i := j) ⟨hh.now, .inl hb'⟩]
        congr 1
        cases e with
        | data k' d =>
          simp only [arrivedNow, dataNow]
          by_cases hk : k'.inverse = k
          · rw [if_pos hk, if_pos (by rw [hk]; exact hb')]
          · rw [if_neg hk, if_neg (hother k' d rfl hk)]
        | _ => rfl

/-! ## What is handed to the link -/

theorem links_append (a b : List Eff) : E2E.links (a ++ b) = E2E.links a ++ E2E.links b := by
  induction a with
  | nil => rfl
  | cons e a ih => cases e <;> simp [E2E.links, ih]

/-- From `s` to `s'`, `L` was handed to the link. -/
structure Out (s s' : St) (L : List (Key × Bytes)) : Prop where
  linkUp : s'.linkUp = s.linkUp
  out : ∃ l, s'.out = s.out ++ l ∧ E2E.links l = L

theorem Out.same {s s' : St} (e1 : s'.linkUp = s.linkUp) (e2 : s'.out = s.out) : Out s s' [] := ⟨e1, [], by simp [e2], rfl⟩

theorem Out.refl (s : St) : Out s s [] := .same rfl rfl

theorem Out.trans {a b c : St} {L : List (Key × Bytes)} (h : Out a b []) (h' : Out b c L) : Out a c L := by
  obtain ⟨l, e1, e2⟩ := h.out
  obtain ⟨l', e1', e2'⟩ := h'.out
  exact ⟨h'.linkUp.trans h.linkUp, l ++ l', by rw [e1', e1, List.append_assoc], by rw [links_append, e2, e2']; rfl⟩

theorem Out.emit (s : St) (e : Eff) : Out s (s.emit e) (E2E.links [e]) := ⟨rfl, [e], rfl, rfl⟩

theorem Out.closes {s s' : St} (h : Closes s s') : Out s s' [] := by
  obtain ⟨l, e1, e2⟩ := h.out
  refine ⟨h.linkUp, l, e1, ?_⟩
  clear e1
  induction l with
  | nil => rfl
  | cons e l ih =>
    obtain ⟨t, rfl⟩ := e2 e (by simp)
    exact ih (fun x hx => e2 x (by simp [hx]))

theorem Out.open' (s : St) (p i : Nat) (r : Req) : Out s (openSocket s p i r) [] := by
  unfold Vnic.openSocket
  split
  · exact .emit _ _
  · split
    · unfold openConnect
      split
      · exact (Out.same rfl rfl : Out s (newCtl s p i false) []).trans (.emit _ _)
      · exact ⟨rfl, _, rfl, rfl⟩
    · unfold openListen
      split
      · exact ⟨rfl, _, rfl, rfl⟩
      · exact ⟨rfl, _, rfl, rfl⟩
    · exact .emit _ _

theorem Out.announce (s : St) (c t : Nat) (k : Key) : Out s (announce s c t k) [] := by unfold Vnic.announce; split <;> exact .emit _ _

theorem Out.attach (s : St) (i n : Nat) (w : Writer) : Out s (attach s i n w) [] := by
  cases w with
  | tr t => exact .emit _ _
  | buf b =>
    unfold Vnic.attach
    dsimp only
    split
    · exact (Out.same rfl rfl : Out s { s with conn := upd s.conn i { s.conn i with writer := .tr n } } []).trans (.announce _ _ _ _)
    · exact (Out.emit s (.write n b)).trans ((Out.same rfl rfl : Out (s.emit (.write n b)) { s.emit (.write n b) with conn := upd (s.emit (.write n b)).conn i { (s.emit (.write n b)).conn i with writer := .tr n } } []).trans
        (.announce _ _ _ _))

theorem Out.finish (s : St) (n : Nat) : Out s (spawnFinished s n) [] := by
  unfold spawnFinished
  dsimp only
  have h1 : Out s ({ s with spawn := upd s.spawn n { s.spawn n with stage := .finished } }.setCtl (s.spawn n).control
      { s.ctl (s.spawn n).control with spawned := if (s.spawn n).key ∈ (s.ctl (s.spawn n).control).spawned then (s.ctl (s.spawn n).control).spawned
        else (s.ctl (s.spawn n).control).spawned ++ [(s.spawn n).key] }) [] := .same rfl rfl
  split
  · exact h1.trans (.emit _ _)
  · exact h1.trans (.attach _ _ _ _)

theorem Out.linkWrite (s : St) (k : Key) (d : Bytes) : Out s (linkWrite s k d) (if s.linkUp then [(k, d)] else []) := by
  unfold Vnic.linkWrite
  split
  · exact .emit _ _
  · exact .refl s

/-- What one event hands to the link. -/
def linkNow (s : St) : Ev → List (Key × Bytes)
  | .reverse n d => if s.linkUp ∧ E2E.Live s n then [((s.spawn n).key, d)] else []
  | .rawWire p k d => if s.linkUp ∧ p ∈ s.up then [(k, d)] else []
  | _ => []

/-- All events but those of the link and `demux`. -/
theorem Out.step (s : St) (e : Ev) (he : E2E.own e = true) : Out s (step s e) (linkNow s e) := by
  cases e with
  | ctlMade p => simp only [Vnic.step]; split <;> exact .same rfl rfl
  | ctlLost p =>
    simp only [Vnic.step]; split
    · unfold Vnic.ctlLost
      dsimp only
      have h2 := Out.closes (s := { s with dumps := s.dumps.erase p }) (closeAll_closes (s.ids p).vals _)
      exact (Out.same rfl rfl : Out s { s with dumps := s.dumps.erase p } []).trans (h2.trans (.same rfl rfl))
    · exact .refl s
  | openSocket p i r => simp only [Vnic.step]; split; exact .open' s p i r; exact .refl s
  | closeSocket p i =>
    simp only [Vnic.step]; split
    · unfold closeId
      split
      · exact .refl s
      · next c _ => exact (Out.closes (close_good s c)).trans (.same rfl rfl)
    · exact .refl s
  | startDump p => simp only [Vnic.step]; split <;> exact .same rfl rfl
  | stopDump p => exact .same rfl rfl
  | rawWire p k d =>
    simp only [Vnic.step, linkNow]
    split
    · next h =>
      have := Out.linkWrite s k d
      simpa [h] using this
    · next h => simpa [h] using Out.refl s
  | data k d => cases he
  | connected n => simp only [Vnic.step]; split <;> exact .same rfl rfl
  | failed n =>
    simp only [Vnic.step]; split
    · exact (Out.same rfl rfl : Out s { s with spawn := upd s.spawn n { s.spawn n with stage := .finished, lost := true } } []).trans (.closes (close_good _ _))
    · exact .refl s
  | finished n => simp only [Vnic.step]; split; exact .finish s n; exact .refl s
  | lost n =>
    simp only [Vnic.step]; split
    · refine (Out.same rfl rfl : Out s { s with spawn := upd s.spawn n { s.spawn n with lost := true } } []).trans ?_
      unfold closeSpawned
      split
      · exact .closes (close_good.conn _ _)
      · exact .closes (close_good _ _)
    · exact .refl s
  | reverse n d =>
    simp only [Vnic.step, linkNow]
    split
    · next h =>
      have := Out.linkWrite s (s.spawn n).key d
      simpa [show E2E.Live s n from h] using this
    · next h => simpa [show ¬ E2E.Live s n from h] using Out.refl s
  | linkUp => cases he
  | linkDown => cases he

theorem demux_linkUp (s : St) (k : Key) (d : Bytes) : (demux s k d).linkUp = s.linkUp := by
  rcases demux_eq s k d with ⟨j, _, e⟩ | ⟨_, e⟩ | ⟨_, c, e⟩
  · rw [e]; unfold writeConn; split <;> rfl
  · rw [e]; rfl
  · rw [e]; rfl

/-- What an own event hands to the link. -/
theorem links_step (s : St) (e : Ev) (he : E2E.own e = true) : E2E.links ((step s e).out.drop s.out.length) = linkNow s e := by
  obtain ⟨l, e1, e2⟩ := (Out.step s e he).out
  rw [e1, List.drop_left, e2]

theorem arrived_append (i : Nat) : ∀ (a b : List Ev) (s : St), arrived i s (a ++ b) = arrived i s a ++ arrived i (exec s a) b
  | [], _, _ => rfl
  | e :: a, b, s => by
    rw [List.cons_append, arrived_cons, arrived_cons, arrived_append i a b, List.append_assoc]
    rfl

theorem dataFor_append (k : Key) (a b : List Ev) : dataFor k (a ++ b) = dataFor k a ++ dataFor k b := by
  induction a with
  | nil => rfl
  | cons e a ih => rw [List.cons_append, dataFor_cons, dataFor_cons, ih, List.append_assoc]

/-- Nothing has arrived for an object that does not exist yet. -/
theorem arrived_none (i : Nat) : ∀ (h : List Ev) (s : St), Inv [] s → (exec s h).nConn ≤ i → arrived i s h = []
  | [], _, _, _ => rfl
  | e :: h, s, hi, hle => by
    have hi' := hi.step e
    have hle' : (step s e).nConn ≤ i := Nat.le_trans (Grows.exec h hi').nConn hle
    rw [arrived_cons, arrived_none i h _ hi' hle, List.append_nil]
    cases e with
    | data k d =>
      simp only [arrivedNow]
      rw [if_neg]
      intro hg
      have := (hi'.conn1 _ _ hg).1
      omega
    | _ => rfl

/-- What the application has got is what arrived. -/
theorem received_eq (a : Str) (h : List Ev) (i : Nat) : E2E.received (exec (.init a) h) i = arrived i (.init a) h := by
  unfold E2E.received
  split
  · next hlt =>
    rcases C32_stream a h i hlt with e | ⟨t, e1, e2, _⟩
    · rw [e]
    · rw [e1]; exact e2
  · next hlt => exact (arrived_none i h _ (Inv.init a) (by omega)).symm

/-- While a connection is held, what the application gets on it is all data given to `demux` for it. -/
theorem received_more (a : Str) (h1 h2 : List Ev) (k : Key) (i : Nat) (hh : E2E.Holds (exec (.init a) h1) (exec (exec (.init a) h1) h2) k i) :
    E2E.received (exec (.init a) (h1 ++ h2)) i = E2E.received (exec (.init a) h1) i ++ dataFor k h2 := by
  rw [received_eq, received_eq, arrived_append, arrived_all h2 (Inv.reachable a h1) hh]

end Verif.Vnic
