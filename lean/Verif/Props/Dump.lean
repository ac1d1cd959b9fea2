import Verif.Spec.Dump
import Verif.Lemmas.VnicFlow
import Verif.Model.Dump
import Verif.Props.LinkNetEx
import Verif.Props.Fields
/-! # C92: dumping -/
namespace Verif.Vnic

/-! ## What is copied -/

/-- Nothing is copied to dumping connections, and they stay. -/
structure Calm (s s' : St) : Prop where
  up : s'.up = s.up
  dumps : s'.dumps = s.dumps
  out : ∃ l, s'.out = s.out ++ l ∧ ∀ e ∈ l, isDump e = false

theorem Calm.same {s s' : St} (e1 : s'.up = s.up) (e2 : s'.dumps = s.dumps) (e3 : s'.out = s.out) : Calm s s' := ⟨e1, e2, [], by simp [e3], fun _ h => nomatch h⟩
theorem Calm.refl (s : St) : Calm s s := .same rfl rfl rfl
theorem Calm.trans {a b c : St} (h : Calm a b) (h' : Calm b c) : Calm a c := by
  obtain ⟨l, e1, e2⟩ := h.out
  obtain ⟨l', e1', e2'⟩ := h'.out
  exact ⟨h'.up.trans h.up, h'.dumps.trans h.dumps, l ++ l', by rw [e1', e1, List.append_assoc], fun e he => by
    rcases List.mem_append.mp he with he | he
    · exact e2 e he
    · exact e2' e he⟩
theorem Calm.emit (s : St) (e : Eff) (he : isDump e = false) : Calm s (s.emit e) := ⟨rfl, rfl, [e], rfl, fun x hx => by rw [List.mem_singleton.mp hx]; exact he⟩
theorem Calm.emit' {s t : St} (h : Calm s t) (e : Eff) (he : isDump e = false) : Calm s (t.emit e) := h.trans (.emit _ e he)

theorem Calm.closes {s s' : St} (h : Closes s s') : Calm s s' := by
  obtain ⟨l, e1, e2⟩ := h.out
  exact ⟨h.up, h.dumps, l, e1, fun e he => by obtain ⟨t, rfl⟩ := e2 e he; rfl⟩

theorem Calm.open' (s : St) (p i : Nat) (r : Req) : Calm s (openSocket s p i r) := by
  unfold Vnic.openSocket
  split
  · exact .emit _ _ rfl
  · split
    · unfold openConnect
      split
      · exact (Calm.same rfl rfl rfl : Calm s (newCtl s p i false)).emit' _ rfl
      · refine Calm.emit' ?_ _ ?_
        · exact .same rfl rfl rfl
        · rfl
    · unfold openListen
      split
      · refine Calm.emit' ?_ _ ?_
        · exact .same rfl rfl rfl
        · rfl
      · refine Calm.emit' ?_ _ ?_
        · exact .same rfl rfl rfl
        · rfl
    · exact .emit _ _ rfl

theorem Calm.announce (s : St) (c t : Nat) (k : Key) : Calm s (announce s c t k) := by unfold Vnic.announce; split <;> exact .emit _ _ rfl

theorem Calm.attach (s : St) (i n : Nat) (w : Writer) : Calm s (attach s i n w) := by
  cases w with
  | tr t => exact .emit _ _ rfl
  | buf b =>
    unfold Vnic.attach
    dsimp only
    split
    · exact (Calm.same rfl rfl rfl : Calm s { s with conn := upd s.conn i { s.conn i with writer := .tr n } }).trans (.announce _ _ _ _)
    · exact (Calm.emit s (.write n b) rfl).trans ((Calm.same rfl rfl rfl : Calm (s.emit (.write n b)) { s.emit (.write n b) with conn := upd (s.emit (.write n b)).conn i { (s.emit (.write n b)).conn i with writer := .tr n } }).trans
        (.announce _ _ _ _))

theorem Calm.finish (s : St) (n : Nat) : Calm s (spawnFinished s n) := by
  unfold spawnFinished
  dsimp only
  have h1 : Calm s ({ s with spawn := upd s.spawn n { s.spawn n with stage := .finished } }.setCtl (s.spawn n).control
      { s.ctl (s.spawn n).control with spawned := if (s.spawn n).key ∈ (s.ctl (s.spawn n).control).spawned then (s.ctl (s.spawn n).control).spawned
        else (s.ctl (s.spawn n).control).spawned ++ [(s.spawn n).key] }) := .same rfl rfl rfl
  split
  · exact h1.emit' _ rfl
  · exact h1.trans (.attach _ _ _ _)

theorem Calm.linkWrite (s : St) (k : Key) (d : Bytes) : Calm s (linkWrite s k d) := by
  unfold Vnic.linkWrite
  split
  · exact .emit _ _ rfl
  · exact .refl s

theorem Calm.demuxLocal (s : St) (k : Key) (d : Bytes) : Calm s (demuxLocal s k d) := by
  unfold Vnic.demuxLocal
  split
  · unfold writeConn
    split
    · exact .same rfl rfl rfl
    · exact .emit _ _ rfl
  · split
    · exact .refl s
    · split
      · exact .same rfl rfl rfl
      · exact .refl s

/-- The events that have nothing to do with dumping. -/
def other : Ev → Bool
  | .ctlMade _ => false
  | .ctlLost _ => false
  | .startDump _ => false
  | .stopDump _ => false
  | .data _ _ => false
  | _ => true

theorem Calm.step (s : St) (e : Ev) (he : other e = true) : Calm s (step s e) := by
  cases e with
  | ctlMade p => cases he
  | ctlLost p => cases he
  | startDump p => cases he
  | stopDump p => cases he
  | data k d => cases he
  | openSocket p i r => simp only [Vnic.step]; split; exact .open' s p i r; exact .refl s
  | closeSocket p i =>
    simp only [Vnic.step]; split
    · unfold closeId
      split
      · exact .refl s
      · next c _ => exact (Calm.closes (close_good s c)).trans (.same rfl rfl rfl)
    · exact .refl s
  | rawWire p k d => simp only [Vnic.step]; split; exact .linkWrite s k d; exact .refl s
  | connected n => simp only [Vnic.step]; split <;> exact .same rfl rfl rfl
  | failed n =>
    simp only [Vnic.step]; split
    · exact (Calm.same rfl rfl rfl : Calm s { s with spawn := upd s.spawn n { s.spawn n with stage := .finished, lost := true } }).trans (.closes (close_good _ _))
    · exact .refl s
  | finished n => simp only [Vnic.step]; split; exact .finish s n; exact .refl s
  | lost n =>
    simp only [Vnic.step]; split
    · refine (Calm.same rfl rfl rfl : Calm s { s with spawn := upd s.spawn n { s.spawn n with lost := true } }).trans ?_
      unfold closeSpawned
      split
      · exact .closes (close_good.conn _ _)
      · exact .closes (close_good _ _)
    · exact .refl s
  | reverse n d => simp only [Vnic.step]; split; exact .linkWrite s _ d; exact .refl s
  | linkUp => exact .same rfl rfl rfl
  | linkDown => exact .same rfl rfl rfl

theorem dumpsOf_append (p : Nat) (a b : List Eff) : dumpsOf p (a ++ b) = dumpsOf p a ++ dumpsOf p b := by simp [dumpsOf]

theorem dumpsOf_calm {p : Nat} {l : List Eff} (h : ∀ e ∈ l, isDump e = false) : dumpsOf p l = [] := by
  induction l with
  | nil => rfl
  | cons e l ih =>
    have he := h e (by simp)
    have := ih fun x hx => h x (by simp [hx])
    cases e <;> first | exact this | cases he

theorem dumpsOf_map (p : Nat) (k : Key) (d : Bytes) : ∀ l : List Nat, l.Nodup → dumpsOf p (l.map fun q => .dump q k d) = if p ∈ l then [(k, d)] else []
  | [], _ => rfl
  | q :: l, h => by
    have ih := dumpsOf_map p k d l (List.nodup_cons.mp h).2
    have e : dumpsOf p ((q :: l).map fun q => .dump q k d) = (if q = p then [(k, d)] else []) ++ dumpsOf p (l.map fun q => .dump q k d) := by
      unfold dumpsOf
      rw [List.map_cons, List.filterMap_cons]
      by_cases hq : q = p
      · simp [hq]
      · simp [hq]
    rw [e, ih]
    by_cases hq : q = p
    · subst hq
      rw [if_pos rfl, if_neg (List.nodup_cons.mp h).1, if_pos (List.mem_cons_self ..)]
      rfl
    · rw [if_neg hq, List.nil_append]
      by_cases hm : p ∈ l
      · rw [if_pos hm, if_pos (List.mem_cons_of_mem _ hm)]
      · rw [if_neg hm, if_neg (by simp [hm, Ne.symm hq])]

/-- Only connections that are there dump, and each is in the list once; `up` is a set. -/
structure DInv (s : St) : Prop where
  up : s.up.Nodup
  dumps : s.dumps.Nodup
  sub : ∀ p ∈ s.dumps, p ∈ s.up

theorem DInv.calm {s s' : St} (hi : DInv s) (h : Calm s s') : DInv s' := ⟨by rw [h.up]; exact hi.up, by rw [h.dumps]; exact hi.dumps, by rw [h.up, h.dumps]; exact hi.sub⟩

theorem ctlLost_out (s : St) (p : Nat) : (ctlLost s p).up = s.up.erase p ∧ (ctlLost s p).dumps = s.dumps.erase p ∧
    ∃ l, (ctlLost s p).out = s.out ++ l ∧ ∀ e ∈ l, isDump e = false := by
  have h := Calm.closes (s := { s with dumps := s.dumps.erase p }) (closeAll_closes (s.ids p).vals _)
  unfold ctlLost
  dsimp only
  refine ⟨by rw [h.up], h.dumps, h.out⟩

/-- The history from a state. -/
theorem seen_exec (p : Nat) : ∀ (h : List Ev) (s : St), DInv s →
    dumpsOf p (exec s h).out = dumpsOf p s.out ++ seen p (decide (p ∈ s.up)) (decide (p ∈ s.dumps)) h
  | [], s, _ => by simp [exec, seen]
  | e :: h, s, hi => by
    rw [exec]
    cases ho : other e with
    | true =>
      have hc := Calm.step s e ho
      obtain ⟨l, e1, e2⟩ := hc.out
      rw [seen_exec p h _ (hi.calm hc), hc.up, hc.dumps, e1, dumpsOf_append, dumpsOf_calm e2, List.append_nil]
      cases e <;> first | rfl | cases ho
    | false =>
      cases e with
      | ctlMade q =>
        simp only [Vnic.step]
        by_cases hq : q ∈ s.up
        · rw [if_pos hq, seen_exec p h s hi, seen]
          by_cases e : q = p
          · subst e; simp [hq]
          · simp [e]
        · rw [if_neg hq, seen_exec p h { s with up := s.up ++ [q] } ⟨by
            show (s.up ++ [q]).Nodup
            rw [List.nodup_append]
            exact ⟨hi.up, by simp, fun a ha b hb => by rw [List.mem_singleton.mp hb]; exact fun e => hq (e ▸ ha)⟩, hi.dumps, fun x hx => List.mem_append_left _ (hi.sub x hx)⟩, seen]
          congr 2
          simp [Bool.decide_or, eq_comm]
      | ctlLost q =>
        simp only [Vnic.step]
        by_cases hq : q ∈ s.up
        · obtain ⟨e1, e2, l, e3, e4⟩ := ctlLost_out s q
          rw [if_pos hq, seen_exec p h _ ⟨by rw [e1]; exact hi.up.erase q, by rw [e2]; exact hi.dumps.erase q, fun x hx => by
            rw [e2] at hx
            rw [e1]
            have := (hi.dumps.mem_erase_iff).mp hx
            exact (hi.up.mem_erase_iff).mpr ⟨this.1, hi.sub x this.2⟩⟩, e1, e2, e3, dumpsOf_append, dumpsOf_calm e4, List.append_nil, seen]
          by_cases e : q = p
          · subst e
            rw [if_pos rfl, decide_eq_false (by rw [hi.up.mem_erase_iff]; simp), decide_eq_false (by rw [hi.dumps.mem_erase_iff]; simp)]
          · rw [if_neg e]
            have h1 : decide (p ∈ s.up.erase q) = decide (p ∈ s.up) := by
              rw [decide_eq_decide, hi.up.mem_erase_iff]; exact ⟨fun h => h.2, fun h => ⟨Ne.symm e, h⟩⟩
            have h2 : decide (p ∈ s.dumps.erase q) = decide (p ∈ s.dumps) := by
              rw [decide_eq_decide, hi.dumps.mem_erase_iff]; exact ⟨fun h => h.2, fun h => ⟨Ne.symm e, h⟩⟩
            rw [h1, h2]
        · rw [if_neg hq, seen_exec p h s hi, seen]
          by_cases e : q = p
          · subst e
            rw [if_pos rfl, decide_eq_false hq, decide_eq_false (fun h => hq (hi.sub _ h))]
          · rw [if_neg e]
      | startDump q =>
        simp only [Vnic.step]
        by_cases hq : q ∈ s.up ∧ q ∉ s.dumps
        · rw [if_pos hq, seen_exec p h { s with dumps := s.dumps ++ [q] } ⟨hi.up, by
            show (s.dumps ++ [q]).Nodup
            rw [List.nodup_append]
            exact ⟨hi.dumps, by simp, fun a ha b hb => by rw [List.mem_singleton.mp hb]; exact fun e => hq.2 (e ▸ ha)⟩, fun x hx => by
              rcases List.mem_append.mp hx with hx | hx
              · exact hi.sub x hx
              · rw [List.mem_singleton.mp hx]; exact hq.1⟩, seen]
          by_cases e : q = p
          · subst e
            simp [hq.1]
          · simp [e, Ne.symm e]
        · rw [if_neg hq, seen_exec p h s hi, seen]
          by_cases e : q = p
          · subst e
            rw [if_pos rfl]
            congr 2
            rw [decide_eq_decide]
            exact ⟨fun h => hi.sub _ h, fun h => Decidable.byContradiction fun h' => hq ⟨h, h'⟩⟩
          · rw [if_neg e]
      | stopDump q =>
        simp only [Vnic.step]
        rw [seen_exec p h { s with dumps := s.dumps.erase q } ⟨hi.up, hi.dumps.erase q, fun x hx => hi.sub x (List.mem_of_mem_erase hx)⟩, seen]
        by_cases e : q = p
        · subst e
          have h0 : decide (q ∈ s.dumps.erase q) = false := decide_eq_false (by rw [hi.dumps.mem_erase_iff]; simp)
          rw [if_pos rfl]
          show _ ++ seen q _ (decide (q ∈ s.dumps.erase q)) h = _
          rw [h0]
        · rw [if_neg e]
          have h2 : decide (p ∈ s.dumps.erase q) = decide (p ∈ s.dumps) := by
            rw [decide_eq_decide, hi.dumps.mem_erase_iff]; exact ⟨fun h => h.2, fun h => ⟨Ne.symm e, h⟩⟩
          show _ ++ seen p _ (decide (p ∈ s.dumps.erase q)) h = _
          rw [h2]
      | data k d =>
        have hc := Calm.demuxLocal (dumpAll s k d) k.inverse d
        obtain ⟨l, e1, e2⟩ := hc.out
        show dumpsOf p (exec (Vnic.demuxLocal (dumpAll s k d) k.inverse d) h).out = _
        rw [seen_exec p h _ (DInv.calm (s := dumpAll s k d) ⟨hi.up, hi.dumps, hi.sub⟩ hc), hc.up, hc.dumps, e1, dumpsOf_append, dumpsOf_calm e2, List.append_nil]
        show dumpsOf p (s.out ++ s.dumps.map fun q => .dump q k d) ++ seen p (decide (p ∈ s.up)) (decide (p ∈ s.dumps)) h = _
        rw [dumpsOf_append, dumpsOf_map p k d _ hi.dumps, seen, List.append_assoc]
        by_cases hp : p ∈ s.dumps
        · simp [hp]
        · simp [hp]
      | _ => cases ho

/-- C92: a control connection that dumps gets exactly the packets that arrive from the network between its start and its end of dumping: each once, in
order and unchanged, whomever they are for. -/
theorem C92_seen (a : Str) (h : List Ev) (p : Nat) : dumpsOf p (exec (St.init a) h).out = seen p false false h := by
  have := seen_exec p h (St.init a) ⟨.nil, .nil, fun _ h => nomatch h⟩
  simpa [St.init, dumpsOf] using this

/-- A history with two control connections: 1 dumps for a while, 2 has a socket. -/
def dumpHist (s d : Str) : List Ev :=
  [.linkUp, .ctlMade 1, .ctlMade 2, .data ⟨s, 1, d, 2⟩ [1], .startDump 1, .startDump 1, .startDump 3, .data ⟨s, 1, d, 2⟩ [2], .openSocket 2 5 (.listen 80), .data ⟨s, 9, d, 80⟩ [3],
    .connected 0, .finished 0, .reverse 0 [4], .stopDump 1, .data ⟨s, 1, d, 2⟩ [5], .startDump 1, .data ⟨s, 9, d, 80⟩ [6], .ctlLost 1, .data ⟨s, 1, d, 2⟩ [7]]

example : dumpsOf 1 (exec (St.init ['d']) (dumpHist ['s'] ['d'])).out = [(⟨['s'], 1, ['d'], 2⟩, [2]), (⟨['s'], 9, ['d'], 80⟩, [3]), (⟨['s'], 9, ['d'], 80⟩, [6])] ∧
    seen 1 false false (dumpHist ['s'] ['d']) = [(⟨['s'], 1, ['d'], 2⟩, [2]), (⟨['s'], 9, ['d'], 80⟩, [3]), (⟨['s'], 9, ['d'], 80⟩, [6])] ∧
    dumpsOf 2 (exec (St.init ['d']) (dumpHist ['s'] ['d'])).out = [] ∧ dumpsOf 3 (exec (St.init ['d']) (dumpHist ['s'] ['d'])).out = [] := by decide +kernel

/-- C92 does not hold for what is sent: what goes out through the VNIC is not copied to a dumping connection. -/
theorem C92_false_outgoing : ∃ h : List Ev, .startDump 1 ∈ h ∧ ∃ k d, .link k d ∈ (exec (St.init ['d']) h).out ∧ dumpsOf 1 (exec (St.init ['d']) h).out = [] :=
  ⟨[.linkUp, .ctlMade 1, .startDump 1, .openSocket 1 0 (.connect ['x'] 80), .connected 0, .finished 0, .reverse 0 [7]], by decide, ⟨['d'], 2000, ['x'], 80⟩, [7],
    by decide +kernel, by decide +kernel⟩

/-- C92: any control connection may send raw packets, whether it dumps or not, under any source address: they go out as they are. -/
theorem C92_raw (a : Str) (h : List Ev) (p : Nat) (k : Key) (d : Bytes) (hp : p ∈ (exec (St.init a) h).up) (hl : (exec (St.init a) h).linkUp = true) :
    (exec (St.init a) (h ++ [.rawWire p k d])).out = (exec (St.init a) h).out ++ [.link k d] := by
  have e : ∀ (l : List Ev) (s : St), exec s (l ++ [.rawWire p k d]) = step (exec s l) (.rawWire p k d) := by
    intro l
    induction l with
    | nil => exact fun s => rfl
    | cons x l ih => exact fun s => ih _
  rw [e, step, if_pos hp, linkWrite, if_pos hl]
  rfl

example : let s := exec (St.init ['d']) [.linkUp, .ctlMade 1]
    1 ∈ s.up ∧ s.linkUp = true ∧ s.dumps = [] := by decide +kernel

/-! ## Dumping disturbs nothing -/

/-- The VNIC without its dumps. -/
def strip (s : St) : St := { s with dumps := [], out := s.out.filter fun e => !isDump e }

theorem strip_emit (s : St) (e : Eff) (he : isDump e = false) : strip (s.emit e) = (strip s).emit e := by
  simp [strip, St.emit, List.filter_append, he]

theorem strip_setCtl (s : St) (c : Nat) (x : Ctl) : strip (s.setCtl c x) = (strip s).setCtl c x := rfl

theorem strip_closeWriter (s : St) (w : Writer) : strip (closeWriter s w) = closeWriter (strip s) w := by
  cases w with
  | buf b => rfl
  | tr t => exact strip_emit s (.close t) rfl

section
variable {cl : St → Nat → St} (hcl : ∀ s c, strip (cl s c) = cl (strip s) c)
include hcl

theorem strip_spawnedClosed (s : St) (c : Nat) (k : Key) : strip (spawnedClosed cl s c k) = spawnedClosed cl (strip s) c k := by
  unfold spawnedClosed
  dsimp only
  show strip (if (s.ctl c).closed = false ∧ (s.ctl c).listener = false then _ else _) = if (s.ctl c).closed = false ∧ (s.ctl c).listener = false then _ else _
  split
  · rw [hcl]; rfl
  · rfl

theorem strip_closeConnWith (s : St) (k : Key) : strip (closeConnWith cl s k) = closeConnWith cl (strip s) k := by
  unfold closeConnWith
  show strip (match s.conns.get k with | none => _ | some i => _) = match s.conns.get k with | none => _ | some i => _
  split
  · rfl
  · rw [strip_spawnedClosed hcl, strip_closeWriter]; rfl

theorem strip_closeConnsWith : ∀ (ks : List Key) (s : St), strip (closeConnsWith cl s ks) = closeConnsWith cl (strip s) ks
  | [], s => rfl
  | k :: ks, s => by rw [closeConnsWith, strip_closeConnsWith ks, strip_closeConnWith hcl, ← closeConnsWith]

theorem strip_closeOwnPort (s : St) (o : Option Nat) : strip (closeOwnPort cl s o) = closeOwnPort cl (strip s) o := by
  cases o with
  | none => rfl
  | some p =>
    unfold closeOwnPort closePortWith
    show strip (match s.ports.get p with | none => _ | some i => _) = match s.ports.get p with | none => _ | some i => _
    split
    · rfl
    · rw [hcl]; rfl
end

theorem strip_closeFuel : ∀ (f : Nat) (s : St) (c : Nat), strip (closeFuel f s c) = closeFuel f (strip s) c
  | 0, s, c => rfl
  | f + 1, s, c => by
    unfold closeFuel
    dsimp only
    show strip (if (s.ctl c).closed = true then _ else _) = if (s.ctl c).closed = true then _ else _
    split
    · rfl
    · rw [strip_closeOwnPort (strip_closeFuel f), strip_closeConnsWith (strip_closeFuel f)]; rfl

theorem strip_close (s : St) (c : Nat) : strip (close s c) = close (strip s) c := strip_closeFuel _ s c

theorem strip_closeSpawned (s : St) (c : Nat) (k : Key) : strip (closeSpawned s c k) = closeSpawned (strip s) c k := by
  unfold closeSpawned
  show strip (if (s.ctl c).listener = true then _ else _) = if (s.ctl c).listener = true then _ else _
  split
  · exact strip_closeConnWith strip_close s k
  · exact strip_close s c

theorem strip_closeAll : ∀ (l : List Nat) (s : St), strip (closeAll s l) = closeAll (strip s) l
  | [], s => rfl
  | c :: l, s => by rw [closeAll, strip_closeAll l, strip_close, ← closeAll]

theorem strip_open (s : St) (p i : Nat) (r : Req) : strip (openSocket s p i r) = openSocket (strip s) p i r := by
  unfold openSocket
  show strip (if (s.ids p).has i = true then _ else _) = if (s.ids p).has i = true then _ else _
  split
  · exact strip_emit _ _ rfl
  · cases r with
    | connect dst dport =>
      show strip (openConnect s p i dst dport) = openConnect (strip s) p i dst dport
      unfold openConnect
      show strip (match nextPort s with | none => _ | some q => _) = match nextPort s with | none => _ | some q => _
      split
      · exact strip_emit _ _ rfl
      · exact strip_emit _ _ rfl
    | listen q =>
      show strip (openListen s p i q) = openListen (strip s) p i q
      unfold openListen
      show strip (if s.ports.has q = true then _ else _) = if s.ports.has q = true then _ else _
      split
      · exact strip_emit _ _ rfl
      · exact strip_emit _ _ rfl
    | other => exact strip_emit _ _ rfl

theorem strip_announce (s : St) (c t : Nat) (k : Key) : strip (announce s c t k) = announce (strip s) c t k := by
  unfold announce
  show strip (if (s.ctl c).proto ∈ s.up then _ else _) = if (s.ctl c).proto ∈ s.up then _ else _
  split <;> exact strip_emit _ _ rfl

theorem strip_attach (s : St) (i n : Nat) (w : Writer) : strip (attach s i n w) = attach (strip s) i n w := by
  cases w with
  | tr t => exact strip_emit _ _ rfl
  | buf b =>
    unfold attach
    dsimp only
    rw [strip_announce]
    by_cases hb : b = []
    · rw [if_pos hb, if_pos hb]; rfl
    · rw [if_neg hb, if_neg hb, ← strip_emit _ _ rfl]; rfl

theorem strip_finish (s : St) (n : Nat) : strip (spawnFinished s n) = spawnFinished (strip s) n := by
  unfold spawnFinished
  dsimp only
  show strip (match s.conns.get (s.spawn n).key with | none => _ | some i => _) = match s.conns.get (s.spawn n).key with | none => _ | some i => _
  split
  · exact strip_emit _ _ rfl
  · rw [strip_attach]; rfl

theorem strip_linkWrite (s : St) (k : Key) (d : Bytes) : strip (linkWrite s k d) = linkWrite (strip s) k d := by
  unfold linkWrite
  show strip (if s.linkUp = true then _ else _) = if s.linkUp = true then _ else _
  split
  · exact strip_emit _ _ rfl
  · rfl

theorem strip_demuxLocal (s : St) (k : Key) (d : Bytes) : strip (demuxLocal s k d) = demuxLocal (strip s) k d := by
  unfold demuxLocal
  show strip (match s.conns.get k with | some i => _ | none => _) = match s.conns.get k with | some i => _ | none => _
  split
  · next i _ =>
    unfold writeConn
    show strip (match (s.conn i).writer with | .buf b => _ | .tr t => _) = match (s.conn i).writer with | .buf b => _ | .tr t => _
    split
    · rfl
    · exact strip_emit _ _ rfl
  · show strip (match s.ports.get k.sourcePort with | none => _ | some c => _) = match s.ports.get k.sourcePort with | none => _ | some c => _
    split
    · rfl
    · next c _ =>
      show strip (if (s.ctl c).listener = true then _ else _) = if (s.ctl c).listener = true then _ else _
      split <;> rfl

theorem strip_dumpAll (s : St) (k : Key) (d : Bytes) : strip (dumpAll s k d) = dumpAll (strip s) k d := by
  have : (s.dumps.map fun p => Eff.dump p k d).filter (fun e => !isDump e) = [] := by
    rw [List.filter_eq_nil_iff]
    intro e he
    obtain ⟨p, _, rfl⟩ := List.mem_map.mp he
    simp [isDump]
  simp [strip, dumpAll, List.filter_append, this]

theorem strip_ctlLost (s : St) (p : Nat) : strip (ctlLost s p) = ctlLost (strip s) p := by
  unfold ctlLost
  dsimp only
  have h := strip_closeAll (s.ids p).vals { s with dumps := s.dumps.erase p }
  have h' : strip { s with dumps := s.dumps.erase p } = { strip s with dumps := (strip s).dumps.erase p } := rfl
  rw [h'] at h
  have e : (strip s).ids p = s.ids p := rfl
  rw [e, ← h]
  rfl

theorem strip_step (s : St) (e : Ev) (he : dumpEv e = false) : strip (step s e) = step (strip s) e := by
  cases e with
  | startDump p => cases he
  | stopDump p => cases he
  | ctlMade p =>
    show strip (if p ∈ s.up then _ else _) = if p ∈ s.up then _ else _
    split <;> rfl
  | ctlLost p =>
    show strip (if p ∈ s.up then _ else _) = if p ∈ s.up then _ else _
    split
    · exact strip_ctlLost s p
    · rfl
  | openSocket p i r =>
    show strip (if p ∈ s.up then _ else _) = if p ∈ s.up then _ else _
    split
    · exact strip_open s p i r
    · rfl
  | closeSocket p i =>
    show strip (if p ∈ s.up then _ else _) = if p ∈ s.up then _ else _
    split
    · unfold closeId
      show strip (match (s.ids p).get i with | none => _ | some c => _) = match (s.ids p).get i with | none => _ | some c => _
      split
      · rfl
      · next c _ =>
        dsimp only
        rw [← strip_close]
        rfl
    · rfl
  | rawWire p k d =>
    show strip (if p ∈ s.up then _ else _) = if p ∈ s.up then _ else _
    split
    · exact strip_linkWrite s k d
    · rfl
  | data k d =>
    show strip (demuxLocal (dumpAll s k d) k.inverse d) = demuxLocal (dumpAll (strip s) k d) k.inverse d
    rw [strip_demuxLocal, strip_dumpAll]
  | connected n =>
    show strip (if n < s.nSpawn ∧ (s.spawn n).stage = .connecting then _ else _) = if n < s.nSpawn ∧ (s.spawn n).stage = .connecting then _ else _
    split <;> rfl
  | failed n =>
    show strip (if n < s.nSpawn ∧ (s.spawn n).stage = .connecting then _ else _) = if n < s.nSpawn ∧ (s.spawn n).stage = .connecting then _ else _
    split
    · rw [strip_close]; rfl
    · rfl
  | finished n =>
    show strip (if n < s.nSpawn ∧ (s.spawn n).stage = .connected then _ else _) = if n < s.nSpawn ∧ (s.spawn n).stage = .connected then _ else _
    split
    · exact strip_finish s n
    · rfl
  | lost n =>
    show strip (if n < s.nSpawn ∧ (s.spawn n).stage ≠ .connecting ∧ (s.spawn n).lost = false then _ else _) = if n < s.nSpawn ∧ (s.spawn n).stage ≠ .connecting ∧ (s.spawn n).lost = false then _ else _
    split
    · rw [strip_closeSpawned]; rfl
    · rfl
  | reverse n d =>
    show strip (if n < s.nSpawn ∧ (s.spawn n).stage ≠ .connecting ∧ (s.spawn n).lost = false then _ else _) = if n < s.nSpawn ∧ (s.spawn n).stage ≠ .connecting ∧ (s.spawn n).lost = false then _ else _
    split
    · exact strip_linkWrite s _ d
    · rfl
  | linkUp => rfl
  | linkDown => rfl

theorem strip_dumpEv (s : St) (e : Ev) (he : dumpEv e = true) : strip (step s e) = strip s := by
  cases e with
  | startDump p =>
    show strip (if p ∈ s.up ∧ p ∉ s.dumps then _ else _) = _
    split <;> rfl
  | stopDump p => rfl
  | _ => cases he

theorem strip_exec : ∀ (h : List Ev) (s : St), strip (exec s h) = exec (strip s) (h.filter fun e => !dumpEv e)
  | [], s => rfl
  | e :: h, s => by
    rw [exec, strip_exec h]
    cases he : dumpEv e with
    | true => rw [strip_dumpEv s e he, List.filter_cons_of_neg (by simp [he])]
    | false => rw [strip_step s e he, List.filter_cons_of_pos (by simp [he]), exec]

/-- C92: dumping is not noticed: whoever dumps, and whenever, everything else that the VNIC does is the same as if nobody did. -/
theorem C92_unnoticed (a : Str) (h : List Ev) :
    (exec (St.init a) h).out.filter (fun e => !isDump e) = (exec (St.init a) (h.filter fun e => !dumpEv e)).out := by
  have := congrArg St.out (strip_exec h (St.init a))
  exact this

example : (exec (St.init ['d']) (dumpHist ['s'] ['d'])).out.filter (fun e => !isDump e) =
    [.respond 2 5 (.port 80), .write 0 [3], .announce 2 5 0 ⟨['d'], 80, ['s'], 9⟩, .link ⟨['d'], 80, ['s'], 9⟩ [4], .write 0 [6]] := by decide +kernel

end Verif.Vnic

namespace Verif.Link

/-- C92 is false of sending from the dump client: `VNICDumpProtocol.write` raises, whatever it is given, and writes nothing. -/
theorem C92_false_write (c : Classes) (hw : c.env.classDef c.wire = some wireDef) (source : Str) (sourcePort : Int) (destination : Str) (destinationPort : Int) (data : Bytes) :
    ∃ e, dumpWrite c source sourcePort destination destinationPort data = .error e := by
  unfold dumpWrite framedSerialize
  cases h : serialize c.env 0 (wireKw c [("source", .str source), ("sourceAddress", .num sourcePort), ("destination", .str destination),
    ("destinationPort", .num destinationPort), ("data", .buf data)]) with
  | error e => exact ⟨e, rfl⟩
  | ok b =>
    exfalso
    have := C08_serialized_is_complete h
    rw [wireKw, complete.eq_def] at this
    obtain ⟨d, e, hc⟩ := this
    rw [hw] at e
    cases e
    have e1 : ∀ r, kw [("source", Val.str source), ("sourceAddress", .num sourcePort), ("destination", .str destination), ("destinationPort", .num destinationPort), ("data", .buf data)] "source" r = .set (.str source) r := fun r => rfl
    have e2 : ∀ r, kw [("source", Val.str source), ("sourceAddress", .num sourcePort), ("destination", .str destination), ("destinationPort", .num destinationPort), ("data", .buf data)] "sourcePort" r = .unset r := fun r => rfl
    rw [e1, e2] at hc
    unfold wireDef at hc
    simp only [completeF] at hc
    exact absurd hc.2.1 (by simp)

example : lClasses.env.classDef lClasses.wire = some wireDef := rfl

/-- With the field's name it would be written. -/
example : ((framedSerialize lEnv 0 (wireKw lClasses [("source", .str ['s']), ("sourcePort", .num 1), ("destination", .str ['d']), ("destinationPort", .num 2),
    ("data", .buf [7])])).toOption.map List.length).isSome = true := by decide +kernel

end Verif.Link
