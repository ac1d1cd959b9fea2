import Verif.Lemmas.VnicFlow
/-! # Lemmas: sockets and callback connections of a VNIC, and the open packets they stem from -/
namespace Verif.Vnic

/-- No new sockets and callback connections, and nothing is announced. -/
structure Quietly (s s' : St) : Prop where
  address : s'.address = s.address
  nCtl : s'.nCtl = s.nCtl
  nSpawn : s'.nSpawn = s.nSpawn
  ctl : ∀ c, (s'.ctl c).connectionId = (s.ctl c).connectionId ∧ (s'.ctl c).listener = (s.ctl c).listener ∧
    (s'.ctl c).proto = (s.ctl c).proto ∧ (s'.ctl c).port = (s.ctl c).port
  spawn : ∀ n, (s'.spawn n).control = (s.spawn n).control ∧ (s'.spawn n).key = (s.spawn n).key
  out : ∃ l, s'.out = s.out ++ l ∧ ∀ p i t k, Eff.announce p i t k ∉ l

theorem Quietly.same {s s' : St} (e1 : s'.address = s.address) (e2 : s'.nCtl = s.nCtl) (e3 : s'.nSpawn = s.nSpawn) (e4 : s'.ctl = s.ctl)
    (e5 : s'.spawn = s.spawn) (e6 : ∃ l, s'.out = s.out ++ l ∧ ∀ p i t k, Eff.announce p i t k ∉ l) : Quietly s s' :=
  ⟨e1, e2, e3, fun c => by rw [e4]; exact ⟨rfl, rfl, rfl, rfl⟩, fun n => by rw [e5]; exact ⟨rfl, rfl⟩, e6⟩

theorem Quietly.inert {s s' : St} (e1 : s'.address = s.address) (e2 : s'.nCtl = s.nCtl) (e3 : s'.nSpawn = s.nSpawn) (e4 : s'.ctl = s.ctl)
    (e5 : s'.spawn = s.spawn) (e6 : s'.out = s.out) : Quietly s s' := .same e1 e2 e3 e4 e5 ⟨[], by rw [e6, List.append_nil], by simp⟩

theorem Quietly.refl (s : St) : Quietly s s := .inert rfl rfl rfl rfl rfl rfl

theorem Quietly.trans {a b c : St} (h : Quietly a b) (h' : Quietly b c) : Quietly a c where
  address := h'.address.trans h.address
  nCtl := h'.nCtl.trans h.nCtl
  nSpawn := h'.nSpawn.trans h.nSpawn
  ctl := fun x => by
    obtain ⟨a1, a2, a3, a4⟩ := h.ctl x
    obtain ⟨b1, b2, b3, b4⟩ := h'.ctl x
    exact ⟨b1.trans a1, b2.trans a2, b3.trans a3, b4.trans a4⟩
  spawn := fun n => ⟨(h'.spawn n).1.trans (h.spawn n).1, (h'.spawn n).2.trans (h.spawn n).2⟩
  out := by
    obtain ⟨l, e1, e2⟩ := h.out
    obtain ⟨m, f1, f2⟩ := h'.out
    refine ⟨l ++ m, by rw [f1, e1, List.append_assoc], ?_⟩
    intro p i t k hm
    rcases List.mem_append.mp hm with hm | hm
    · exact e2 _ _ _ _ hm
    · exact f2 _ _ _ _ hm

theorem Quietly.emit (s : St) (e : Eff) (he : ∀ p i t k, e ≠ .announce p i t k) : Quietly s (s.emit e) :=
  .same rfl rfl rfl rfl rfl ⟨[e], rfl, fun p i t k h => he p i t k (List.mem_singleton.mp h).symm⟩

theorem Quietly.closes {s s' : St} (h : Closes s s') : Quietly s s' where
  address := h.address
  nCtl := h.nCtl
  nSpawn := h.nSpawn
  ctl := fun c => ⟨(h.ctl c).1, (h.ctl c).2.1, (h.ctl c).2.2.1, (h.ctl c).2.2.2.1⟩
  spawn := fun n => by rw [h.spawn]; exact ⟨rfl, rfl⟩
  out := by
    obtain ⟨l, e1, e2⟩ := h.out
    refine ⟨l, e1, fun p i t k hm => ?_⟩
    obtain ⟨t, ht⟩ := e2 _ hm
    cases ht

theorem Quietly.setSpawn (s : St) (n : Nat) (x : Spawn) (h1 : x.control = (s.spawn n).control) (h2 : x.key = (s.spawn n).key) :
    Quietly s { s with spawn := upd s.spawn n x } :=
  ⟨rfl, rfl, rfl, fun _ => ⟨rfl, rfl, rfl, rfl⟩, fun m => by
    simp only [upd]
    split
    · next e => subst e; exact ⟨h1, h2⟩
    · exact ⟨rfl, rfl⟩, [], by simp, by simp⟩

theorem Quietly.setSpawned (s : St) (c : Nat) (l : List Key) : Quietly s (s.setCtl c { s.ctl c with spawned := l }) :=
  ⟨rfl, rfl, rfl, fun d => by
    simp only [St.setCtl, upd]
    split
    · next e => subst e; exact ⟨rfl, rfl, rfl, rfl⟩
    · exact ⟨rfl, rfl, rfl, rfl⟩, fun _ => ⟨rfl, rfl⟩, [], by simp [St.setCtl], by simp⟩

theorem Quietly.linkWrite (s : St) (k : Key) (d : Bytes) : Quietly s (linkWrite s k d) := by
  unfold Vnic.linkWrite
  split
  · exact .emit _ _ (fun _ _ _ _ => Eff.noConfusion)
  · exact .refl s

/-- The kinds of events, by what they do to sockets and callback connections. -/
inductive Move (s s' : St) : Ev → Prop where
  | quiet (e) : Quietly s s' → Move s s' e
  | closed (p i r l) : r ≠ .other → (l = true ↔ ∃ q, r = .listen q) → Quietly (newCtl s p i l) s' → Move s s' (.openSocket p i r)
  | listens (p i q) : Quietly (setPort (newCtl s p i true) s.nCtl q) s' → Move s s' (.openSocket p i (.listen q))
  | connects (p i dst dport q) : Quietly (setPort (startSpawn (newCtl s p i false) s.nCtl ⟨s.address, q, dst, dport⟩) s.nCtl q) s' →
      Move s s' (.openSocket p i (.connect dst dport))
  | accepts (k d c) : s.ports.get k.inverse.sourcePort = some c → (s.ctl c).listener = true →
      Quietly (startSpawn s c k.inverse) s' → Move s s' (.data k d)
  | told (n) (m : St) : n < s.nSpawn → Quietly s m → (s.ctl (s.spawn n).control).proto ∈ s.up →
      s' = m.emit (.announce (s.ctl (s.spawn n).control).proto (s.ctl (s.spawn n).control).connectionId n (s.spawn n).key) →
      Move s s' (.finished n)

theorem move_open (s : St) (p i : Nat) (r : Req) : Move s (openSocket s p i r) (.openSocket p i r) := by
  unfold Vnic.openSocket
  split
  · exact .quiet _ (.emit _ _ (fun _ _ _ _ => Eff.noConfusion))
  · cases r with
    | connect dst dport =>
      dsimp only
      unfold openConnect
      split
      · exact .closed p i _ false (by simp) (by simp) (.emit _ _ (fun _ _ _ _ => Eff.noConfusion))
      · next q _ =>
        refine .connects p i dst dport q ?_
        refine Quietly.trans ?_ (.emit _ _ (fun _ _ _ _ => Eff.noConfusion))
        exact .inert rfl rfl rfl rfl rfl rfl
    | listen q =>
      dsimp only
      unfold openListen
      split
      · exact .closed p i _ true (by simp) (by simp) (.emit _ _ (fun _ _ _ _ => Eff.noConfusion))
      · refine .listens p i q ?_
        refine Quietly.trans ?_ (.emit _ _ (fun _ _ _ _ => Eff.noConfusion))
        exact .inert rfl rfl rfl rfl rfl rfl
    | other => exact .quiet _ (.emit _ _ (fun _ _ _ _ => Eff.noConfusion))

theorem dumpAll_quiet (s : St) (k : Key) (d : Bytes) : Quietly s (dumpAll s k d) :=
  .same rfl rfl rfl rfl rfl ⟨_, rfl, fun p i t k' hm => by simp at hm⟩

theorem move_data (s : St) (k : Key) (d : Bytes) : Move s (demux s k d) (.data k d) := by
  unfold Vnic.demux demuxLocal
  split
  · refine .quiet _ ((dumpAll_quiet s k d).trans ?_)
    unfold writeConn
    split
    · exact .inert rfl rfl rfl rfl rfl rfl
    · exact .emit _ _ (fun _ _ _ _ => Eff.noConfusion)
  · split
    · exact .quiet _ (dumpAll_quiet s k d)
    · next c hc =>
      split
      · next hl =>
        refine .accepts k d c hc hl ?_
        exact .same rfl rfl rfl rfl rfl ⟨_, rfl, fun p i t k' hm => by simp at hm⟩
      · exact .quiet _ (dumpAll_quiet s k d)

theorem move_finished (s : St) (n : Nat) (hn : n < s.nSpawn) : Move s (spawnFinished s n) (.finished n) := by
  unfold spawnFinished
  dsimp only
  have h1 := (Quietly.setSpawn s n { s.spawn n with stage := .finished } rfl rfl).trans (Quietly.setSpawned _ (s.spawn n).control
    (if (s.spawn n).key ∈ (s.ctl (s.spawn n).control).spawned then (s.ctl (s.spawn n).control).spawned else (s.ctl (s.spawn n).control).spawned ++ [(s.spawn n).key]))
  have hup : ∀ x : Ctl, (St.setCtl { s with spawn := upd s.spawn n { s.spawn n with stage := .finished } } (s.spawn n).control x).up = s.up := fun _ => rfl
  split
  · exact .quiet _ (h1.trans (.emit _ _ (fun _ _ _ _ => Eff.noConfusion)))
  · next i hi =>
    generalize hm : (St.setCtl { s with spawn := upd s.spawn n { s.spawn n with stage := .finished } } (s.spawn n).control _) = m at h1 hi ⊢
    have hup' : m.up = s.up := by rw [← hm]; rfl
    cases hw : (m.conn i).writer with
    | tr t => exact .quiet _ (h1.trans (.emit _ _ (fun _ _ _ _ => Eff.noConfusion)))
    | buf b =>
      unfold attach
      dsimp only
      have h2 : Quietly m { (if b = [] then m else m.emit (.write n b)) with
          conn := upd (if b = [] then m else m.emit (.write n b)).conn i { (if b = [] then m else m.emit (.write n b)).conn i with writer := .tr n } } := by
        split
        · exact .inert rfl rfl rfl rfl rfl rfl
        · exact Quietly.trans (.emit m (.write n b) (fun _ _ _ _ => Eff.noConfusion)) (.inert rfl rfl rfl rfl rfl rfl)
      have hup2 : { (if b = [] then m else m.emit (.write n b)) with
          conn := upd (if b = [] then m else m.emit (.write n b)).conn i { (if b = [] then m else m.emit (.write n b)).conn i with writer := .tr n } }.up = s.up := by
        rw [← hup']; dsimp only; split <;> rfl
      generalize ({ (if b = [] then m else m.emit (.write n b)) with
          conn := upd (if b = [] then m else m.emit (.write n b)).conn i { (if b = [] then m else m.emit (.write n b)).conn i with writer := .tr n } } : St) = m2 at h2 hup2 ⊢
      have h3 := h1.trans h2
      unfold announce
      rw [(h1.spawn n).1, (h1.spawn n).2, (h3.ctl _).2.2.1, (h3.ctl _).1, hup2]
      split
      · next hp => exact .told n m2 hn h3 hp rfl
      · exact .quiet _ (h3.trans (.emit _ _ (fun _ _ _ _ => Eff.noConfusion)))

theorem move (s : St) (e : Ev) : Move s (step s e) e := by
  have same : ∀ {s' : St}, s'.address = s.address → s'.nCtl = s.nCtl → s'.nSpawn = s.nSpawn → s'.ctl = s.ctl → s'.spawn = s.spawn → s'.out = s.out → Move s s' e :=
    fun a b c d e f => .quiet _ (.inert a b c d e f)
  cases e with
  | ctlMade p => simp only [step]; split <;> exact same rfl rfl rfl rfl rfl rfl
  | ctlLost p =>
    simp only [step]; split
    · unfold Vnic.ctlLost
      dsimp only
      have h1 : Quietly s { s with dumps := s.dumps.erase p } := .inert rfl rfl rfl rfl rfl rfl
      have h2 := Quietly.closes (closeAll_closes (s.ids p).vals { s with dumps := s.dumps.erase p })
      exact .quiet _ ((h1.trans h2).trans (.inert rfl rfl rfl rfl rfl rfl))
    · exact .quiet _ (.refl s)
  | openSocket p i r => simp only [step]; split; exact move_open s p i r; exact .quiet _ (.refl s)
  | closeSocket p i =>
    simp only [step]; split
    · unfold closeId
      split
      · exact .quiet _ (.refl s)
      · next c _ => exact .quiet _ ((Quietly.closes (close_good s c)).trans (.inert rfl rfl rfl rfl rfl rfl))
    · exact .quiet _ (.refl s)
  | startDump p => simp only [step]; split <;> exact same rfl rfl rfl rfl rfl rfl
  | stopDump p => exact same rfl rfl rfl rfl rfl rfl
  | rawWire p k d => simp only [step]; split; exact .quiet _ (.linkWrite _ _ _); exact .quiet _ (.refl s)
  | data k d => exact move_data s k d
  | connected n =>
    simp only [step]; split
    · exact .quiet _ (.setSpawn s n _ rfl rfl)
    · exact .quiet _ (.refl s)
  | failed n =>
    simp only [step]; split
    · exact .quiet _ ((Quietly.setSpawn s n { s.spawn n with stage := .finished, lost := true } rfl rfl).trans (.closes (close_good _ _)))
    · exact .quiet _ (.refl s)
  | finished n =>
    simp only [step]; split
    · next h => exact move_finished s n h.1
    · exact .quiet _ (.refl s)
  | lost n =>
    simp only [step]; split
    · refine .quiet _ ((Quietly.setSpawn s n { s.spawn n with lost := true } rfl rfl).trans ?_)
      unfold closeSpawned
      split
      · exact .closes (close_good.conn _ _)
      · exact .closes (close_good _ _)
    · exact .quiet _ (.refl s)
  | reverse n d => simp only [step]; split; exact .quiet _ (.linkWrite _ _ _); exact .quiet _ (.refl s)
  | linkUp => exact same rfl rfl rfl rfl rfl rfl
  | linkDown => exact same rfl rfl rfl rfl rfl rfl

/-- Sockets and callback connections stay what they are. -/
structure Lasts (s s' : St) : Prop where
  address : s'.address = s.address
  nCtl : s.nCtl ≤ s'.nCtl
  nSpawn : s.nSpawn ≤ s'.nSpawn
  ctl : ∀ c, c < s.nCtl → (s'.ctl c).connectionId = (s.ctl c).connectionId ∧ (s'.ctl c).listener = (s.ctl c).listener ∧
    (s'.ctl c).proto = (s.ctl c).proto ∧ (s'.ctl c).port = (s.ctl c).port
  spawn : ∀ n, n < s.nSpawn → (s'.spawn n).control = (s.spawn n).control ∧ (s'.spawn n).key = (s.spawn n).key
  out : s.out <+: s'.out

theorem Quietly.lasts {s s' : St} (h : Quietly s s') : Lasts s s' :=
  ⟨h.address, by rw [h.nCtl]; exact Nat.le_refl _, by rw [h.nSpawn]; exact Nat.le_refl _, fun c _ => h.ctl c, fun n _ => h.spawn n,
    by obtain ⟨l, e, _⟩ := h.out; exact ⟨l, e.symm⟩⟩

theorem Lasts.refl (s : St) : Lasts s s := (Quietly.refl s).lasts

theorem Lasts.trans {a b c : St} (h : Lasts a b) (h' : Lasts b c) : Lasts a c where
  address := h'.address.trans h.address
  nCtl := Nat.le_trans h.nCtl h'.nCtl
  nSpawn := Nat.le_trans h.nSpawn h'.nSpawn
  ctl := fun x hx => by
    obtain ⟨a1, a2, a3, a4⟩ := h.ctl x hx
    obtain ⟨b1, b2, b3, b4⟩ := h'.ctl x (Nat.lt_of_lt_of_le hx h.nCtl)
    exact ⟨b1.trans a1, b2.trans a2, b3.trans a3, b4.trans a4⟩
  spawn := fun n hn => ⟨(h'.spawn n (Nat.lt_of_lt_of_le hn h.nSpawn)).1.trans (h.spawn n hn).1,
    (h'.spawn n (Nat.lt_of_lt_of_le hn h.nSpawn)).2.trans (h.spawn n hn).2⟩
  out := h.out.trans h'.out

theorem lasts_newCtl (s : St) (p i : Nat) (l : Bool) : Lasts s (newCtl s p i l) :=
  ⟨rfl, Nat.le_succ _, Nat.le_refl _, fun c hc => by simp only [newCtl]; rw [upd_ne _ _ (by omega)]; exact ⟨rfl, rfl, rfl, rfl⟩,
    fun _ _ => ⟨rfl, rfl⟩, List.prefix_refl _⟩

theorem lasts_startSpawn (s : St) (c : Nat) (k : Key) : Lasts s (startSpawn s c k) :=
  ⟨rfl, Nat.le_refl _, Nat.le_succ _, fun c hc => ⟨rfl, rfl, rfl, rfl⟩,
    fun n hn => by simp only [startSpawn]; rw [upd_ne _ _ (by omega)]; exact ⟨rfl, rfl⟩, List.prefix_refl _⟩

theorem Lasts.setPort {s s' : St} (h : Lasts s s') (c q : Nat) (hc : s.nCtl ≤ c) : Lasts s (setPort s' c q) :=
  ⟨h.address, h.nCtl, h.nSpawn, fun x hx => by simp only [Vnic.setPort, St.setCtl]; rw [upd_ne _ _ (by omega)]; exact h.ctl x hx, h.spawn, h.out⟩

theorem Lasts.step (s : St) (e : Ev) : Lasts s (step s e) := by
  cases move s e with
  | quiet _ h => exact h.lasts
  | closed p i r l _ _ h => exact (lasts_newCtl s p i l).trans h.lasts
  | listens p i q h => exact ((lasts_newCtl s p i true).setPort _ _ (Nat.le_refl _)).trans h.lasts
  | connects p i dst dport q h =>
    exact (((lasts_newCtl s p i false).trans (lasts_startSpawn _ _ _)).setPort _ _ (Nat.le_refl _)).trans h.lasts
  | accepts k d c _ _ h => exact (lasts_startSpawn _ _ _).trans h.lasts
  | told n m _ h _ e =>
    rw [e]
    exact h.lasts.trans ⟨rfl, Nat.le_refl _, Nat.le_refl _, fun _ _ => ⟨rfl, rfl, rfl, rfl⟩, fun _ _ => ⟨rfl, rfl⟩, List.prefix_append _ _⟩

theorem Lasts.exec : ∀ (h : List Ev) (s : St), Lasts s (exec s h)
  | [], s => .refl s
  | e :: h, s => (Lasts.step s e).trans (Lasts.exec h _)

/-- The key of a callback connection is one for the request. -/
def Fits (a : Str) : Req → Key → Prop
  | .connect dst dport, k => k.source = a ∧ k.destination = dst ∧ k.destinationPort = dport
  | .listen p, k => k.sourcePort = p
  | .other, _ => False

/-- The socket is one for the request. -/
def Serves : Req → Ctl → Prop
  | .connect _ _, c => c.listener = false
  | .listen p, c => c.listener = true ∧ ∀ q, c.port = some q → q = p
  | .other, _ => False

structure Origin (h : List Ev) (s : St) : Prop where
  sock : ∀ c, c < s.nCtl → ∃ r, .openSocket (s.ctl c).proto (s.ctl c).connectionId r ∈ h ∧ Serves r (s.ctl c)
  spawn : ∀ n, n < s.nSpawn → (s.spawn n).control < s.nCtl ∧
    ∃ r, .openSocket (s.ctl (s.spawn n).control).proto (s.ctl (s.spawn n).control).connectionId r ∈ h ∧ Fits s.address r (s.spawn n).key
  told : ∀ p i t k, .announce p i t k ∈ s.out → t < s.nSpawn ∧ (s.ctl (s.spawn t).control).proto = p ∧
    (s.ctl (s.spawn t).control).connectionId = i ∧ (s.spawn t).key = k

theorem Origin.init (a : Str) : Origin [] (.init a) := ⟨nofun, nofun, nofun⟩

theorem Serves.congr {r : Req} {c c' : Ctl} (h : Serves r c) (e1 : c'.listener = c.listener) (e2 : c'.port = c.port) : Serves r c' := by
  cases r with
  | connect => exact e1.trans h
  | listen => exact ⟨e1.trans h.1, by rw [e2]; exact h.2⟩
  | other => exact h.elim

theorem Origin.quiet {h : List Ev} {s s' : St} (ho : Origin h s) (hq : Quietly s s') : Origin h s' where
  sock := fun c hc => by
    obtain ⟨r, h1, h2⟩ := ho.sock c (by rw [hq.nCtl] at hc; exact hc)
    obtain ⟨a1, a2, a3, a4⟩ := hq.ctl c
    exact ⟨r, by rw [a1, a3]; exact h1, h2.congr a2 a4⟩
  spawn := fun n hn => by
    obtain ⟨h0, r, h1, h2⟩ := ho.spawn n (by rw [hq.nSpawn] at hn; exact hn)
    obtain ⟨a1, a2, a3, a4⟩ := hq.ctl (s.spawn n).control
    obtain ⟨b1, b2⟩ := hq.spawn n
    rw [b1, b2, a1, a3, hq.address, hq.nCtl]
    exact ⟨h0, r, h1, h2⟩
  told := fun p i t k hm => by
    obtain ⟨l, e1, e2⟩ := hq.out
    rw [e1] at hm
    rcases List.mem_append.mp hm with hm | hm
    · obtain ⟨h0, h1, h2, h3⟩ := ho.told p i t k hm
      obtain ⟨a1, a2, a3, a4⟩ := hq.ctl (s.spawn t).control
      obtain ⟨b1, b2⟩ := hq.spawn t
      rw [b1, b2, a1, a3, hq.nSpawn]
      exact ⟨h0, h1, h2, h3⟩
    · exact absurd hm (e2 _ _ _ _)

theorem Origin.mono {h h' : List Ev} {s : St} (ho : Origin h s) (hh : ∀ e ∈ h, e ∈ h') : Origin h' s :=
  ⟨fun c hc => by obtain ⟨r, h1, h2⟩ := ho.sock c hc; exact ⟨r, hh _ h1, h2⟩,
   fun n hn => by obtain ⟨h0, r, h1, h2⟩ := ho.spawn n hn; exact ⟨h0, r, hh _ h1, h2⟩, ho.told⟩

/-- A new socket. -/
theorem Origin.newCtl {h : List Ev} {s : St} (ho : Origin h s) (p i : Nat) (l : Bool) (r : Req) (hr : .openSocket p i r ∈ h) (q : Option Nat)
    (hs : Serves r ⟨i, l, p, q, [], false⟩) : Origin h ((newCtl s p i l).setCtl s.nCtl ⟨i, l, p, q, [], false⟩) := by
  have hne : ∀ c, c < s.nCtl → ((Vnic.newCtl s p i l).setCtl s.nCtl ⟨i, l, p, q, [], false⟩).ctl c = s.ctl c := by
    intro c hc
    simp only [Vnic.newCtl, St.setCtl]
    rw [upd_ne _ _ (by omega), upd_ne _ _ (by omega)]
  refine ⟨?_, ?_, ?_⟩
  · intro c hc
    by_cases e : c = s.nCtl
    · subst e
      simp only [Vnic.newCtl, St.setCtl]
      rw [upd_self]
      exact ⟨r, hr, hs⟩
    · have hc' : c < s.nCtl + 1 := hc
      rw [hne c (by omega)]
      exact ho.sock c (by omega)
  · intro n hn
    obtain ⟨h0, x⟩ := ho.spawn n hn
    refine ⟨Nat.lt_succ_of_lt h0, ?_⟩
    rw [show ((Vnic.newCtl s p i l).setCtl s.nCtl ⟨i, l, p, q, [], false⟩).spawn = s.spawn from rfl, hne _ h0]
    exact x
  · intro p' i' t k hm
    obtain ⟨h0, x⟩ := ho.told p' i' t k hm
    refine ⟨h0, ?_⟩
    rw [show ((Vnic.newCtl s p i l).setCtl s.nCtl ⟨i, l, p, q, [], false⟩).spawn = s.spawn from rfl, hne _ (ho.spawn t h0).1]
    exact x

/-- A new callback connection. -/
theorem Origin.startSpawn {h : List Ev} {s : St} (ho : Origin h s) (c : Nat) (k : Key) (hc : c < s.nCtl)
    (hk : ∃ r, .openSocket (s.ctl c).proto (s.ctl c).connectionId r ∈ h ∧ Fits s.address r k) : Origin h (startSpawn s c k) := by
  refine ⟨ho.sock, ?_, ?_⟩
  · intro n hn
    have hn' : n < s.nSpawn + 1 := hn
    simp only [Vnic.startSpawn]
    by_cases e : n = s.nSpawn
    · subst e; rw [upd_self]; exact ⟨hc, hk⟩
    · rw [upd_ne _ _ e]; exact ho.spawn n (by omega)
  · intro p i t k' hm
    obtain ⟨h0, x⟩ := ho.told p i t k' hm
    simp only [Vnic.startSpawn]
    rw [upd_ne _ _ (by omega)]
    exact ⟨Nat.lt_succ_of_lt h0, x⟩

theorem Origin.step {h : List Ev} {s : St} (ho : Origin h s) (hi : Inv [] s) (e : Ev) : Origin (h ++ [e]) (step s e) := by
  have ho' : Origin (h ++ [e]) s := ho.mono (fun x hx => by simp [hx])
  cases move s e with
  | quiet _ hq => exact ho'.quiet hq
  | closed p i r l h1 h2 hq =>
    have := ho'.newCtl p i l r (by simp) none (by
      cases r with
      | connect => cases l with
        | false => rfl
        | true => obtain ⟨q, hq⟩ := h2.mp rfl; cases hq
      | listen q => exact ⟨h2.mpr ⟨q, rfl⟩, nofun⟩
      | other => exact absurd rfl h1)
    have e1 : (Vnic.newCtl s p i l).setCtl s.nCtl ⟨i, l, p, none, [], false⟩ = Vnic.newCtl s p i l := by
      simp only [Vnic.newCtl, St.setCtl]
      congr 1
      funext c
      unfold upd
      split <;> rfl
    rw [e1] at this
    exact this.quiet hq
  | listens p i q hq =>
    have := ho'.newCtl p i true (.listen q) (by simp) (some q) ⟨rfl, by simp⟩
    refine Origin.quiet ?_ hq
    unfold setPort
    rw [show (Vnic.newCtl s p i true).ctl s.nCtl = ⟨i, true, p, none, [], false⟩ by simp [Vnic.newCtl]]
    exact this
  | connects p i dst dport q hq =>
    have h1 := ho'.newCtl p i false (.connect dst dport) (by simp) (some q) rfl
    refine Origin.quiet ?_ hq
    have h2 := h1.startSpawn s.nCtl ⟨s.address, q, dst, dport⟩ (Nat.lt_succ_self _)
      ⟨.connect dst dport, by simp [Vnic.newCtl, St.setCtl], rfl, rfl, rfl⟩
    unfold setPort
    rw [show (Vnic.startSpawn (Vnic.newCtl s p i false) s.nCtl ⟨s.address, q, dst, dport⟩).ctl s.nCtl = ⟨i, false, p, none, [], false⟩ by simp [Vnic.newCtl, Vnic.startSpawn]]
    exact h2
  | accepts k d c h1 h2 hq =>
    refine Origin.quiet ?_ hq
    obtain ⟨g1, g2, _⟩ := hi.port1 _ _ h1
    obtain ⟨r, x1, x2⟩ := ho'.sock c g1
    refine ho'.startSpawn c _ g1 ⟨r, x1, ?_⟩
    cases r with
    | connect => exact absurd (h2.symm.trans x2) (by decide)
    | listen p => exact x2.2 _ g2
    | other => exact x2.elim
  | told n m hn hq _ he =>
    rw [he]
    have h1 := ho'.quiet hq
    refine ⟨h1.sock, h1.spawn, ?_⟩
    intro p i t k hm
    rcases List.mem_append.mp hm with hm | hm
    · exact h1.told p i t k hm
    · simp only [List.mem_singleton, Eff.announce.injEq] at hm
      obtain ⟨rfl, rfl, rfl, rfl⟩ := hm
      show t < m.nSpawn ∧ (m.ctl (m.spawn t).control).proto = _ ∧ (m.ctl (m.spawn t).control).connectionId = _ ∧ (m.spawn t).key = _
      rw [(hq.spawn t).1, (hq.spawn t).2, (hq.ctl _).1, (hq.ctl _).2.2.1, hq.nSpawn]
      exact ⟨hn, rfl, rfl, rfl⟩

theorem Origin.exec : ∀ (h' h : List Ev) {s : St}, Inv [] s → Origin h s → Origin (h ++ h') (exec s h')
  | [], h, s, _, ho => by rw [List.append_nil]; exact ho
  | e :: h', h, s, hi, ho => by
    have := Origin.exec h' (h ++ [e]) (hi.step e) (ho.step hi e)
    rwa [List.append_assoc] at this

theorem Origin.reachable (a : Str) (h : List Ev) : Origin h (Vnic.exec (.init a) h) := Origin.exec h [] (Inv.init a) (Origin.init a)

end Verif.Vnic
