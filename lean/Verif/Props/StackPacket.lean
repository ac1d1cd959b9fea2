import Verif.Props.StackRunEx
import Verif.Props.RoundTrip
import Verif.Props.Deser
/-! # C80: the usual layer, which sends data in Playground packets

```
def data_received(self, data):
    self.deserializer.update(data)
    for pkt in self.deserializer.nextPackets():
        self.higherProtocol().data_received(pkt.data)
class Transport(StackingTransport):
    def write(self, data):
        self.lowerTransport().write(Packet(data=data).__serialize__())
```
`PacketType.Deserializer` is that of Model/Deserializer.lean; `wrap` makes the packet, `unwrap` is `pkt.data`. Errors found by the Deserializer are ignored. -/
namespace Verif.StackRun
open Stack (Tgt Heap Path Factory attach layers flat)

/-- The Deserializer, and whether the last call of its generator gave something. -/
abbrev PSt := DState × Bool

structure Carrier where
  env : Verif.Env
  depth : Nat
  cls : Cls
  wrap : Bytes → Val
  unwrap : Val → Bytes

/-- The `for` loop over `nextPackets()` (PacketType.py:189-221); `n` bounds the number of rounds. -/
def recvLoop (C : Carrier) : Nat → Prog PSt
  | 0 => .ret none
  | n + 1 => .ins (fun s => match s.1.iter C.env (C.depth + 1) C.cls with
      | (some (.packet v), st) => ((st, true), some (.up (.data (C.unwrap v))))
      | (some (.error _), st) => ((st, true), none)
      | (none, st) => ((st, false), none)) fun e s => match e with
    | some e => .ret (some e)
    | none => if s.2 then recvLoop C n else .ret none

def packetLayer (C : Carrier) : Msg → PSt → Prog PSt
  | .up (.data d), _ => .ins (fun s => ((s.1.update d, false), none)) fun _ s => recvLoop C (s.1.buf.length + 1)
  | .up u, _ => .up u (.ret none)
  | .dn (.write d), _ => match serialize C.env 0 (C.wrap d) with
    | .ok b => .down (.write b) (.ret none)
    | .error _ => .ret (some (.own 0))
  | .dn m, _ => delegate m
  | .tick _, _ => .ret none

def packetInit (C : Carrier) : PSt := (.init C.env (C.depth + 1) C.cls, false)

/-- What can be written can be sent and received. -/
structure Carrier.Good (C : Carrier) : Prop where
  registered : C.env.Registered
  carries : ∀ d b, serialize C.env 0 (C.wrap d) = .ok b → Sendable C.env C.cls (C.wrap d) ∧ Decodes C.env (C.depth + 1) C.cls (ser C.env (C.wrap d)) (C.wrap d)
  unwraps : ∀ d, C.unwrap (C.wrap d) = d

def evBytes (C : Carrier) : Event → Bytes
  | .packet v => C.unwrap v
  | .error _ => []

/-- `ws` are the chunks that were written. -/
def PFlows (C : Carrier) (t : List LEv) (got passed : Bytes) (ws : List Bytes) : Prop :=
  Flows t got passed ws.flatten (ws.flatMap fun d => ser C.env (C.wrap d)) ∧ ∀ d ∈ ws, ∃ b, serialize C.env 0 (C.wrap d) = .ok b

theorem PFlows.append {C : Carrier} {a b : List LEv} {g g' p p' : Bytes} {ws ws' : List Bytes} (ha : PFlows C a g p ws) (hb : PFlows C b g' p' ws') :
    PFlows C (a ++ b) (g ++ g') (p ++ p') (ws ++ ws') := by
  refine ⟨?_, fun d hd => (List.mem_append.mp hd).elim (ha.2 d) (hb.2 d)⟩
  rw [List.flatten_append, List.flatMap_append]
  exact ha.1.append hb.1

theorem PFlows.one {C : Carrier} (e : LEv) (h1 : e.got = []) (h2 : e.passed = []) (h3 : e.wrote = []) (h4 : e.sent = []) : PFlows C [e] [] [] [] :=
  ⟨⟨by simp [h1], by simp [h2], by simp [h3], by simp [h4]⟩, by simp⟩

theorem packet_polite (C : Carrier) : Polite (packetLayer C) := fun d s => by
  cases d with
  | write d =>
    rw [packetLayer]
    split
    · refine ⟨fun _ _ => nofun, fun e _ => ?_⟩
      cases e <;> trivial
    · trivial
  | _ =>
    refine ⟨fun _ _ => nofun, fun e _ => ?_⟩
    cases e <;> trivial

/-- A call of the transport. -/
theorem packet_dn_one {C : Carrier} {m : Dn} {s s' : PSt} {t : List LEv} {r : Option Err} (h : CDoes (packetLayer C) (packetLayer C (.dn m) s) s t s' r)
    (hc : CleanL t) (hr : r = none) : s' = s ∧ ∃ ws, PFlows C (.inp (.dn m) :: t) [] [] ws := by
  have key : ∀ (m' : Dn), CDoes (packetLayer C) (.down m' (.ret none)) s t s' r → s' = s ∧ t = [.out (.down m'), .back none] := by
    intro m' h
    match h with
    | .quiet hf _ => cases hf
    | .up hf _ _ => cases hf
    | .down (r0 := r0) hf cd =>
      cases hf
      have hr : r0 = none := hc r0 (.inl (by simp))
      subst hr
      match cd with
      | .ret _ _ => exact ⟨rfl, rfl⟩
  cases m with
  | write d =>
    rw [packetLayer] at h
    split at h
    · next b hb =>
      obtain ⟨h1, rfl⟩ := key _ h
      refine ⟨h1, [d], ⟨rfl, rfl, by simp [LEv.wrote], ?_⟩, ?_⟩
      · simp [LEv.sent, ser, hb]
      · intro d' hd'
        rw [List.mem_singleton] at hd'
        exact ⟨b, hd' ▸ hb⟩
    · cases h
      cases hr
  | close =>
    obtain ⟨h1, rfl⟩ := key _ h
    exact ⟨h1, [], ⟨rfl, rfl, rfl, rfl⟩, by simp⟩
  | abort =>
    obtain ⟨h1, rfl⟩ := key _ h
    exact ⟨h1, [], ⟨rfl, rfl, rfl, rfl⟩, by simp⟩

theorem packet_dn {C : Carrier} {A : Msg → Prop} (hA : ∀ m, A m → IsDn m) {s s' : PSt} {t : List LEv} (h : Calm (packetLayer C) A s t s') (hc : CleanL t) :
    s' = s ∧ ∃ ws, PFlows C t [] [] ws := by
  match h with
  | .nil _ _ => exact ⟨rfl, [], ⟨rfl, rfl, rfl, rfl⟩, by simp⟩
  | .cons (t1 := t1) (t2 := t2) (r := r) hm cd e =>
    obtain ⟨d, hd⟩ := hA _ hm
    subst hd
    obtain ⟨h1, ws, h2⟩ := packet_dn hA e (hc.append.2.cons)
    have hr : r = none := hc r (.inr (by simp))
    obtain ⟨g1, ws', g2⟩ := packet_dn_one cd (hc.append.1.cons) hr
    exact ⟨h1.trans g1, _, g2.append ((PFlows.one (.done r) rfl rfl rfl rfl).append h2)⟩

theorem recvLoop_flows {C : Carrier} : ∀ (n : Nat) {s s' : PSt} {t : List LEv} {r : Option Err}, CDoes (packetLayer C) (recvLoop C n) s t s' r → CleanL t →
    r = none ∧ s'.1 = (nextLoop C.env (C.depth + 1) C.cls n s.1).2.1 ∧
      ∃ ws, PFlows C t [] ((nextLoop C.env (C.depth + 1) C.cls n s.1).1.flatMap (evBytes C)) ws
  | 0, _, _, _, _, h, _ => by
    match h with
    | .ret _ _ => exact ⟨rfl, rfl, [], ⟨rfl, rfl, rfl, rfl⟩, by simp⟩
  | n + 1, s, s', t, r, h, hc => by
    rcases hi : s.1.iter C.env (C.depth + 1) C.cls with ⟨_ | ev, st⟩
    · have hn : nextLoop C.env (C.depth + 1) C.cls (n + 1) s.1 = ([], st, true) := by rw [nextLoop, hi]
      rw [hn]
      match h with
      | .quiet hf cd =>
        rw [hi] at hf
        cases hf
        match cd with
        | .ret _ _ => exact ⟨rfl, rfl, [], ⟨rfl, rfl, rfl, rfl⟩, by simp⟩
      | .up hf _ _ => rw [hi] at hf; cases hf
      | .down hf _ => rw [hi] at hf; cases hf
    · have hn : nextLoop C.env (C.depth + 1) C.cls (n + 1) s.1 = (ev :: (nextLoop C.env (C.depth + 1) C.cls n st).1, (nextLoop C.env (C.depth + 1) C.cls n st).2) := by
        rw [nextLoop, hi]
      rw [hn]
      cases ev with
      | packet v =>
        match h with
        | .quiet hf _ => rw [hi] at hf; cases hf
        | .down hf _ => rw [hi] at hf; cases hf
        | .up (r0 := r0) (t1 := t1) (t2 := t2) hf e cd =>
          rw [hi] at hf
          cases hf
          have hr : r0 = none := hc r0 (.inl (by simp))
          subst hr
          obtain ⟨h1, ws, h2⟩ := packet_dn (fun _ h => h) e (hc.append.1.cons)
          subst h1
          obtain ⟨g1, g2, ws', g3⟩ := recvLoop_flows n cd (hc.append.2.cons)
          refine ⟨g1, g2, ws ++ ws', ?_⟩
          have h0 : PFlows C [.out (.up (.data (C.unwrap v)))] [] (C.unwrap v) [] := ⟨⟨rfl, by simp [LEv.passed], rfl, rfl⟩, by simp⟩
          have := (h0.append h2).append ((PFlows.one (.back none) rfl rfl rfl rfl).append g3)
          simpa [List.flatMap_cons, evBytes] using this
      | error x =>
        match h with
        | .quiet hf cd =>
          rw [hi] at hf
          cases hf
          exact recvLoop_flows n cd hc
        | .up hf _ _ => rw [hi] at hf; cases hf
        | .down hf _ => rw [hi] at hf; cases hf

/-- The calls of the Deserializer for the chunks `ds`. -/
def opsOf (ds : List Bytes) : List DOp := ds.flatMap fun d => [.update d, .next]

theorem received_opsOf : ∀ ds : List Bytes, received (opsOf ds) = ds.flatten
  | [] => rfl
  | d :: ds => by
    show d ++ received (opsOf ds) = d ++ ds.flatten
    rw [received_opsOf ds]

theorem passUp_packet {C : Carrier} (u : Up) (hu : ∀ d, u ≠ .data d) {s s' : PSt} {t : List LEv} {r : Option Err}
    (h : CDoes (packetLayer C) (.up u (.ret none)) s t s' r) (hc : CleanL t) : s' = s ∧ ∃ ws, PFlows C t [] [] ws := by
  match h with
  | .quiet hf _ => cases hf
  | .down hf _ => cases hf
  | .up (r0 := r0) hf e cd =>
    cases hf
    have hr : r0 = none := hc r0 (.inl (by simp))
    subst hr
    obtain ⟨h1, ws, h2⟩ := packet_dn (fun _ h => h) e (hc.append.1.cons)
    match cd with
    | .ret _ _ =>
      have h0 : PFlows C [.out (.up u)] [] [] [] := ⟨⟨rfl, by cases u <;> simp_all [LEv.passed], rfl, rfl⟩, by simp⟩
      exact ⟨h1, _, (h0.append h2).append (PFlows.one (.back none) rfl rfl rfl rfl)⟩

/-- The history of the layer is one of its Deserializer. -/
theorem packet_flows {C : Carrier} {A : Msg → Prop} {s s' : PSt} {t : List LEv} (h : Calm (packetLayer C) A s t s') (hc : CleanL t) :
    ∃ ds ws, s'.1 = (runOps C.env (C.depth + 1) C.cls s.1 (opsOf ds)).2 ∧
      PFlows C t ds.flatten ((runOps C.env (C.depth + 1) C.cls s.1 (opsOf ds)).1.flatMap (evBytes C)) ws := by
  match h with
  | .nil _ _ => exact ⟨[], [], rfl, ⟨rfl, rfl, rfl, rfl⟩, by simp⟩
  | .cons (m := m) (t1 := t1) (s1 := s1) (r := r) (t2 := t2) _ cd e =>
    obtain ⟨ds, ws, h1, h2⟩ := packet_flows e (hc.append.2.cons)
    have hc1 : CleanL t1 := hc.append.1.cons
    have hr : r = none := hc r (.inr (by simp))
    have hdone := (PFlows.one (C := C) (.done r) rfl rfl rfl rfl).append h2
    have easy : s1 = s → (∃ ws', PFlows C (.inp m :: t1) [] [] ws') → ∃ ds ws, s'.1 = (runOps C.env (C.depth + 1) C.cls s.1 (opsOf ds)).2 ∧
        PFlows C (.inp m :: t1 ++ .done r :: t2) ds.flatten ((runOps C.env (C.depth + 1) C.cls s.1 (opsOf ds)).1.flatMap (evBytes C)) ws := by
      intro hs hw
      obtain ⟨ws', hw⟩ := hw
      subst hs
      exact ⟨ds, _, h1, hw.append hdone⟩
    cases m with
    | tick k =>
      match cd with
      | .ret _ _ => exact easy rfl ⟨[], ⟨rfl, rfl, rfl, rfl⟩, by simp⟩
    | dn m =>
      obtain ⟨g1, ws', g2⟩ := packet_dn_one cd hc1 hr
      exact easy g1 ⟨ws', g2⟩
    | up u =>
      cases u with
      | made =>
        obtain ⟨g1, ws', g2⟩ := passUp_packet .made nofun cd hc1
        exact easy g1 ⟨_, (PFlows.one (C := C) (.inp (.up .made)) rfl rfl rfl rfl).append g2⟩
      | lost =>
        obtain ⟨g1, ws', g2⟩ := passUp_packet .lost nofun cd hc1
        exact easy g1 ⟨_, (PFlows.one (C := C) (.inp (.up .lost)) rfl rfl rfl rfl).append g2⟩
      | data d =>
        match cd with
        | .up hf _ _ => cases hf
        | .down hf _ => cases hf
        | .quiet hf cd' =>
          cases hf
          obtain ⟨_, g2, ws', g3⟩ := recvLoop_flows _ cd' hc1
          have hst : (nextLoop C.env (C.depth + 1) C.cls ((s.1.update d).buf.length + 1) (s.1.update d)) = (s.1.update d).next C.env (C.depth + 1) C.cls := rfl
          rw [hst] at g2 g3
          have hrun : runOps C.env (C.depth + 1) C.cls s.1 (opsOf (d :: ds)) =
              (((s.1.update d).next C.env (C.depth + 1) C.cls).1 ++ (runOps C.env (C.depth + 1) C.cls s1.1 (opsOf ds)).1,
                (runOps C.env (C.depth + 1) C.cls s1.1 (opsOf ds)).2) := by
            rw [g2]
            rfl
          refine ⟨d :: ds, ws' ++ ws, ?_, ?_⟩
          · rw [hrun]
            exact h1
          · rw [hrun]
            have h0 : PFlows C [.inp (.up (.data d))] d [] [] := ⟨⟨by simp [LEv.got], rfl, rfl, rfl⟩, by simp⟩
            have := (h0.append g3).append hdone
            simpa [List.flatMap_append] using this

theorem opsOf_last : ∀ {ds : List Bytes}, ds ≠ [] → ∃ ops, opsOf ds = ops ++ [.next]
  | [d], _ => ⟨[.update d], rfl⟩
  | d :: d' :: ds, _ => by
    obtain ⟨ops, h⟩ := opsOf_last (ds := d' :: ds) nofun
    exact ⟨.update d :: .next :: ops, by show _ :: _ :: opsOf (d' :: ds) = _; rw [h]; rfl⟩

theorem received_append_next (ops : List DOp) : received (ops ++ [.next]) = received ops := by
  induction ops with
  | nil => rfl
  | cons o ops ih => cases o <;> simp [received, ih]

theorem unwrap_packets {C : Carrier} (hC : C.Good) : ∀ ws : List Bytes, ((ws.map C.wrap).map Event.packet).flatMap (evBytes C) = ws.flatten
  | [] => rfl
  | d :: ws => by
    simp only [List.map_cons, List.flatMap_cons, List.flatten_cons, evBytes, hC.unwraps]
    rw [unwrap_packets hC ws]

/-- C80. The packet layer keeps "a prefix of": whatever part of the bytes has arrived, cut in any way, the data passed up is a prefix of what was written. -/
theorem C80_packet_prefix {C : Carrier} (hC : C.Good) : KeepsCalm (· <+: ·) (packetLayer C) (packetInit C) (packetLayer C) (packetInit C) := by
  have one : ∀ {la lb sa sb}, Calm (packetLayer C) (fun _ => True) (packetInit C) la sa → Calm (packetLayer C) (fun _ => True) (packetInit C) lb sb →
      CleanL la → CleanL lb → lb.flatMap LEv.got <+: la.flatMap LEv.sent → lb.flatMap LEv.passed <+: la.flatMap LEv.wrote := by
    intro la lb sa sb ha hb ca cb hr
    obtain ⟨_, ws, _, ⟨_, _, a3, a4⟩, a5⟩ := packet_flows ha ca
    obtain ⟨ds, _, _, ⟨b1, b2, _, _⟩, _⟩ := packet_flows hb cb
    rw [b1, a4] at hr
    rw [b2, a3]
    obtain ⟨fut, hfut⟩ := hr
    have hrec : received (opsOf ds) ++ fut = (ws.map C.wrap).flatMap (ser C.env) := by
      rw [received_opsOf, hfut, List.flatMap_map]
    obtain ⟨⟨k, _, hk⟩, _⟩ := C02_C03_prefix hC.registered (ws.map C.wrap) (fun p hp => by
      obtain ⟨d, hd, rfl⟩ := List.mem_map.mp hp
      obtain ⟨b, hb⟩ := a5 d hd
      exact hC.carries d b hb) (opsOf ds) fut hrec
    have hk' : (runOps C.env (C.depth + 1) C.cls (packetInit C).1 (opsOf ds)).1 = ((ws.map C.wrap).take k).map .packet := hk
    rw [hk', ← List.map_take, unwrap_packets hC]
    refine ⟨(ws.drop k).flatten, ?_⟩
    rw [← List.flatten_append, List.take_append_drop]
  intro la lb sa sb ha hb ca cb r1 r2
  exact ⟨one ha hb ca cb r1, one hb ha cb ca r2⟩

/-- C80. The packet layer keeps "the same bytes": when all bytes have arrived, cut in any way, all data has been passed up. -/
theorem C80_packet_all {C : Carrier} (hC : C.Good) : KeepsCalm (· = ·) (packetLayer C) (packetInit C) (packetLayer C) (packetInit C) := by
  have one : ∀ {la lb sa sb}, Calm (packetLayer C) (fun _ => True) (packetInit C) la sa → Calm (packetLayer C) (fun _ => True) (packetInit C) lb sb →
      CleanL la → CleanL lb → lb.flatMap LEv.got = la.flatMap LEv.sent → lb.flatMap LEv.passed = la.flatMap LEv.wrote := by
    intro la lb sa sb ha hb ca cb hr
    obtain ⟨_, ws, _, ⟨_, _, a3, a4⟩, a5⟩ := packet_flows ha ca
    obtain ⟨ds, _, _, ⟨b1, b2, _, _⟩, _⟩ := packet_flows hb cb
    rw [b1, a4] at hr
    rw [b2, a3]
    have hps : ∀ p ∈ ws.map C.wrap, Sendable C.env C.cls p ∧ Decodes C.env (C.depth + 1) C.cls (ser C.env p) p := fun p hp => by
      obtain ⟨d, hd, rfl⟩ := List.mem_map.mp hp
      obtain ⟨b, hb⟩ := a5 d hd
      exact hC.carries d b hb
    have hser : ds.flatten = (ws.map C.wrap).flatMap (ser C.env) := by rw [hr, List.flatMap_map]
    show (runOps C.env (C.depth + 1) C.cls (.init C.env (C.depth + 1) C.cls) (opsOf ds)).1.flatMap (evBytes C) = _
    by_cases hds : ds = []
    · subst hds
      have h1 := C02_any_chunking hC.registered (ws.map C.wrap) hps [] (by rw [← hser]; rfl)
      have h2 := C51_events_bounded C.env C.depth C.cls [.next]
      rw [show [DOp.next] = [] ++ [DOp.next] from rfl, h1] at h2
      have hlen : ws.length = 0 := by simpa [received] using h2
      have : ws = [] := List.length_eq_zero_iff.mp hlen
      subst this
      rfl
    · obtain ⟨ops, hops⟩ := opsOf_last hds
      have h1 := C02_any_chunking hC.registered (ws.map C.wrap) hps ops (by rw [← received_append_next, ← hops, received_opsOf, hser])
      rw [hops, h1, unwrap_packets hC]
  intro la lb sa sb ha hb ca cb r1 r2
  exact ⟨one ha hb ca cb r1, one hb ha cb ca r2⟩

/-! ## A packet class with one BUFFER field -/

/-- `class Data(PacketType): DEFINITION_IDENTIFIER = ...; DEFINITION_VERSION = ...; FIELDS = [("data", BUFFER)]`; `Data(data=d)` and `pkt.data`. -/
def dataCarrier (env : Verif.Env) (depth : Nat) (cls : Cls) : Carrier where
  env := env
  depth := depth
  cls := cls
  wrap := fun d => .packet cls (.set (.buf d) .nil)
  unwrap := fun v => match v with
    | .packet _ (.set (.buf d) _) => d
    | _ => []

/-- Every such class is good. -/
theorem dataCarrier_good {env : Verif.Env} (hr : env.Registered) (depth : Nat) {cls : Cls} {ident ver : Str} {nm : String} {tg : Option Nat} {opt : Bool}
    (hd : env.classDef cls = some ⟨ident, ver, .cons nm tg opt .buf .nil⟩) (hs : env.isSub cls cls = true) : (dataCarrier env depth cls).Good where
  registered := hr
  carries := fun d b hb => by
    have h : Sendable env cls (.packet cls (.set (.buf d) .nil)) := by
      refine ⟨?_, b, hb⟩
      simp [accepts, hd, hs, acceptsF]
    exact ⟨h, C01_roundtrip_flat_partial hr h rfl rfl⟩
  unwraps := fun _ => rfl

def dataEnv : Verif.Env where
  classDef := fun c => if c = 1 then some ⟨"d".toList, "1.0".toList, .cons "data" none false .buf .nil⟩ else none
  isSub := fun c b => b == 0 || b == c
  lookup := fun _ name v => if name = "d".toList ∧ v = ⟨1, 0⟩ then .ok (some 1) else .ok none

theorem dataEnv_good : (dataCarrier dataEnv 1 1).Good := by
  refine dataCarrier_good ?_ 1 (cls := 1) (ident := "d".toList) (ver := "1.0".toList) (nm := "data") (tg := none) (opt := false) rfl rfl
  intro cls d base h _
  unfold dataEnv at h
  dsimp only at h
  split at h
  · cases h; next hc => subst hc; exact ⟨⟨1, 0⟩, by decide, rfl⟩
  · cases h

/-- The stack that is meant: two packet layers; the application writes when it is told to, and once when it receives. -/
def packetCfg : Cfg PSt where
  layer := fun _ => packetLayer (dataCarrier dataEnv 1 1)
  app := fun m _ => match m with
    | .tick _ => writelines (.ret none) [[104], [105, 106]]
    | .up (.data d) => if d = [105, 106] then .down (.write [7]) (.ret none) else .ret none
    | _ => .ret none
  depth := 20

/-- C80 for stacks of packet layers: whatever the applications do, and in whatever chunks the bytes arrive, each application has got a prefix of what the
other has written; and all of it if all bytes have arrived. -/
theorem C80_packet_stack {A A' B B' : Heap} {a b : Nat} {fa fb : Option Factory} {lowA lowB : Tgt} (ha : a < A.n) (hb : b < B.n)
    (hA : attach A a fa = .ok (A', lowA)) (hB : attach B b fb = .ok (B', lowB)) (hlen : (layers fa).length = (layers fb).length)
    (C : Nat → Carrier) (hC : ∀ k, (C k).Good) (hsame : ∀ k k', (some k, some k') ∈ (layers fa).zip (layers fb) → C k = C k')
    (appA appB : Msg → PSt → Prog PSt) (da db : Nat) :
    ∃ os ps, os.map (fun o => some (A'.kind o)) = layers fa ∧ ps.map (fun o => some (B'.kind o)) = layers fb ∧
      ∀ initA initB, (∀ o ∈ os, initA (.obj o) = packetInit (C (A'.kind o))) → (∀ o ∈ ps, initB (.obj o) = packetInit (C (B'.kind o))) →
        ∀ hista histb, Ticks os hista → Ticks ps histb →
        ∀ la lb, la = (acts A' ⟨fun k => packetLayer (C k), appA, da⟩ a (.start initA) hista).log →
          lb = (acts B' ⟨fun k => packetLayer (C k), appB, db⟩ b (.start initB) histb).log → Clean la → Clean lb →
          (fed histb <+: onWire la → fed hista <+: onWire lb → appGot lb <+: appWrote la ∧ appGot la <+: appWrote lb) ∧
          (fed histb = onWire la → fed hista = onWire lb → appGot lb = appWrote la ∧ appGot la = appWrote lb) := by
  have hp : ∀ k, Polite (packetLayer (C k)) := fun k => packet_polite _
  obtain ⟨os, a1, a2⟩ := attach_chain ha hA
  obtain ⟨ps, b1, b2⟩ := attach_chain hb hB
  refine ⟨os, ps, a1, b1, fun initA initB hia hib hista histb hTa hTb la lb hla hlb cla clb => ?_⟩
  have key : ∀ R : Bytes → Bytes → Prop, (∀ k, KeepsCalm R (packetLayer (C k)) (packetInit (C k)) (packetLayer (C k)) (packetInit (C k))) →
      R (fed histb) (onWire la) → R (fed hista) (onWire lb) → R (appGot lb) (appWrote la) ∧ R (appGot la) (appWrote lb) := by
    intro R hR r1 r2
    refine compose a2 b2 (len_kinds a1 b1 hlen) ⟨fun k => packetLayer (C k), appA, da⟩ ⟨fun k => packetLayer (C k), appB, db⟩ initA initB hTa hTb hla hlb cla clb
      (fun k l => ∃ s, Calm (packetLayer (C k)) (fun _ => True) (packetInit (C k)) l s)
      (fun k l => ∃ s, Calm (packetLayer (C k)) (fun _ => True) (packetInit (C k)) l s)
      (fun o ho => hia o ho ▸ calm_of a2 _ (fun o _ => hp _) initA hTa hla o ho)
      (fun o ho => hib o ho ▸ calm_of b2 _ (fun o _ => hp _) initB hTb hlb o ho) ?_ r1 r2
    intro x hx la lb ⟨_, h1⟩ ⟨_, h2⟩
    have hx' := hsame _ _ (by rw [← a1, ← b1]; exact zip_kinds hx)
    rw [← hx'] at h2
    exact hR _ la lb _ _ h1 h2
  exact ⟨key _ fun k => C80_packet_prefix (hC k), key _ fun k => C80_packet_all (hC k)⟩

/-- A case: the bytes of the two layers arrive in three chunks, cut inside packets. -/
example : (∀ k : Nat, ((fun _ => dataCarrier dataEnv 1 1) k).Good) ∧
    attach heap1 0 (some (flat [1, 2])) = .ok (attached (some (flat [1, 2])), .obj 1) ∧
    (let H := attached (some (flat [1, 2]))
     let i : Tgt → PSt := fun _ => packetInit (dataCarrier dataEnv 1 1)
     let s := acts H packetCfg 0 (.start i) [.wire .made, .tick .app 0]
     let out := onWire s.log
     let s' := acts H packetCfg 0 (.start i) [.wire .made, .wire (.data (out.take 30)), .wire (.data ((out.drop 30).take 100))]
     let s'' := acts H packetCfg 0 s' [.wire (.data (out.drop 130))]
     let t := acts H packetCfg 0 s [.wire (.data (onWire s''.log))]
     appWrote s.log = [104, 105, 106] ∧ out.length = 139 ∧ appGot s'.log = [104] ∧ appGot s''.log = [104, 105, 106] ∧ appGot t.log = [7]) :=
  ⟨fun _ => dataEnv_good, rfl, by decide +kernel⟩

end Verif.StackRun
