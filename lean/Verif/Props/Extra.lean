import Verif.Lemmas.Extra
import Verif.Props.AppsEx
/-! # C83: the addresses that applications see -/
namespace Verif.Extra
open Verif.Cli (Kind)

section
variable {V : Type}

/-- C83. A `StackingTransport` made without `extra` says what the transport below says about `sockname`, `peername` and `spawnport`, and nothing about anything
else. -/
theorem C83_inherits {s : St V} (hs : Reached s) {low : Nat} (hl : low < s.nTr) (name : Str) (dflt : Option V) :
    (s.stack low none).ask s.nTr name dflt = if name ∈ names then s.ask low name none else dflt := (ask_stack_none hs.wf hl name dflt).1

/-- C83. With a dictionary, what this says comes first; the three names that it lacks, or for which it has `None`, come from below. -/
theorem C83_own {s : St V} {low d : Nat} (hl : low < s.nTr) (name : Str) (dflt : Option V) :
    (s.stack low (some d)).ask s.nTr name dflt =
      if name ∈ names ∧ ((s.dict d).get name).getD none = none then s.ask low name none else ((s.dict d).get name).getD dflt := by
  rw [ask_stack hl]
  have e : ((s.newTr (some low) d).tr s.nTr).extra = d := by simp [St.newTr]
  have e' : (s.newTr (some low) d).ask s.nTr name dflt = ((s.dict d).get name).getD dflt := by unfold St.ask; rw [e]; rfl
  rw [e, e']
  simp

/-- C83. Through any number of layers, the three names are those of the lowest transport. -/
theorem C83_layers {s : St V} (hs : Reached s) {t : Nat} (ht : t < s.nTr) (n : Nat) {name : Str} (hn : name ∈ names) :
    ((s.layers t n).1).ask ((s.layers t n).2) name none = s.ask t name none := layers_ask n hs.wf ht hn none rfl

/-- C83. What a transport says does not change unless somebody writes into its dictionary, or gives this to another `StackingTransport`. -/
theorem C83_keeps {s : St V} (hs : Reached s) {t : Nat} (ht : t < s.nTr) : (h : List (Ev V)) → (∀ e ∈ h, ¬ Touches (s.tr t).extra e) → (name : Str) → (dflt : Option V) →
    (s.exec h).ask t name dflt = s.ask t name dflt
  | [], _, _, _ => rfl
  | e :: h, he, name, dflt => by
    obtain ⟨h1, h2, h3⟩ := step_keeps hs.wf ht e (he e (by simp))
    have hs' : Reached (s.step e) := by
      obtain ⟨h0, rfl⟩ := hs
      exact ⟨h0 ++ [e], (exec_append h0 [e] _).symm⟩
    have := C83_keeps hs' h1 h (fun e' hm => by rw [h2]; exact he e' (by simp [hm])) name dflt
    exact this.trans (h3 name dflt)

/-- The hypotheses hold: a TCP transport with two names, a `StackingTransport` with a dictionary on it, another one without, and then events that do not touch. -/
example : ∃ s : St Nat, Reached s ∧ 2 < s.nTr ∧ s.ask 2 "peername".toList none = some 5 ∧ s.ask 2 "sockname".toList none = some 7 ∧ s.ask 2 "socket".toList (some 3) = some 3 ∧
    ∀ e ∈ ([.base [], .dict [], .put 1 "sockname".toList none, .stack 0 none] : List (Ev Nat)), ¬ Touches (s.tr 2).extra e :=
  ⟨St.exec .init [.base [("peername".toList, some 4), ("sockname".toList, some 7), ("socket".toList, some 9)], .dict [("peername".toList, some 5)], .stack 0 (some 1), .stack 1 none], ⟨_, rfl⟩,
    by decide, by decide +kernel, by decide +kernel, by decide +kernel, by
      have e : (((St.exec .init [.base [("peername".toList, some 4), ("sockname".toList, some 7), ("socket".toList, some 9)], .dict [("peername".toList, some 5)], .stack 0 (some 1), .stack 1 none] : St Nat).tr 2).extra) = 2 := by decide +kernel
      rw [e]
      simp [Touches]⟩

/-- C83 is false if a dictionary is used twice: the second transport says what is true of the first. -/
theorem C83_false_shared : ∃ h : List (Ev Nat), (St.exec .init h).ask 0 "peername".toList none = some 4 ∧ (St.exec .init h).ask 1 "peername".toList none = some 5 ∧
    (St.exec .init (h ++ [.dict [], .stack 0 (some 2), .stack 1 (some 2)])).ask 3 "peername".toList none = some 4 :=
  ⟨[.base [("peername".toList, some 4)], .base [("peername".toList, some 5)]], by decide +kernel, by decide +kernel, by decide +kernel⟩

/-- C83 is false for the default: where the transport below does not know a name, `get_extra_info` returns `None`, not the default it was given. -/
theorem C83_false_default : (St.exec .init [.base []] : St Nat).ask 0 "peername".toList (some 1) = some 1 ∧
    (St.exec .init [.base [], .stack 0 none] : St Nat).ask 1 "peername".toList (some 1) = none := by decide +kernel

/-- C83 is false for what comes later: names that the transport below learns are not passed on. -/
theorem C83_false_late : (St.exec .init [.base [], .stack 0 none, .put 0 "peername".toList (some 1)] : St Nat).ask 0 "peername".toList none = some 1 ∧
    (St.exec .init [.base [], .stack 0 none, .put 0 "peername".toList (some 1)] : St Nat).ask 1 "peername".toList none = none := by decide +kernel

end

theorem Reached.newDict {V : Type} {s : St V} (hs : Reached s) (d : Info V) : Reached (s.newDict d) := by
  obtain ⟨h, rfl⟩ := hs
  refine ⟨h ++ [.dict d], ?_⟩
  rw [exec_append]
  rfl

/-- The transport of a callback protocol gives the addresses of the announcement. -/
theorem appAsk_eq {side : Host.Side} {m : Nat} {k : Vnic.Key} (hk : side.info m = some k) : Sees side m (k.source, k.sourcePort) (k.destination, k.destinationPort) := by
  intro s t layers dflt hs ht
  have hw := (hs.newDict (played k (side.con.cb.proto m).port)).wf
  have hd : s.nDict < (s.newDict (played k (side.con.cb.proto m).port)).nDict := Nat.lt_succ_self _
  have ht' : t < (s.newDict (played k (side.con.cb.proto m).port)).nTr := ht
  have e0 : (s.newDict (played k (side.con.cb.proto m).port)).dict s.nDict = played k (side.con.cb.proto m).port := by simp [St.newDict]
  have key : ∀ name v, name ∈ names → (played k (side.con.cb.proto m).port).get name = some (some v) → appAsk side m s t layers name dflt = some v := by
    intro name v hn hv
    unfold appAsk
    rw [hk]
    dsimp only
    have hp : ∀ d, (s.play t k (side.con.cb.proto m).port).ask s.nTr name d = some v := by
      intro d
      have := C83_own (d := s.nDict) ht' name d
      rw [e0, hv] at this
      simp at this
      exact this
    have hw' : (s.play t k (side.con.cb.proto m).port).WF := hw.stack t s.nDict hd
    have hlt : s.nTr < (s.play t k (side.con.cb.proto m).port).nTr := by
      rw [show (s.play t k (side.con.cb.proto m).port).nTr = _ from (stack_some _ t s.nDict).1]; exact Nat.lt_succ_self _
    rw [layers_ask layers hw' hlt hn dflt ((hp dflt).trans (hp none).symm)]
    exact hp none
  exact ⟨key _ _ (by simp [names]) rfl, key _ _ (by simp [names]) rfl⟩

/-- C83. In every history of a process and its VNIC: an application sees the addresses of the socket that its connection has at the VNIC. -/
theorem C83_app (want : Nat → Str × Nat) (a : Str) (h : List Host.Ev) (f n m : Nat) (hp : (Host.exec want (.init a) h).side.peer n = some m)
    (hr : Connect.RunsFor (Host.exec want (.init a) h).side.con m f) :
    Sees (Host.exec want (.init a) h).side m
      (((Host.exec want (.init a) h).vnic.spawn n).key.source, ((Host.exec want (.init a) h).vnic.spawn n).key.sourcePort)
      (((Host.exec want (.init a) h).vnic.spawn n).key.destination, ((Host.exec want (.init a) h).vnic.spawn n).key.destinationPort) := by
  obtain ⟨hc, hi⟩ := Host.Inv.reachable want a h
  obtain ⟨c, id, k, h1, h2⟩ := hi.info m f hr
  have h3 := (hi.peer n m hp).2.2.2
  rw [h3] at h1
  rw [(hi.vo.told _ _ _ _ h1).2.2.2]
  exact appAsk_eq h2

/-- C83. The application of a `create_connection` sees the address and port that the call gave as those of the other side, and the address of the VNIC as its own. -/
theorem C83_client (want : Nat → Str × Nat) (a : Str) (h : List Host.Ev) (f n m : Nat) (hp : (Host.exec want (.init a) h).side.peer n = some m)
    (hr : Connect.RunsFor (Host.exec want (.init a) h).side.con m f) (hk : ((Host.exec want (.init a) h).side.con.call f).kind = .connect) :
    Sees (Host.exec want (.init a) h).side m (a, ((Host.exec want (.init a) h).vnic.spawn n).key.sourcePort) (want f) := by
  have h1 := C83_app want a h f n m hp hr
  have h2 := (Host.C64_pair want a h f n ⟨m, hp, hr⟩).2.2
  rw [hk] at h2
  obtain ⟨e1, e2, e3⟩ := h2
  rw [e1, e2, e3] at h1
  exact h1

/-- C83. An application of a `create_server` sees the port that the call gave as its own. -/
theorem C83_server (want : Nat → Str × Nat) (a : Str) (h : List Host.Ev) (f n m : Nat) (hp : (Host.exec want (.init a) h).side.peer n = some m)
    (hr : Connect.RunsFor (Host.exec want (.init a) h).side.con m f) (hk : ((Host.exec want (.init a) h).side.con.call f).kind = .listen) :
    ∃ own other, Sees (Host.exec want (.init a) h).side m (own, (want f).2) other := by
  have h1 := C83_app want a h f n m hp hr
  have h2 := (Host.C64_pair want a h f n ⟨m, hp, hr⟩).2.2
  rw [hk] at h2
  rw [show _ = (want f).2 from h2] at h1
  exact ⟨_, _, h1⟩

/-- The hypotheses hold: the client of C64, and the server with its two applications. -/
example : Sees (Host.exec Host.wants (.init "1.1.1.1".toList) Host.client).side 0 ("1.1.1.1".toList, 2000) ("2.2.2.2".toList, 80) := by
  have := C83_client Host.wants "1.1.1.1".toList Host.client 0 0 0 (by decide +kernel) ⟨.connect, by decide +kernel⟩ (by decide +kernel)
  rw [show ((Host.exec Host.wants (.init "1.1.1.1".toList) Host.client).vnic.spawn 0).key.sourcePort = 2000 by decide +kernel] at this
  exact this

example : Sees (Host.exec Host.wants (.init "2.2.2.2".toList) Host.server).side 0 ("2.2.2.2".toList, 80) ("1.1.1.1".toList, 2000) := by
  have := C83_app Host.wants "2.2.2.2".toList Host.server 0 0 0 (by decide +kernel) ⟨.listen, by decide +kernel⟩
  rw [show ((Host.exec Host.wants (.init "2.2.2.2".toList) Host.server).vnic.spawn 0).key = Host.sock0.inverse by decide +kernel] at this
  exact this

end Verif.Extra

namespace Verif.Apps
section
variable {c : Link.Classes} {want : Nat → Nat → Str × Nat} {addr : Nat → Str}

theorem sees (h : List Ev) {v n m f : Nat} (hp : (((World.init addr).exec c want h).side v).peer n = some m) (hr : Connect.RunsFor (((World.init addr).exec c want h).side v).con m f) :
    Extra.Sees (((World.init addr).exec c want h).side v) m
      (((((World.init addr).exec c want h).net.vnic v).spawn n).key.source, ((((World.init addr).exec c want h).net.vnic v).spawn n).key.sourcePort)
      (((((World.init addr).exec c want h).net.vnic v).spawn n).key.destination, ((((World.init addr).exec c want h).net.vnic v).spawn n).key.destinationPort) := by
  have e := host_exec c want v h (World.init addr)
  have := Extra.C83_app (want v) (addr v) (hostHist c want v (.init addr) h) f n m
  rw [show Host.St.init (addr v) = (World.init addr).host v from rfl, ← e] at this
  exact this hp hr

/-- C83. The two applications of a connection see the same addresses, the other way round. -/
theorem C83_mirror {h1 h2 : List Ev} {a n b m p q f g : Nat} {k : Vnic.Key} (hs : Setting c want addr h1 h2 a n b m k)
    (hp : (((World.init addr).exec c want (h1 ++ h2)).side a).peer n = some p) (hf : Connect.RunsFor (((World.init addr).exec c want (h1 ++ h2)).side a).con p f)
    (hq : (((World.init addr).exec c want (h1 ++ h2)).side b).peer m = some q) (hg : Connect.RunsFor (((World.init addr).exec c want (h1 ++ h2)).side b).con q g) :
    ∃ x y, Extra.Sees (((World.init addr).exec c want (h1 ++ h2)).side a) p x y ∧ Extra.Sees (((World.init addr).exec c want (h1 ++ h2)).side b) q y x := by
  have h1' := sees (h1 ++ h2) hp hf
  have h2' := sees (h1 ++ h2) hq hg
  rw [hs.talks.key] at h1'
  rw [hs.listens.key] at h2'
  exact ⟨_, _, h1', h2'⟩

/-- C83. If the one at `a` was made by a `create_connection`: it sees the address it was to connect to, and the other one sees the address of `a`. -/
theorem C83_both {h1 h2 : List Ev} {a n b m p q f g : Nat} {k : Vnic.Key} (hs : Setting c want addr h1 h2 a n b m k)
    (hp : (((World.init addr).exec c want (h1 ++ h2)).side a).peer n = some p) (hf : Connect.RunsFor (((World.init addr).exec c want (h1 ++ h2)).side a).con p f)
    (hk : ((((World.init addr).exec c want (h1 ++ h2)).side a).con.call f).kind = .connect)
    (hq : (((World.init addr).exec c want (h1 ++ h2)).side b).peer m = some q) (hg : Connect.RunsFor (((World.init addr).exec c want (h1 ++ h2)).side b).con q g) :
    ∃ port, Extra.Sees (((World.init addr).exec c want (h1 ++ h2)).side a) p (addr a, port) (want a f) ∧
      Extra.Sees (((World.init addr).exec c want (h1 ++ h2)).side b) q (want a f) (addr a, port) := by
  have h1' := sees (h1 ++ h2) hp hf
  have h2' := sees (h1 ++ h2) hq hg
  have e := host_exec c want a (h1 ++ h2) (World.init addr)
  have h3 := (Host.C64_pair (want a) (addr a) (hostHist c want a (.init addr) (h1 ++ h2)) f n)
  rw [show Host.St.init (addr a) = (World.init addr).host a from rfl, ← e] at h3
  have h3 := (h3 ⟨p, hp, hf⟩).2.2
  rw [show (((World.init addr).exec c want (h1 ++ h2)).host a).side.con.call f = (((World.init addr).exec c want (h1 ++ h2)).side a).con.call f from rfl, hk] at h3
  obtain ⟨e1, e2, e3⟩ := h3
  have hkey := hs.talks.key
  have e1 : ((((World.init addr).exec c want (h1 ++ h2)).net.vnic a).spawn n).key.source = addr a := e1
  have e2 : ((((World.init addr).exec c want (h1 ++ h2)).net.vnic a).spawn n).key.destination = (want a f).1 := e2
  have e3 : ((((World.init addr).exec c want (h1 ++ h2)).net.vnic a).spawn n).key.destinationPort = (want a f).2 := e3
  rw [hkey] at h1' e1 e2 e3
  rw [hs.listens.key] at h2'
  refine ⟨k.sourcePort, ?_, ?_⟩
  · rw [e1, e2, e3] at h1'; exact h1'
  · simp only [Vnic.Key.inverse] at h2'
    rw [e1, e2, e3] at h2'; exact h2'

end

namespace Ex
open Verif.E2E.Ex (addrs plain self plain2 k)
open Verif.Link (lClasses lOk)

/-- The hypotheses hold: the client and the server of C65. -/
example : ∃ port, Extra.Sees (((World.init addrs).exec lClasses wants (h1 ++ (h2 ++ h3))).side 0) 0 (addrs 0, port) ("2.2.2.2".toList, 80) ∧
    Extra.Sees (((World.init addrs).exec lClasses wants (h1 ++ (h2 ++ h3))).side 1) 0 ("2.2.2.2".toList, 80) (addrs 0, port) :=
  C83_both to_server (by decide +kernel) (f := 0) ⟨.connect, by decide +kernel⟩ (by decide +kernel) server_peer server_on

/-- A process at VNIC 0 sends a raw packet with another source address. -/
def forged : List Ev := [.host 0 (.other (.ctlMade 1)) 0, .host 0 (.other (.rawWire 1 ⟨"9.9.9.9".toList, 7, "2.2.2.2".toList, 80⟩ [1])) 3, .net (.toSwitch 0 500), .net (.toHost 1 500),
  .host 1 (.other (.connected 0)) 0, .host 1 (.other (.finished 0)) 0, .host 1 (.callback 0) 0, .host 1 (.toCon 0) 0]

/-- C83 is false for addresses as proof of identity: an application at VNIC 0, whose address is 1.1.1.1, makes the server see the address 9.9.9.9, which no VNIC
has. -/
theorem C83_false_forged : Connect.RunsFor ((run (h1 ++ forged)).side 1).con 0 0 ∧ (addrs 0 = "1.1.1.1".toList ∧ addrs 1 = "2.2.2.2".toList) ∧
    Extra.Sees ((run (h1 ++ forged)).side 1) 0 ("2.2.2.2".toList, 80) ("9.9.9.9".toList, 7) := by
  have hr : Connect.RunsFor ((run (h1 ++ forged)).side 1).con 0 0 := ⟨.listen, by decide +kernel⟩
  refine ⟨hr, by decide +kernel, ?_⟩
  have := sees (c := lClasses) (want := wants) (addr := addrs) (h1 ++ forged) (v := 1) (n := 0) (m := 0) (by decide +kernel) hr
  rw [show ((((World.init addrs).exec lClasses wants (h1 ++ forged)).net.vnic 1).spawn 0).key = ⟨"2.2.2.2".toList, 80, "9.9.9.9".toList, 7⟩ by decide +kernel] at this
  exact this

end Ex
end Verif.Apps
