import Verif.Props.Choose
/-! # C76: examples, and what is false -/
namespace Verif.Choose
open Verif.Pnms (Net Cmd w)

/-- Two interfaces on a switch: `v` is the default, `u` has a route. -/
def twoCs : List Cmd :=
  [.add (w "sw") (w "switch") [], .add (w "v") (w "vnic") [w "1.2.3.4"], .add (w "u") (w "vnic") [w "1.2.3.5"],
   .config (w "v") (w "connect") [w "sw"], .config (w "u") (w "connect") [w "sw"], .config (w "v") (w "route") [w "add", w "default"],
   .config (w "u") (w "route") [w "add", w "1.2.*.*"]]

theorem twoPlain : ∀ c ∈ twoCs, c.Plain := by
  intro c hc
  simp only [twoCs, List.mem_cons, List.not_mem_nil, or_false] at hc
  rcases hc with rfl | rfl | rfl | rfl | rfl | rfl | rfl <;> first | (show Routes.norm _ = _; decide +kernel) | (intro a ha; simp only [List.mem_cons, List.not_mem_nil, or_false] at ha; rcases ha with rfl | rfl <;> decide +kernel) | (intro a ha; simp only [List.mem_cons, List.not_mem_nil, or_false] at ha; rcases ha with rfl; decide +kernel)

/-- Both run, at ports 5000 and 5001. -/
def both : World := ⟨fun _ => true, fun k => if k = w "v" then some (w "5000") else some (w "5001")⟩

def addr (a b c d : Nat) : Addr := ⟨.num a, .num b, .num c, .num d⟩

example : Pnms.outcomes none twoCs = List.replicate 7 true := by decide +kernel

/-- The network of the commands. -/
example : ∃ n, Made twoCs n (service (Pnms.exec none twoCs)) := made twoCs twoPlain

/-- By the route, and by the default. -/
example : (connect both (service (Pnms.exec none twoCs)) (.text (w "1.2.9.9")) (w "default")).2 = .ok ⟨some (addr 1 2 9 9), w "u", ⟨some (w "127.0.0.1"), some 5001⟩⟩ ∧
    (connect both (service (Pnms.exec none twoCs)) (.text (w "2.2.9.9")) (w "default")).2 = .ok ⟨some (addr 2 2 9 9), w "v", ⟨some (w "127.0.0.1"), some 5000⟩⟩ := by decide +kernel

/-- By name. -/
example : (connect both (service (Pnms.exec none twoCs)) (.text (w "1.2.9.9")) (w "v")).2 = .ok ⟨some (addr 1 2 9 9), w "v", ⟨some (w "127.0.0.1"), some 5000⟩⟩ ∧
    (connect both (service (Pnms.exec none twoCs)) (.text (w "1.2.9.9")) (w "x")).2 = .error .notReady := by decide +kernel

/-- Servers. -/
example : (serve both (service (Pnms.exec none twoCs)) (w "default")).2 = .ok ⟨some (addr 1 2 3 4), w "v", ⟨some (w "127.0.0.1"), some 5000⟩⟩ ∧
    (serve both (service (Pnms.exec none twoCs)) (w "1.2.3.5")).2 = .ok ⟨some (addr 1 2 3 5), w "u", ⟨some (w "127.0.0.1"), some 5001⟩⟩ ∧
    (serve both (service (Pnms.exec none twoCs)) (w "1.2.3.6")).2 = .error .noVnic ∧
    (serve ⟨fun _ => false, fun _ => none⟩ (service (Pnms.exec none twoCs)) (w "1.2.3.5")).2 = .error .invalid ∧
    (serve ⟨fun _ => true, fun _ => none⟩ (service (Pnms.exec none twoCs)) (w "1.2.3.5")).2 = .error .file := by decide +kernel

example : (raw both (service (Pnms.exec none twoCs)) (w "default")).2 = .ok ⟨some (addr 1 2 3 4), w "v", ⟨some (w "127.0.0.1"), some 5000⟩⟩ := by decide +kernel

/-- After the removal of `u`. -/
example : (∀ c ∈ twoCs ++ [.remove (w "u")], c.Plain) ∧
    (connect both (service (Pnms.exec none (twoCs ++ [.remove (w "u")]))) (.text (w "1.2.9.9")) (w "default")).2 = .ok ⟨some (addr 1 2 9 9), w "v", ⟨some (w "127.0.0.1"), some 5000⟩⟩ := by
  refine ⟨?_, by decide +kernel⟩
  intro c hc
  rcases List.mem_append.mp hc with hc | hc
  · exact twoPlain c hc
  · cases List.mem_singleton.mp hc
    show Routes.norm _ = _
    decide +kernel

/-- The access points of the four kinds, named as interfaces. -/
def apCs : List Cmd :=
  [.add (w "s1") (w "switch") [w "local", w "6001"], .add (w "s2") (w "switch") [w "public", w "6002"],
   .add (w "s3") (w "switch") [w "remote", w "10.0.0.1", w "6003"], .add (w "s4") (w "switch") []]

example : (connect both (service (Pnms.exec none apCs)) (.addr (addr 1 2 9 9)) (w "s1")).2 = .ok ⟨some (addr 1 2 9 9), w "s1", ⟨some (w "127.0.0.1"), some 6001⟩⟩ ∧
    (connect both (service (Pnms.exec none apCs)) (.addr (addr 1 2 9 9)) (w "s2")).2 = .ok ⟨some (addr 1 2 9 9), w "s2", ⟨none, some 6002⟩⟩ ∧
    (connect both (service (Pnms.exec none apCs)) (.addr (addr 1 2 9 9)) (w "s3")).2 = .ok ⟨some (addr 1 2 9 9), w "s3", ⟨some (w "10.0.0.1"), some 6003⟩⟩ ∧
    (connect both (service (Pnms.exec none apCs)) (.addr (addr 1 2 9 9)) (w "s4")).2 = .ok ⟨some (addr 1 2 9 9), w "s4", ⟨some (w "127.0.0.1"), some 5001⟩⟩ := by
  decide +kernel

/-! ## What is false -/

/-- `localhost` does not use the default interface: its address is looked up in the routes like any other, here that of `v` in those of `u`. -/
theorem C76_false_localhost : getDefaultVnic (service (Pnms.exec none twoCs)) = some (w "v") ∧
    (connect both (service (Pnms.exec none twoCs)) (.text (w "localhost")) (w "default")).2 = .ok ⟨some (addr 1 2 3 4), w "u", ⟨some (w "127.0.0.1"), some 5001⟩⟩ := by
  decide +kernel

/-- The service is made once in a process. It uses what the configuration was then: here an interface that has been removed, when a new service would
use another. -/
theorem C76_false_stale :
    (connect both (service (Pnms.exec none twoCs)) (.text (w "1.2.9.9")) (w "default")).2 = .ok ⟨some (addr 1 2 9 9), w "u", ⟨some (w "127.0.0.1"), some 5001⟩⟩ ∧
    (connect both (service (Pnms.exec none (twoCs ++ [.remove (w "u")]))) (.text (w "1.2.9.9")) (w "default")).2 = .ok ⟨some (addr 1 2 9 9), w "v", ⟨some (w "127.0.0.1"), some 5000⟩⟩ := by
  decide +kernel

/-- A server on another string for the address of an interface is an error. -/
theorem C76_false_host : Addr.addressFromString (w "1.2.3.05") = Addr.addressFromString (w "1.2.3.5") ∧
    (serve both (service (Pnms.exec none twoCs)) (w "1.2.3.05")).2 = .error .noVnic := by decide +kernel

/-- One route that is no address block, and no connection can be made, although there is a default interface. -/
theorem C76_false_bad_route : Pnms.outcomes (Pnms.exec none (twoCs.take 6)) [.config (w "u") (w "route") [w "add", w "1.2.3"]] = [true] ∧
    ∀ a : Addr, (connect both (service (Pnms.exec none (twoCs.take 6 ++ [.config (w "u") (w "route") [w "add", w "1.2.3"]]))) (.addr a) (w "default")).2 =
      .error (.route (.address .invalid)) := by
  refine ⟨by decide +kernel, fun a => ?_⟩
  have hm : (service (Pnms.exec none (twoCs.take 6 ++ [.config (w "u") (w "route") [w "add", w "1.2.3"]]))).mem.routes =
      [(w "__default__", w "v"), (w "1.2.3", w "u")] := by decide +kernel
  unfold connect resolve
  dsimp only
  rw [if_pos (by decide +kernel)]
  unfold getVnicByDestination Routes.getRoutingDevice
  rw [hm]
  have hl : ∀ st, Routes.routingLoop st a [w "__default__", w "1.2.3"] = .error (.address .invalid) := by
    intro st
    rw [Routes.routingLoop, if_pos (by decide +kernel), Routes.routingLoop, if_neg (by decide +kernel),
      show Addr.blockFromString (w "1.2.3") = .error .invalid by decide +kernel]
  rw [show Dict.keys (Routes.St.sec ⟨[(w "__default__", w "v"), (w "1.2.3", w "u")], []⟩) = [w "__default__", w "1.2.3"] from rfl, hl]

/-- A raw connection cannot name its interface: for all other arguments than `default` the call fails. -/
theorem C76_false_raw (wd : World) (m : Pnms.Mgr) (v : Str) (hv : v ≠ "default".toList) : (raw wd m v).2 = .error .attribute := by
  unfold raw
  rw [if_neg hv]

/-- A connection through an interface that is not enabled is not refused here: it goes to the location `(None, None)`, where the TCP connection fails. The
locations of all interfaces that are not enabled are the same; so the next connection through any of them does not fail, but waits forever. -/
theorem C76_false_disabled {cs : List Cmd} {n : Net} {m : Pnms.Mgr} (h : Made cs n m) (wd : World) (k1 k2 : Str) (h1 : n.Iface k1) (h2 : n.Iface k2)
    (n1 : k1 ≠ "default".toList) (n2 : k2 ≠ "default".toList) (e1 : wd.enabled k1 = false) (e2 : wd.enabled k2 = false) (a1 a2 : Addr) (num : Loc → Nat) :
    ∃ c1 c2, (connect wd m (.addr a1) k1).2 = .ok c1 ∧ (connect wd m (.addr a2) k2).2 = .ok c2 ∧
      ∀ t, ((Connect.exec .init ([.call .connect (some (num c1.loc)), .serviceOk 0] ++ .dialFail 0 :: .call .connect (some (num c2.loc)) :: t)).call 1).stage = .polling := by
  have key : ∀ {k : Str} (a : Addr), n.Iface k → k ≠ "default".toList → wd.enabled k = false → (connect wd m (.addr a) k).2 = .ok ⟨some a, k, .nowhere⟩ := by
    intro k a hi hk he
    obtain ⟨r, hr, x, hx, hrx⟩ := (C76_named h wd a k hk).1 hi
    rw [hr, hrx]
    cases hx with
    | up _ _ y _ _ => rw [he] at y; cases y
    | down _ => rfl
    | noFile y _ => rw [he] at y; cases y
    | noNumber _ y _ _ => rw [he] at y; cases y
  refine ⟨_, _, key a1 h1 n1 e1, key a2 h2 n2 e2, fun t => ?_⟩
  dsimp only
  generalize num .nowhere = l
  refine Connect.C62_dial_failed [.call .connect (some l), .serviceOk 0] t 0 l .connect (show 0 < 1 by decide) rfl rfl rfl ?_ rfl ?_
  · intro c hc
    rw [show (Connect.exec .init [.call .connect (some l), .serviceOk 0]).ctl = [(l, none)] from rfl, Dict.get, if_pos rfl] at hc
    cases hc
  · intro j hj _ _
    have : j < 1 := hj
    omega

/-- Such interfaces. -/
example : ∃ n, Made twoCs n (service (Pnms.exec none twoCs)) ∧ n.Iface (w "u") ∧ n.Iface (w "v") := by
  obtain ⟨n, h⟩ := made twoCs twoPlain
  exact ⟨n, h, Pnms.Net.iface_iff.mp (by rw [← h.ready.loaded.core.devs]; decide +kernel), Pnms.Net.iface_iff.mp (by rw [← h.ready.loaded.core.devs]; decide +kernel)⟩

end Verif.Choose
