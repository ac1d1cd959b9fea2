import Verif.Model.Apps
import Verif.Props.Host
import Verif.Props.E2E
/-! # Lemmas: projections of a history to the network and to each VNIC with its process -/
namespace Verif.Apps

section
variable (c : Link.Classes) (want : Nat → Nat → Str × Nat)

/-- What happens in the network in a history. -/
def netHist : World → List Ev → List E2E.Ev
  | _, [] => []
  | w, e :: h => netEv w e ++ netHist (w.step c want e) h

/-- What happens at VNIC `u` in a history. -/
def hostHist (u : Nat) : World → List Ev → List Host.Ev
  | _, [] => []
  | w, e :: h => hostEv c w u e ++ hostHist u (w.step c want e) h

theorem exec_append : ∀ (a b : List Ev) (w : World), w.exec c want (a ++ b) = (w.exec c want a).exec c want b
  | [], _, _ => rfl
  | e :: a, b, w => exec_append a b (w.step c want e)

theorem netHist_append : ∀ (a b : List Ev) (w : World), netHist c want w (a ++ b) = netHist c want w a ++ netHist c want (w.exec c want a) b
  | [], _, _ => rfl
  | e :: a, b, w => by
    show netEv w e ++ netHist c want (w.step c want e) (a ++ b) = _
    rw [netHist_append a b]
    simp [netHist, World.exec]

theorem hostHist_append (u : Nat) : ∀ (a b : List Ev) (w : World), hostHist c want u w (a ++ b) = hostHist c want u w a ++ hostHist c want u (w.exec c want a) b
  | [], _, _ => rfl
  | e :: a, b, w => by
    show hostEv c w u e ++ hostHist c want u (w.step c want e) (a ++ b) = _
    rw [hostHist_append u a b]
    simp [hostHist, World.exec]

theorem net_exec : ∀ (h : List Ev) (w : World), (w.exec c want h).net = w.net.exec c (netHist c want w h)
  | [], _ => rfl
  | e :: h, w => by
    show (World.exec c want (w.step c want e) h).net = _
    rw [net_exec h]
    simp only [netHist, E2E.exec_append]
    rfl

end

/-- The kinds of events for the VNIC. -/
theorem vnicEv_short (v : Vnic.St) (s : Host.Side) (e : Host.Ev) : Host.vnicEv v s e = [] ∨ ∃ x, Host.vnicEv v s e = [x] ∧ (inner e = true → E2E.own x = true) := by
  cases e with
  | other e =>
    simp only [Host.vnicEv]
    split
    · exact .inr ⟨_, rfl, id⟩
    · exact .inl rfl
  | accept n =>
    simp only [Host.vnicEv]
    split
    · exact .inr ⟨_, rfl, fun _ => rfl⟩
    · exact .inl rfl
  | toVnic n =>
    simp only [Host.vnicEv]
    split
    · cases (s.sent n)[s.read n]? with
      | none => exact .inl rfl
      | some y => exact .inr ⟨_, rfl, fun _ => by cases y <;> rfl⟩
    · exact .inl rfl
  | lostVnic n =>
    simp only [Host.vnicEv]
    split
    · exact .inr ⟨_, rfl, fun _ => rfl⟩
    · exact .inl rfl
  | toSock n k =>
    simp only [Host.vnicEv]
    split
    · exact .inr ⟨_, rfl, fun _ => rfl⟩
    · exact .inl rfl
  | endVnic n =>
    simp only [Host.vnicEv]
    split
    · exact .inr ⟨_, rfl, fun _ => rfl⟩
    · exact .inl rfl
  | _ => exact .inl rfl

theorem vnicEv_others {c : Link.Classes} {w : E2E.World} {u : Nat} {e : E2E.Ev} (he : outer e = true) {x : Vnic.Ev} (hx : x ∈ E2E.vnicEv c w u e) :
    E2E.Outside x := by
  cases e with
  | own => cases he
  | _ =>
    refine E2E.vnicHist_outside c u [_] w ?_ x (List.mem_append_left _ hx)
    simp

theorem foreign_outside {v : Vnic.St} {x : Vnic.Ev} (h : E2E.Outside x) : Host.foreign v x = true := by
  cases x <;> first | rfl | exact h.elim

theorem others_exec (want : Nat → Str × Nat) : ∀ (l : List Vnic.Ev) (s : Host.St), (∀ x ∈ l, E2E.Outside x) →
    Host.exec want s (l.map .other) = ⟨Vnic.exec s.vnic l, s.side⟩
  | [], _, _ => rfl
  | x :: l, s, h => by
    show Host.exec want (Host.step want s (.other x)) (l.map .other) = _
    rw [others_exec want l _ (fun y hy => h y (List.mem_cons_of_mem _ hy))]
    simp only [Host.step, Host.vnicEv, Host.sideStep]
    rw [if_pos (foreign_outside (h x List.mem_cons_self))]
    rfl

theorem host_step (c : Link.Classes) (want : Nat → Nat → Str × Nat) (w : World) (e : Ev) (u : Nat) :
    (w.step c want e).host u = Host.exec (want u) (w.host u) (hostEv c w u e) := by
  cases e with
  | net e =>
    simp only [World.step, World.host, netEv, hostEv, sideEv]
    split
    · next he =>
      rw [others_exec _ _ _ (fun x hx => vnicEv_others he hx)]
      rfl
    · rfl
  | host v e id =>
    simp only [World.step, World.host, netEv, hostEv, sideEv]
    by_cases hi : inner e = true
    · rw [if_pos hi]
      by_cases hu : u = v
      · subst hu
        rw [if_pos ⟨rfl, hi⟩, if_pos ⟨rfl, hi⟩]
        simp only [Host.exec, Host.step]
        rcases vnicEv_short (w.net.vnic u) (w.side u) e with hx | ⟨x, hx, ho⟩
        · rw [hx]; rfl
        · have ho := ho hi
          rw [hx]
          simp only [List.map_cons, List.map_nil, E2E.World.exec, E2E.World.step, E2E.vnicEv, ho]
          simp
      · rw [if_neg (fun h => hu h.1), if_neg (fun h => hu h.1)]
        simp only [Host.exec]
        rcases vnicEv_short (w.net.vnic v) (w.side v) e with hx | ⟨x, hx, _⟩
        · rw [hx]; rfl
        · rw [hx]
          simp only [List.map_cons, List.map_nil, E2E.World.exec, E2E.World.step, E2E.vnicEv]
          rw [if_neg (fun h => hu h.1)]
          rfl
    · rw [if_neg hi, if_neg (fun h => hi h.2), if_neg (fun h => hi h.2)]
      rfl

theorem host_exec (c : Link.Classes) (want : Nat → Nat → Str × Nat) (u : Nat) : ∀ (h : List Ev) (w : World),
    (w.exec c want h).host u = Host.exec (want u) (w.host u) (hostHist c want u w h)
  | [], _ => rfl
  | e :: h, w => by
    show (World.exec c want (w.step c want e) h).host u = _
    rw [host_exec c want u h, host_step]
    simp only [hostHist, Host.exec_append]

end Verif.Apps
