import Verif.Lemmas.Apps
import Verif.Spec.Apps
/-! # Lemmas: what applications send -/
namespace Verif.Apps

section
variable {c : Link.Classes} {want : Nat → Nat → Str × Nat} {addr : Nat → Str}

/-- The state of VNIC `u` and its process, with a history of the connector. -/
theorem hostInv (c : Link.Classes) (want : Nat → Nat → Str × Nat) (addr : Nat → Str) (h : List Ev) (u : Nat) :
    ∃ hc, Host.Inv (want u) (addr u) (Host.vnicHist (want u) (.init (addr u)) (hostHist c want u (.init addr) h)) hc (((World.init addr).exec c want h).host u) := by
  rw [host_exec]
  exact Host.Inv.reachable (want u) (addr u) _

theorem vnic_lasts (c : Link.Classes) (u : Nat) : ∀ (h : List E2E.Ev) (w : E2E.World), Vnic.Lasts (w.vnic u) ((w.exec c h).vnic u) := by
  intro h w
  rw [E2E.vnic_exec]
  exact Vnic.Lasts.exec _ _

theorem exec_lasts (c : Link.Classes) (want : Nat → Nat → Str × Nat) (u : Nat) (h : List Ev) (w : World) : Vnic.Lasts (w.net.vnic u) ((w.exec c want h).net.vnic u) := by
  rw [net_exec]
  exact vnic_lasts c u _ _

/-- What an event is for the network, if all is well. -/
theorem netEv_ok (hw : Sane want) (h : List Ev) {e : Ev} (he : Ok e) {x : E2E.Ev} (hx : x ∈ netEv ((World.init addr).exec c want h) e) :
    E2E.Proper x ∧ (∀ v a, x ≠ .announce v a) ∧ ¬ E2E.IsRaw x ∧ (∀ v n d id, x = .own v (.reverse n d) id → d.length ≤ 2 ^ 16) ∧
      ((∀ v y id, x ≠ .own v y id) → e = .net x) := by
  cases e with
  | net e =>
    simp only [netEv] at hx
    split at hx
    · next ho =>
      rw [List.mem_singleton] at hx
      subst hx
      cases x with
      | announce => exact he.elim
      | own => cases ho
      | _ => exact ⟨trivial, fun _ _ => nofun, id, fun _ _ _ _ => nofun, fun _ => rfl⟩
    · cases hx
  | host v e id =>
    simp only [netEv] at hx
    split at hx
    · obtain ⟨y, hy, rfl⟩ := List.mem_map.mp hx
      have hid : id < 2 ^ 32 := by
        cases e with
        | other e => exact he.2
        | toSock n k => exact he.2
        | _ => exact he
      have key : E2E.GoodInput y ∧ (∀ p k d, y ≠ .rawWire p k d) ∧ ∀ n d, y = .reverse n d → d.length ≤ 2 ^ 16 := by
        cases e with
        | own e => cases hy
        | other e =>
          simp only [Host.vnicEv] at hy
          split at hy
          · rw [List.mem_singleton] at hy
            subst hy
            have hcalm := he.1
            cases y with
            | rawWire => exact hcalm.elim
            | reverse n d =>
              exact ⟨by have : d.length ≤ 2 ^ 16 := hcalm
                        show d.length < 2 ^ 64
                        omega, fun _ _ _ => nofun, fun _ _ h => by cases h; exact hcalm⟩
            | openSocket p i r =>
              refine ⟨?_, fun _ _ _ => nofun, fun _ _ => nofun⟩
              cases r with
              | connect => exact hcalm
              | _ => trivial
            | _ => exact ⟨trivial, fun _ _ _ => nofun, fun _ _ => nofun⟩
          · cases hy
        | accept n =>
          simp only [Host.vnicEv] at hy
          split at hy
          · rw [List.mem_singleton] at hy; subst hy; exact ⟨trivial, fun _ _ _ => nofun, fun _ _ => nofun⟩
          · cases hy
        | toVnic n =>
          simp only [Host.vnicEv] at hy
          split at hy
          · obtain ⟨z, hz, hyz⟩ := Option.map_eq_some_iff.mp (Option.mem_toList.mp hy)
            have hm := List.mem_of_getElem? hz
            cases z with
            | closes id' => rw [← hyz]; exact ⟨trivial, fun _ _ _ => nofun, fun _ _ => nofun⟩
            | opens id' r =>
              rw [← hyz]
              refine ⟨?_, fun _ _ _ => nofun, fun _ _ => nofun⟩
              obtain ⟨hc, hi⟩ := hostInv c want addr h v
              obtain ⟨f, _, rfl⟩ := hi.sent n id' r hm
              cases (((World.init addr).exec c want h).host v).side.con.call f |>.kind with
              | connect => exact hw v f
              | listen => trivial
          · cases hy
        | toCon n => cases hy
        | lostVnic n =>
          simp only [Host.vnicEv] at hy
          split at hy
          · rw [List.mem_singleton] at hy; subst hy; exact ⟨trivial, fun _ _ _ => nofun, fun _ _ => nofun⟩
          · cases hy
        | lostCon n => cases hy
        | callback n => cases hy
        | toApp n k => cases hy
        | write n d => cases hy
        | toSock n k =>
          simp only [Host.vnicEv] at hy
          split at hy
          · rw [List.mem_singleton] at hy
            subst hy
            have hl : (Host.chunk ((((World.init addr).exec c want h).side v).wrote n) ((((World.init addr).exec c want h).side v).given n) k).length ≤ 2 ^ 16 := by
              have := he.1
              simp only [Host.chunk, List.length_take]
              omega
            exact ⟨by show (_ : Bytes).length < 2 ^ 64
                      omega, fun _ _ _ => nofun, fun _ _ h => by cases h; exact hl⟩
          · cases hy
        | endVnic n =>
          simp only [Host.vnicEv] at hy
          split at hy
          · rw [List.mem_singleton] at hy; subst hy; exact ⟨trivial, fun _ _ _ => nofun, fun _ _ => nofun⟩
          · cases hy
        | endApp n => cases hy
      refine ⟨⟨key.1, hid⟩, fun _ _ => nofun, ?_, ?_, fun hno => absurd rfl (hno v y id)⟩
      · cases y with
        | rawWire p k d => exact absurd rfl (key.2.1 p k d)
        | _ => exact fun h => h
      · intro v' n d id' hx
        cases hx
        exact key.2.2 n d rfl
    · cases hx

theorem netHist_ok (hw : Sane want) : ∀ (h2 h1 : List Ev), (∀ e ∈ h2, Ok e) → ∀ x ∈ netHist c want ((World.init addr).exec c want h1) h2,
    E2E.Proper x ∧ (∀ v a, x ≠ .announce v a) ∧ ¬ E2E.IsRaw x ∧ (∀ v n d id, x = .own v (.reverse n d) id → d.length ≤ 2 ^ 16) ∧
      ((∀ v y id, x ≠ .own v y id) → .net x ∈ h2)
  | [], _, _, _, hx => by cases hx
  | e :: h2, h1, he, x, hx => by
    rcases List.mem_append.mp hx with hx | hx
    · obtain ⟨g1, g2, g3, g4, g5⟩ := netEv_ok hw h1 (he e List.mem_cons_self) hx
      exact ⟨g1, g2, g3, g4, fun h => by rw [← g5 h]; exact List.mem_cons_self⟩
    · have : ((World.init addr).exec c want h1).step c want e = (World.init addr).exec c want (h1 ++ [e]) := by rw [exec_append]; rfl
      rw [this] at hx
      obtain ⟨g1, g2, g3, g4, g5⟩ := netHist_ok hw h2 (h1 ++ [e]) (fun y hy => he y (List.mem_cons_of_mem _ hy)) x hx
      exact ⟨g1, g2, g3, g4, fun h => List.mem_cons_of_mem _ (g5 h)⟩

theorem sentBy_small (c : Link.Classes) (v : Nat) : ∀ (h : List E2E.Ev) (w : E2E.World), (∀ x ∈ h, ¬ E2E.IsRaw x) →
    (∀ v n d id, .own v (.reverse n d) id ∈ h → d.length ≤ 2 ^ 16) → ∀ x ∈ E2E.sentBy c v w h, x.2.length ≤ 2 ^ 16
  | [], _, _, _, _, hx => by cases hx
  | e :: h, w, hr, hs, x, hx => by
    rcases List.mem_append.mp hx with hx | hx
    · cases e with
      | own u y id =>
        cases y with
        | reverse n d =>
          simp only [E2E.sentNow] at hx
          split at hx
          · rw [List.mem_singleton] at hx
            rw [hx]
            exact hs u n d id List.mem_cons_self
          · cases hx
        | rawWire p k d => exact absurd trivial (hr _ List.mem_cons_self)
        | _ => cases hx
      | _ => cases hx
    · exact sentBy_small c v h _ (fun y hy => hr y (List.mem_cons_of_mem _ hy)) (fun v n d id hm => hs v n d id (List.mem_cons_of_mem _ hm)) x hx

theorem heard_outside (n : Nat) : ∀ (l : List Vnic.Ev), (∀ x ∈ l, E2E.Outside x) → Host.heard n l = []
  | [], _ => rfl
  | x :: l, h => by
    have hx := h x List.mem_cons_self
    cases x <;> first | exact hx.elim | exact heard_outside n l (fun y hy => h y (List.mem_cons_of_mem _ hy))

theorem vnicHist_others (want : Nat → Str × Nat) : ∀ (l : List Vnic.Ev) (s : Host.St), (∀ x ∈ l, E2E.Outside x) → Host.vnicHist want s (l.map .other) = l
  | [], _, _ => rfl
  | x :: l, s, h => by
    show Host.vnicEv s.vnic s.side (.other x) ++ Host.vnicHist want _ (l.map .other) = _
    rw [vnicHist_others want l _ (fun y hy => h y (List.mem_cons_of_mem _ hy))]
    simp only [Host.vnicEv]
    rw [if_pos (foreign_outside (h x List.mem_cons_self))]
    rfl

/-- Who gives bytes to the VNIC. -/
theorem reverse_from {v : Vnic.St} {s : Host.Side} {e : Host.Ev} {m : Nat} {d : Bytes} (h : .reverse m d ∈ Host.vnicEv v s e) :
    m < v.nSpawn ∧ (Host.mine v m = false ∨ Host.live v m = true) := by
  have lv : Host.live v m = true → m < v.nSpawn := by
    intro h
    simp only [Host.live, Bool.and_eq_true, decide_eq_true_eq] at h
    exact h.1.1
  cases e with
  | other e =>
    simp only [Host.vnicEv] at h
    split at h
    · next hf =>
      rw [List.mem_singleton] at h
      subst h
      have : m < v.nSpawn ∧ Host.mine v m = false := by simpa [Host.foreign] using hf
      exact ⟨this.1, .inl this.2⟩
    · cases h
  | accept c => simp only [Host.vnicEv] at h; split at h <;> simp at h
  | toVnic c =>
    simp only [Host.vnicEv] at h
    split at h
    · obtain ⟨z, _, hz⟩ := Option.map_eq_some_iff.mp (Option.mem_toList.mp h)
      cases z <;> cases hz
    · cases h
  | lostVnic c => simp only [Host.vnicEv] at h; split at h <;> simp at h
  | toSock n k =>
    simp only [Host.vnicEv] at h
    split at h
    · next hx =>
      rw [List.mem_singleton] at h
      cases h
      exact ⟨lv hx.2.1, .inr hx.2.1⟩
    · cases h
  | endVnic n => simp only [Host.vnicEv] at h; split at h <;> simp at h
  | _ => cases h

theorem now_heard (w : World) {a n l : Nat} {k : Vnic.Key} (V : Vnic.St) (hlast : Vnic.Lasts (w.net.vnic a) V) (hvi : Vnic.Inv [] (w.net.vnic a))
    (hk : (V.spawn n).key = k) (hm : Host.mine V n = true)
    (honly : ∀ m, m < V.nSpawn → (V.spawn m).key = k → m = n) (hl : w.net.link a = some l) (e : Ev) (hraw : ∀ x ∈ netEv w e, ¬ E2E.IsRaw x) :
    E2E.bytesOn k (E2E.sentBy c a w.net (netEv w e)) = Host.heard n (Host.vnicHist (want a) (w.host a) (hostEv c w a e)) := by
  cases e with
  | net e =>
    simp only [netEv, hostEv]
    split
    · next ho =>
      rw [vnicHist_others _ _ _ (fun x hx => vnicEv_others ho hx), heard_outside n _ (fun x hx => vnicEv_others ho hx)]
      cases e <;> first | rfl | cases ho
    · rfl
  | host v e id =>
    simp only [netEv, hostEv] at hraw ⊢
    by_cases hi : inner e = true
    · rw [if_pos hi] at hraw ⊢
      by_cases hv : a = v
      · subst hv
        rw [if_pos ⟨rfl, hi⟩]
        simp only [Host.vnicHist, List.append_nil]
        show _ = Host.heard n (Host.vnicEv (w.net.vnic a) (w.side a) e)
        rcases vnicEv_short (w.net.vnic a) (w.side a) e with hx | ⟨x, hx, ho⟩
        · rw [hx]; rfl
        · have hrev : ∀ m d, x = .reverse m d → m < (w.net.vnic a).nSpawn ∧ (Host.mine (w.net.vnic a) m = false ∨ Host.live (w.net.vnic a) m = true) :=
            fun m d hxx => reverse_from (d := d) (s := w.side a) (e := e) (by rw [hx, hxx]; simp)
          rw [hx] at hraw ⊢
          simp only [List.map_cons, List.map_nil, E2E.sentBy, List.append_nil]
          cases x with
          | reverse m d =>
            obtain ⟨h1, h2⟩ := hrev m d rfl
            have hkm := (hlast.spawn m h1).2
            have hmm := Host.mine_lasts hvi hlast h1
            have hlt : m < V.nSpawn := Nat.lt_of_lt_of_le h1 hlast.nSpawn
            simp only [E2E.sentNow, Host.heard, List.append_nil]
            by_cases hmn : m = n
            · subst hmn
              rw [hmm] at hm
              rcases h2 with h2 | h2
              · rw [h2] at hm; cases hm
              · have hlive : E2E.Live (w.net.vnic a) m := by
                  simp only [Host.live, Bool.and_eq_true, decide_eq_true_eq, Bool.not_eq_true'] at h2
                  exact ⟨h2.1.1, h2.1.2, h2.2⟩
                rw [if_pos ⟨trivial, by rw [hl]; simp, hlive⟩, if_pos rfl, ← hkm, hk]
                simp [E2E.bytesOn]
            · rw [if_neg hmn]
              split
              · have : ((w.net.vnic a).spawn m).key ≠ k := fun hx => hmn (honly m hlt (by rw [hkm]; exact hx))
                simp [E2E.bytesOn, this]
              · rfl
          | rawWire p k' d => exact absurd trivial (hraw _ List.mem_cons_self)
          | _ => rfl
      · rw [if_neg (fun h => hv h.1)]
        rcases vnicEv_short (w.net.vnic v) (w.side v) e with hx | ⟨x, hx, ho⟩
        · rw [hx]; rfl
        · rw [hx] at hraw ⊢
          simp only [List.map_cons, List.map_nil, E2E.sentBy, List.append_nil, Host.vnicHist, Host.heard]
          cases x with
          | reverse m d =>
            simp only [E2E.sentNow]
            rw [if_neg (fun h => hv h.1.symm)]
            rfl
          | rawWire p k' d => exact absurd trivial (hraw _ List.mem_cons_self)
          | _ => rfl
    · rw [if_neg hi, if_neg (fun h => hi h.2)]
      rfl

/-- What is sent with the key of callback connection `n` is what arrives on it, if no other one has its key. -/
theorem bytes_heard {a n l : Nat} {k : Vnic.Key} (V : Vnic.St) (hk : (V.spawn n).key = k) (hn : n < V.nSpawn) (hm : Host.mine V n = true)
    (honly : ∀ m, m < V.nSpawn → (V.spawn m).key = k → m = n) : ∀ (h2 h1 : List Ev), ((World.init addr).exec c want (h1 ++ h2)).net.vnic a = V →
    ((World.init addr).exec c want h1).net.link a = some l → (∀ e ∈ h2, Ok e) → .net (.detach a) ∉ h2 → Sane want →
    E2E.bytesOn k (E2E.sentBy c a ((World.init addr).exec c want h1).net (netHist c want ((World.init addr).exec c want h1) h2)) =
      Host.heard n (Host.vnicHist (want a) (((World.init addr).exec c want h1).host a) (hostHist c want a ((World.init addr).exec c want h1) h2))
  | [], _, _, _, _, _, _ => rfl
  | e :: h2, h1, hV, hl, hok, hd, hw => by
    have hst : ((World.init addr).exec c want h1).step c want e = (World.init addr).exec c want (h1 ++ [e]) := by rw [exec_append]; rfl
    have hnet := fun {x : E2E.Ev} (hx : x ∈ netEv ((World.init addr).exec c want h1) e) => netEv_ok hw h1 (hok e List.mem_cons_self) hx
    have hl' : ((World.init addr).exec c want (h1 ++ [e])).net.link a = some l := by
      rw [← hst]
      show (E2E.World.exec c _ (netEv _ e)).link a = some l
      refine E2E.link_stays_exec c _ _ hl (fun hx => ?_)
      have := (hnet hx).2.2.2.2 (fun _ _ _ => nofun)
      exact hd (by rw [← this]; exact List.mem_cons_self)
    have ih := bytes_heard V hk hn hm honly h2 (h1 ++ [e]) (by rw [List.append_assoc]; exact hV) hl' (fun y hy => hok y (List.mem_cons_of_mem _ hy))
      (fun hx => hd (List.mem_cons_of_mem _ hx)) hw
    have hlast : Vnic.Lasts (((World.init addr).exec c want h1).net.vnic a) V := by
      rw [← hV, exec_append]; exact exec_lasts c want a _ _
    obtain ⟨hc, hi⟩ := hostInv c want addr h1 a
    have hvi : Vnic.Inv [] (((World.init addr).exec c want h1).net.vnic a) := hi.vi
    simp only [netHist, hostHist]
    rw [hst, E2E.sentBy_append, E2E.bytesOn_append, Host.vnicHist_append, Host.heard_append, ← host_step, hst]
    have hnet2 : (((World.init addr).exec c want h1).net.exec c (netEv ((World.init addr).exec c want h1) e)) = ((World.init addr).exec c want (h1 ++ [e])).net := by
      rw [← hst]; rfl
    rw [hnet2, ih]
    congr 1
    exact now_heard _ V hlast hvi hk hm honly hl e (fun x hx => (hnet hx).2.2.1)

end
end Verif.Apps
