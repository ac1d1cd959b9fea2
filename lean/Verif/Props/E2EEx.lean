import Verif.Props.E2E
/-! # C60: two VNICs on a switch, and what does not hold -/
namespace Verif.Link

/-- A connection that was never made has no bytes on its way to the switch. -/
theorem unused (c : Classes) (s : Nat) : ∀ (h : List Ev) (n : Net), (∀ a, .connect s a ∉ h) → s ∉ n.hostUp → n.toSwitch s = [] →
    s ∉ (n.exec c h).hostUp ∧ (n.exec c h).toSwitch s = []
  | [], _, _, h1, h2 => ⟨h1, h2⟩
  | e :: h, n, hc, h1, h2 => by
    have hs := step_hostUp c n e s
    refine unused c s h (n.step c e) (fun a hm => hc a (List.mem_cons_of_mem _ hm)) ?_ ?_
    · have hu : upAfter (decide (s ∈ n.hostUp)) s [e] = false := by
        rw [decide_eq_false h1]
        cases e with
        | connect l a =>
          have : l ≠ s := by intro e; subst e; exact hc a List.mem_cons_self
          simp [upAfter, this]
        | _ => simp [upAfter]
      rw [hu] at hs
      exact of_decide_eq_false hs
    · have hsend : ∀ (ps : List Pkt) (n : Net) (l : Nat), l ≠ s → (n.send c l ps).toSwitch s = n.toSwitch s := by
        intro ps
        induction ps with
        | nil => intro n l _; rfl
        | cons p ps ih =>
          intro n l hl
          unfold Net.send
          split
          · rfl
          · rw [ih _ _ hl]; exact upd_other _ _ hl.symm
      cases e with
      | connect l a => rw [Net.step, hsend _ _ _ (by intro e; subst e; exact hc a List.mem_cons_self)]; exact h2
      | announce l a =>
        rw [Net.step]
        split
        · next hl => rw [hsend _ _ _ (by intro e; subst e; exact h1 hl)]; exact h2
        · exact h2
      | write l hd id d =>
        rw [Net.step]
        split
        · next hl => rw [hsend _ _ _ (by intro e; subst e; exact h1 hl)]; exact h2
        · exact h2
      | toSwitch l k =>
        rw [Net.step]
        split
        · unfold Net.switchData
          rw [(loop_frame c l _ _).1]
          by_cases hl : s = l
          · subst hl; simp [h2]
          · exact (upd_other _ _ hl).trans h2
        · exact h2
      | toHost l k => rw [Net.step]; split <;> exact h2
      | timeout l i => exact h2
      | lostSwitch l => rw [Net.step]; split <;> exact h2
      | lostHost l => exact h2
      | accept l => exact h2

end Verif.Link

namespace Verif.E2E
open Verif.Link (lClasses lOk)

theorem connect_attach (c : Link.Classes) {l : Nat} {a : Str} : ∀ (h : List Ev) (w : World), .connect l a ∈ netHist c w h → ∃ v, .attach v l ∈ h
  | [], _, hm => by cases hm
  | e :: h, w, hm => by
    rcases List.mem_append.mp hm with hm | hm
    · cases e with
      | own v e id =>
        simp only [netEv] at hm
        split at hm
        · cases hm
        · split at hm
          · obtain ⟨_, _, he⟩ := List.mem_map.mp hm; cases he
          · cases hm
      | attach v m =>
        simp only [netEv] at hm
        split at hm
        · cases List.mem_singleton.mp hm; exact ⟨v, List.mem_cons_self⟩
        · cases hm
      | detach v => simp only [netEv] at hm; split at hm; cases hm; exact nomatch List.mem_singleton.mp hm
      | announce v a => simp only [netEv] at hm; split at hm; cases hm; exact nomatch List.mem_singleton.mp hm
      | toHost v k => simp only [netEv] at hm; split at hm; cases hm; exact nomatch List.mem_singleton.mp hm
      | accept m => exact nomatch List.mem_singleton.mp hm
      | toSwitch m k => exact nomatch List.mem_singleton.mp hm
      | timeout m k => exact nomatch List.mem_singleton.mp hm
      | lostSwitch m => exact nomatch List.mem_singleton.mp hm
    · obtain ⟨v, hv⟩ := connect_attach c h _ hm
      exact ⟨v, List.mem_cons_of_mem _ hv⟩

/-- The connections that are attached in a history. -/
def linksIn : List Ev → List Nat
  | [] => []
  | .attach _ l :: h => l :: linksIn h
  | _ :: h => linksIn h

theorem mem_linksIn {v l : Nat} : ∀ {h : List Ev}, .attach v l ∈ h → l ∈ linksIn h
  | [], hm => by cases hm
  | e :: h, hm => by
    rcases List.mem_cons.mp hm with rfl | hm
    · exact List.mem_cons_self
    · have := mem_linksIn hm
      cases e with
      | attach u m => exact List.mem_cons_of_mem _ this
      | _ => exact this

/-- A way to see that no bytes are on their way. -/
theorem quiet_of (c : Link.Classes) (addr : Nat → Str) (h : List Ev) (l : Nat) (hs : ∀ s ∈ linksIn h, ((World.init addr).exec c h).net.toSwitch s = [])
    (hl : ((World.init addr).exec c h).net.toHost l = []) : Quiet ((World.init addr).exec c h) l := by
  refine ⟨fun s => ?_, hl⟩
  by_cases hm : s ∈ linksIn h
  · exact hs s hm
  · rw [net_exec]
    refine (Link.unused c s _ .init (fun a ha => ?_) (by simp [World.init, Link.Net.init]) rfl).2
    obtain ⟨v, hv⟩ := connect_attach c h _ ha
    exact hm (mem_linksIn hv)

/-- Only connections that were attached have bytes on their way to the switch. -/
theorem accepted_of (c : Link.Classes) (addr : Nat → Str) (h : List Ev) (hs : ∀ s ∈ linksIn h, s ∈ ((World.init addr).exec c h).net.swUp) :
    ∀ s, ((World.init addr).exec c h).net.toSwitch s ≠ [] → s ∈ ((World.init addr).exec c h).net.swUp := by
  intro s hn
  by_cases hm : s ∈ linksIn h
  · exact hs s hm
  · refine absurd ?_ hn
    rw [net_exec]
    refine (Link.unused c s _ .init (fun a ha => ?_) (by simp [World.init, Link.Net.init]) rfl).2
    obtain ⟨v, hv⟩ := connect_attach c h _ ha
    exact hm (mem_linksIn hv)

namespace Ex

def addrs (v : Nat) : Str := if v = 0 then "1.1.1.1".toList else if v = 1 then "2.2.2.2".toList else "3.3.3.3".toList

/-- Both are attached and announced; VNIC 1 listens on port 80, VNIC 0 has a connection to it. -/
def h1 : List Ev := [.accept 0, .accept 1, .attach 0 0, .attach 1 1, .toSwitch 0 100, .toSwitch 1 100,
  .own 1 (.ctlMade 0) 0, .own 1 (.openSocket 0 7 (.listen 80)) 0,
  .own 0 (.ctlMade 0) 0, .own 0 (.openSocket 0 1 (.connect "2.2.2.2".toList 80)) 0, .own 0 (.connected 0) 0, .own 0 (.finished 0) 0]

/-- Its application sends twice; the bytes arrive in two chunks; VNIC 1 accepts. -/
def h2 : List Ev := [.own 0 (.reverse 0 [1, 2, 3]) 0, .own 0 (.reverse 0 [4]) 0, .toSwitch 0 500, .toHost 1 30, .toHost 1 500,
  .own 1 (.connected 0) 0, .own 1 (.finished 0) 0]

def k : Vnic.Key := ⟨"1.1.1.1".toList, 2000, "2.2.2.2".toList, 80⟩

def run (h : List Ev) : World := (World.init addrs).exec lClasses h

theorem text {s : Str} (h : (isAscii s && decide (s.length < 100)) = true) : Link.Text s := Link.text_ex s h

theorem plain1 : Plain "1.1.1.1".toList := ⟨text (by decide +kernel), .inl ⟨Verif.addr 1 1 1 1, by decide +kernel⟩⟩
theorem plain2 : Plain "2.2.2.2".toList := ⟨text (by decide +kernel), .inl ⟨Verif.addr 2 2 2 2, by decide +kernel⟩⟩
theorem plain3 : Plain "3.3.3.3".toList := ⟨text (by decide +kernel), .inl ⟨Verif.addr 3 3 3 3, by decide +kernel⟩⟩

theorem plain (v : Nat) : Plain (addrs v) := by
  unfold addrs
  split
  · exact plain1
  · split
    · exact plain2
    · exact plain3

theorem self (v : Nat) : Link.Reaches (addrs v) (addrs v) := by
  unfold addrs
  split
  · decide +kernel
  · split <;> decide +kernel

theorem proper : ∀ e ∈ h1 ++ h2, Proper e := by
  intro e he
  simp only [h1, h2, List.mem_append, List.mem_cons, List.not_mem_nil, or_false] at he
  rcases he with (rfl | rfl | rfl | rfl | rfl | rfl | rfl | rfl | rfl | rfl | rfl | rfl) | rfl | rfl | rfl | rfl | rfl | rfl | rfl
  all_goals first | trivial | exact ⟨trivial, by decide⟩ | exact ⟨⟨plain2, by decide⟩, by decide⟩ | exact ⟨by show List.length _ < _; decide, by decide⟩

theorem quiet1 : Quiet (run h1) 1 := quiet_of _ _ _ _ (by decide +kernel) (by decide +kernel)
theorem quiet2 : Quiet (run (h1 ++ h2)) 1 := quiet_of _ _ _ _ (by decide +kernel) (by decide +kernel)

theorem onSwitch : OnSwitch lClasses addrs h1 h2 1 1 where
  attached := by decide +kernel
  stays := by simp [h2]
  kept := by simp [h1, h2]
  plain := by simp [h1, h2]
  address := (isValidBlockString_iff _).mp (by decide +kernel)

theorem holds : Holds ((run h1).vnic 1) ((run (h1 ++ h2)).vnic 1) k.inverse 0 := by
  refine ⟨by decide +kernel, .inr ⟨by decide +kernel, ⟨0, ⟨by decide +kernel, by decide +kernel⟩, by decide +kernel, by decide +kernel⟩, ?_⟩⟩
  intro j h1 h2 _
  have : ((run (Ex.h1 ++ Ex.h2)).vnic 1).nConn = 1 := by decide +kernel
  omega

theorem small : ∀ v, ∀ x ∈ sentBy lClasses v (run h1) h2, Link.Reaches x.1.destination (addrs 1) → x.2.length ≤ 2 ^ 16 := by
  intro v x hx _
  have h0 : sentBy lClasses 0 (run h1) h2 = [(k, [1, 2, 3]), (k, [4])] := by decide +kernel
  by_cases hv : v = 0
  · subst hv
    rw [h0] at hx
    simp only [List.mem_cons, List.not_mem_nil, or_false] at hx
    rcases hx with rfl | rfl <;> decide
  · have : sentBy lClasses v (run h1) h2 = [] := by
      simp [h2, sentBy, sentNow, Ne.symm hv]
    rw [this] at hx; cases hx

/-- All hypotheses of the theorems hold, and the bytes are those that were sent. -/
example : received ((run (h1 ++ h2)).vnic 1) 0 = [1, 2, 3, 4] := by
  have := C60_sockets lOk addrs plain self h1 h2 proper 0 1 0 1 (fun v l x hm e1 e2 => by
    simp only [h1, h2, List.mem_append, List.mem_cons, List.not_mem_nil, or_false, reduceCtorEq, false_or, Ev.attach.injEq] at hm
    rcases hm with hm | hm
    · exact hm.1
    · rw [hm.1] at e1
      rw [show addrs 1 = (Verif.addr 2 2 2 2).str by decide +kernel] at e1
      rw [show addrs 0 = (Verif.addr 1 1 1 1).str by decide +kernel] at e2
      exact absurd (C60_distinct (z := 2) (n := 2) (d := 2) (i := 2) (z' := 1) (n' := 1) (d' := 1) (i' := 1) e1 e2) (by decide))
    (by decide +kernel) (by simp [h2]) onSwitch k (by decide +kernel) quiet1 quiet2 small (by simp [h1, h2])
    (by simp [h2, IsRaw]) (by decide +kernel) 0 holds
  rw [show (World.init addrs).exec lClasses (h1 ++ h2) = run (h1 ++ h2) from rfl] at this
  rw [this]
  decide +kernel

/-- The same in the middle: the bytes of the first message are still on their way, but there is a continuation. -/
def h2' : List Ev := [.own 0 (.reverse 0 [1, 2, 3]) 0, .toSwitch 0 500, .toHost 1 500, .own 0 (.reverse 0 [4]) 0, .toSwitch 0 5]

theorem sent' (v : Nat) : sentBy lClasses v (run h1) h2' = if v = 0 then [(k, [1, 2, 3]), (k, [4])] else [] := by
  by_cases hv : v = 0
  · subst hv; decide +kernel
  · rw [if_neg hv]; simp [h2', sentBy, sentNow, Ne.symm hv]

example : received ((run (h1 ++ h2')).vnic 1) 0 = [1, 2, 3] ∧ ∃ h3, (∀ e ∈ h3, Arrive 1 e) ∧ received ((run (h1 ++ h2' ++ h3)).vnic 1) 0 = [1, 2, 3, 4] := by
  refine ⟨by decide +kernel, ?_⟩
  obtain ⟨h3, g1, g2⟩ := C60_can_arrive lOk addrs plain h1 h2' (by
      intro e he
      simp only [h1, h2', List.mem_append, List.mem_cons, List.not_mem_nil, or_false] at he
      rcases he with (rfl | rfl | rfl | rfl | rfl | rfl | rfl | rfl | rfl | rfl | rfl | rfl) | rfl | rfl | rfl | rfl | rfl
      all_goals first | trivial | exact ⟨trivial, by decide⟩ | exact ⟨⟨plain2, by decide⟩, by decide⟩ | exact ⟨by show List.length _ < _; decide, by decide⟩)
    0 1 0 1 (by decide +kernel) (by simp [h2']) ⟨by decide +kernel, by simp [h2'], by simp [h1, h2'], by simp [h1, h2'], onSwitch.address⟩ k (by decide +kernel) quiet1
    (by
      intro v x hx _
      rw [show (World.init addrs).exec lClasses h1 = run h1 from rfl, sent'] at hx
      split at hx
      · simp only [List.mem_cons, List.not_mem_nil, or_false] at hx
        rcases hx with rfl | rfl <;> decide
      · cases hx)
    (by
      intro v hv x hx
      rw [show (World.init addrs).exec lClasses h1 = run h1 from rfl, sent', if_neg hv] at hx
      cases hx)
    0 (by
      refine ⟨by decide +kernel, .inr ⟨by decide +kernel, ⟨0, ⟨by decide +kernel, by decide +kernel⟩, by decide +kernel, by decide +kernel⟩, ?_⟩⟩
      intro j h1 h2 _
      have : (((World.init addrs).exec lClasses (Ex.h1 ++ Ex.h2')).vnic 1).nConn = 1 := by decide +kernel
      omega)
    (accepted_of _ _ _ (by decide +kernel))
  refine ⟨h3, g1, g2.trans ?_⟩
  rw [show (World.init addrs).exec lClasses h1 = run h1 from rfl, sent']
  decide +kernel

end Ex

/-! ## What does not hold -/

open Ex

/-- C60. The other side of a closed connection is not told: the application at VNIC 0 closes its connection, no bytes are on their way, VNIC 0 has no connection any more,
VNIC 1 still has it, its application has not been told (nothing was closed), and what it sends is dropped without a word. -/
theorem C60_false_told : ∃ h : List Ev, ((run h).vnic 0).conns = [] ∧ ((run h).vnic 1).conns.get k.inverse = some 0 ∧ (∀ t, .close t ∉ ((run h).vnic 1).out) ∧
    received ((run h).vnic 1) 0 = [1, 2, 3, 4] ∧ (∃ v, sentBy lClasses 1 (.init addrs) h = [(k.inverse, v)]) ∧ Quiet (run h) 0 ∧ Quiet (run h) 1 ∧
    ((run h).net.tx 0).got.map (·.2) = [[9]] ∧ received ((run h).vnic 0) 0 = [] := by
  refine ⟨h1 ++ h2 ++ [.own 0 (.lost 0) 0, .toSwitch 0 500, .toHost 1 500, .own 1 (.reverse 0 [9]) 0, .toSwitch 1 500, .toHost 0 500], by decide +kernel, by decide +kernel, ?_,
    by decide +kernel, ⟨[9], by decide +kernel⟩, quiet_of _ _ _ _ (by decide +kernel) (by decide +kernel), quiet_of _ _ _ _ (by decide +kernel) (by decide +kernel), by decide +kernel, by decide +kernel⟩
  have : ((run (h1 ++ h2 ++ [.own 0 (.lost 0) 0, .toSwitch 0 500, .toHost 1 500, .own 1 (.reverse 0 [9]) 0, .toSwitch 1 500, .toHost 0 500])).vnic 1).out =
      [.respond 0 7 (.port 80), .write 0 [1, 2, 3, 4], .announce 0 7 0 k.inverse, .link k.inverse [9]] := by decide +kernel
  rw [this]
  simp

/-- C60. A connect succeeds without anyone at the other side: VNIC 0 is alone, its connect is answered with a port, its callback connection is announced, and what
the application sends disappears. -/
theorem C60_false_nobody : ∃ h : List Ev, (∀ v l, .attach v l ∈ h → v = 0) ∧ .respond 0 1 (.port 2000) ∈ ((run h).vnic 0).out ∧ .announce 0 1 0 k ∈ ((run h).vnic 0).out ∧
    sentBy lClasses 0 (.init addrs) h = [(k, [1, 2, 3])] ∧ ((run h).vnic 0).conns.get k = some 0 ∧ (∀ t, .close t ∉ ((run h).vnic 0).out) ∧ Quiet (run h) 0 := by
  refine ⟨[.accept 0, .attach 0 0, .toSwitch 0 100, .own 0 (.ctlMade 0) 0, .own 0 (.openSocket 0 1 (.connect "2.2.2.2".toList 80)) 0, .own 0 (.connected 0) 0, .own 0 (.finished 0) 0,
    .own 0 (.reverse 0 [1, 2, 3]) 0, .toSwitch 0 500], by simp, by decide +kernel, by decide +kernel, by decide +kernel, by decide +kernel, ?_,
    quiet_of _ _ _ _ (by decide +kernel) (by decide +kernel)⟩
  have : ((run [.accept 0, .attach 0 0, .toSwitch 0 100, .own 0 (.ctlMade 0) 0, .own 0 (.openSocket 0 1 (.connect "2.2.2.2".toList 80)) 0, .own 0 (.connected 0) 0, .own 0 (.finished 0) 0,
    .own 0 (.reverse 0 [1, 2, 3]) 0, .toSwitch 0 500]).vnic 0).out = [.respond 0 1 (.port 2000), .announce 0 1 0 k, .link k [1, 2, 3]] := by decide +kernel
  rw [this]
  simp

/-- C60. A stream can begin in the middle: the application at VNIC 1 closes the accepted connection while the other one goes on sending, and gets the rest on a new
connection, as if somebody had connected. -/
theorem C60_false_middle : ∃ h : List Ev, bytesOn k (sentBy lClasses 0 (.init addrs) h) = [1, 2, 3, 4, 5, 6] ∧ received ((run h).vnic 1) 0 = [1, 2, 3, 4] ∧
    ((run h).vnic 1).conns.get k.inverse = some 1 ∧ received ((run h).vnic 1) 1 = [5, 6] ∧ ((run h).vnic 0).nConn = 1 ∧ Quiet (run h) 1 :=
  ⟨h1 ++ h2 ++ [.own 1 (.lost 0) 0, .own 0 (.reverse 0 [5, 6]) 0, .toSwitch 0 500, .toHost 1 500], by decide +kernel, by decide +kernel, by decide +kernel, by decide +kernel,
    by decide +kernel, quiet_of _ _ _ _ (by decide +kernel) (by decide +kernel)⟩

/-- C60. Nor does a stream come from one VNIC only when others are promiscuous: VNIC 2 announces `*.*.*.*` and listens on the same port; it accepts the connection
that VNIC 0 opened to VNIC 1, and the application at VNIC 0 gets what both answer. -/
theorem C60_false_hijack : ∃ h : List Ev, (∀ e ∈ h, ¬ IsRaw e) ∧ ((run h).vnic 1).conns.get k.inverse = some 0 ∧ ((run h).vnic 2).conns.get k.inverse = some 0 ∧
    received ((run h).vnic 2) 0 = [1, 2, 3] ∧ sentBy lClasses 1 (.init addrs) h = [(k.inverse, [7])] ∧ sentBy lClasses 2 (.init addrs) h = [(k.inverse, [8])] ∧
    received ((run h).vnic 0) 0 = [8, 7] := by
  refine ⟨h1 ++ [.accept 2, .attach 2 2, .announce 2 "*.*.*.*".toList, .toSwitch 2 500, .own 2 (.ctlMade 0) 0, .own 2 (.openSocket 0 7 (.listen 80)) 0,
    .own 0 (.reverse 0 [1, 2, 3]) 0, .toSwitch 0 500, .toHost 1 500, .toHost 2 500, .own 1 (.connected 0) 0, .own 1 (.finished 0) 0, .own 2 (.connected 0) 0, .own 2 (.finished 0) 0,
    .own 2 (.reverse 0 [8]) 0, .toSwitch 2 500, .own 1 (.reverse 0 [7]) 0, .toSwitch 1 500, .toHost 0 500],
    by simp [h1, IsRaw], by decide +kernel, by decide +kernel, by decide +kernel, by decide +kernel, by decide +kernel, by decide +kernel⟩

end Verif.E2E
