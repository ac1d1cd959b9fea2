import Verif.Lemmas.WanLinks
/-! # WAN with devices: histories -/
namespace Verif.WanNet
open Verif.Switch

/-! ## Packets change nothing but the output -/

/-- Only the output and the number of draws change. -/
def Quiet (n n' : Net) : Prop := ∃ o d, n' = { n with out := n.out ++ o, draws := d }

theorem Quiet.refl (n : Net) : Quiet n n := ⟨[], n.draws, by simp⟩

theorem Quiet.trans {a b c : Net} (h1 : Quiet a b) (h2 : Quiet b c) : Quiet a c := by
  obtain ⟨o1, d1, rfl⟩ := h1
  obtain ⟨o2, d2, rfl⟩ := h2
  exact ⟨o1 ++ o2, d2, by simp⟩

theorem writeEach_quiet {wr : Net → Nat → Option Net} (hw : ∀ n l n', wr n l = some n' → Quiet n n') : ∀ (ls : List Nat) (n : Net),
    Quiet n (Net.writeEach wr n ls) := by
  intro ls
  induction ls with
  | nil => intro n; exact .refl n
  | cons l ls ih =>
    intro n
    unfold Net.writeEach
    cases hx : wr n l with
    | none => exact .refl n
    | some n' => exact (hw n l n' hx).trans (ih n')

theorem write_quiet (c : Cfg) (d : Str) (x : Nat) : ∀ (f : Nat) (n : Net) (l : Nat) (n' : Net), Net.write c f n l (.wire d x) = some n' → Quiet n n' := by
  intro f
  induction f with
  | zero =>
    intro n l n' h
    unfold Net.write at h
    dsimp only at h
    split at h
    · split at h
      · cases h; exact ⟨_, n.draws, rfl⟩
      · split at h <;> (cases h; exact ⟨[], n.draws + 1, by simp⟩)
    · cases h
  | succ f ih =>
    intro n l n' h
    unfold Net.write at h
    split at h
    · split at h
      · cases h; exact ⟨_, n.draws, rfl⟩
      · split at h
        · cases h; exact ⟨[], n.draws + 1, by simp⟩
        · cases h
          refine Quiet.trans (b := { n with draws := n.draws + 1 }) ⟨[], n.draws + 1, by simp⟩ ?_
          unfold Net.receive
          split
          · exact .refl _
          · dsimp only
            split
            · exact .refl _
            · exact writeEach_quiet (fun n l n' => ih n l n') _ _
    · cases h

theorem send_quiet (c : Cfg) (n : Net) (i : Nat) (d : Str) (x : Nat) : Quiet n (n.send c i d x) := by
  unfold Net.send
  split
  · split
    · exact .refl n
    · split
      · exact .refl n
      · exact writeEach_quiet (fun n l n' => write_quiet c d x _ n l n') _ _
  · exact .refl n

theorem Inv.quiet {n n' : Net} {v : View} (h : Inv n v) (hq : Quiet n n') : Inv n' v := by
  obtain ⟨o, d, rfl⟩ := hq
  exact ⟨⟨⟨h.d.good, h.d.keys, h.d.tabs, h.d.router, h.d.addr⟩, h.d.nodupC, h.d.conns, h.d.nodupU, h.d.up, h.d.place⟩,
    h.l.tabs, h.l.dev, h.l.fresh, h.l.pair, h.l.direct, h.l.wf⟩

theorem Inv.rest {n n' : Net} {v v' : View} (h : Inv n v) (hd : DevInv n' v' ∧ Rest n n') : Inv n' v' := ⟨hd.1, h.l.rest hd.2⟩

/-! ## Registering prefixes -/

theorem tab_new {L : Dict Int Switch} {p : Int} (h : p ∉ L.keys) (q : Int) (l : Nat) : tab (L.set p .new) q l = tab L q l := by
  rw [tab_set]
  split
  · next e => rw [e, tab_unknown h]; rfl
  · rfl

theorem register_spec' {n : Net} {v : View} (h : Inv n v) (hk : n.routes.keys = v.lans) (p : Int) :
    Inv (n.register p) (v.step (.register p)) ∧ (n.register p).routes = Wan.step n.routes (.register p) ∧
      ∀ a b, Served n a b → Served (n.register p) a b := by
  unfold Net.register Wan.step View.step Wan.registerLANSwitch
  dsimp only
  by_cases hp : p ∈ v.lans
  · rw [if_pos hp, if_pos (Dict.has_iff.mpr (by rw [hk]; exact hp))]
    exact ⟨h, rfl, fun _ _ hs => hs⟩
  · rw [if_neg hp, if_neg (fun hx => hp (by rw [← hk]; exact Dict.has_iff.mp hx))]
    have hp' : p ∉ n.lans.keys := by rw [h.d.keys]; exact hp
    dsimp only
    have hrow : ∀ q, (n.direct.set p []).get q = if p = q then some [] else n.direct.get q := fun q => Dict.get_set ..
    refine ⟨⟨⟨⟨h.d.good.set inv_new, ?_, ?_, h.d.router, h.d.addr⟩, h.d.nodupC, h.d.conns, h.d.nodupU, h.d.up, ?_⟩,
      ?_, h.l.dev, h.l.fresh, ?_, ?_, ?_⟩, rfl, ?_⟩
    · show (n.lans.set p .new).keys = v.lans ++ [p]
      rw [Dict.keys_set, if_neg hp', h.d.keys]
    · intro q i
      show tab (n.lans.set p .new) q (dev i) = _
      rw [tab_new hp']; exact h.d.tabs q i
    · intro i q hq
      exact ⟨List.mem_append_left _ (h.d.place i q hq).1, (h.d.place i q hq).2⟩
    · intro q j a ha
      have ha : tab (n.lans.set p .new) q (lnk j) = some a := ha
      rw [tab_new hp'] at ha
      exact h.l.tabs q j a ha
    · intro k q k' hk
      refine ⟨?_, (h.l.pair k q k' hk).2⟩
      show q ∈ (n.lans.set p .new).keys
      rw [Dict.keys_set, if_neg hp']
      exact List.mem_append_left _ (h.l.pair k q k' hk).1
    · intro a q k hx
      unfold Net.row at hx
      dsimp only at hx
      rw [hrow] at hx
      split at hx
      · cases hx
      · exact h.l.direct a q k hx
    · intro a
      unfold Net.row
      dsimp only
      rw [hrow]
      split
      · exact Dict.WF.nil
      · exact h.l.wf a
    · rintro a b ⟨j, hj⟩
      refine ⟨j, ?_⟩
      show tab (n.lans.set p .new) a (lnk j) = _
      rw [tab_new hp']; exact hj

/-! ## Direct connections -/

theorem addDirect_ok (r : Int) : ∀ (ds : List Int) (t : Wan.Table Int), r ∈ t.keys → (∀ d ∈ ds, d ∈ t.keys) → (Wan.addDirect t r ds).2 = none := by
  intro ds
  induction ds with
  | nil => intro t _ _; rfl
  | cons d ds ih =>
    intro t hr hd
    unfold Wan.addDirect
    have hd0 := hd d (List.mem_cons_self ..)
    rw [if_pos (Dict.has_iff.mpr hd0)]
    have k1 : (Wan.setEnt t r d [d]).keys = t.keys := Wan.keys_setEnt _ _ hr
    have k2 : (Wan.setEnt (Wan.setEnt t r d [d]) d r [r]).keys = t.keys := (Wan.keys_setEnt _ _ (by rw [k1]; exact hd0)).trans k1
    exact ih _ (by rw [k2]; exact hr) (fun x hx => by rw [k2]; exact hd x (List.mem_cons_of_mem _ hx))

theorem setDirect_ok {g : Wan.Graph Int} {t : Wan.Table Int} (hi : Wan.Inv g t) {r : Int} {ds : List Int} (hr : r ∈ t.keys)
    (hd : ∀ d ∈ ds, d ∈ t.keys) : (Wan.setDirectConnections t r ds).2 = none := by
  unfold Wan.setDirectConnections
  rw [if_pos (Dict.has_iff.mpr hr)]
  obtain ⟨c1, _, _⟩ := Wan.clear_spec hi.wf hi.rwf hr
  have := addDirect_ok r ds (Wan.clear t r) (by rw [c1]; exact hr) (fun d h => by rw [c1]; exact hd d h)
  revert this
  cases Wan.addDirect (Wan.clear t r) r ds with
  | mk u o => intro this; have this : o = none := this; rw [this]

theorem Inv.routes {n : Net} {v : View} (h : Inv n v) (t : Wan.Table Int) : Inv { n with routes := t } v :=
  ⟨⟨⟨h.d.good, h.d.keys, h.d.tabs, h.d.router, h.d.addr⟩, h.d.nodupC, h.d.conns, h.d.nodupU, h.d.up, h.d.place⟩,
    h.l.tabs, h.l.dev, h.l.fresh, h.l.pair, h.l.direct, h.l.wf⟩

theorem Inv.ok {n : Net} {v : View} (h : Inv n v) (o : Prop) : Inv n { v with ok := o } :=
  ⟨⟨⟨h.d.good, h.d.keys, h.d.tabs, h.d.router, h.d.addr⟩, h.d.nodupC, h.d.conns, h.d.nodupU, h.d.up, h.d.place⟩, h.l⟩

theorem connect_spec (c : Cfg) {n : Net} {v : View} (h : Inv n v) (hk : n.routes.keys = v.lans) (r : Int) (ds : List Int) :
    Inv (n.connect c r ds) (v.step (.connect r ds)) ∧ (n.connect c r ds).routes = Wan.step n.routes (.connect r ds) ∧
      (∀ a b, a ≠ r → b ≠ r → Served n a b → Served (n.connect c r ds) a b) ∧
      (Reliable c → r ∈ v.lans → (Wan.setDirectConnections n.routes r ds).2 = none →
        ∀ d ∈ (Wan.row (Wan.setDirectConnections n.routes r ds).1 r).keys, d ∈ v.lans →
          Served (n.connect c r ds) r d ∧ Served (n.connect c r ds) d r) := by
  unfold Net.connect View.step Wan.step
  dsimp only
  by_cases hr : r ∈ v.lans
  · rw [if_pos (Dict.has_iff.mpr (by rw [hk]; exact hr))]
    obtain ⟨d1, d2, d3⟩ := destroyAll_spec r n.routes.keys h
    generalize n.routes.keys.foldl (fun n p => n.destroy r p) n = n1 at d1 d2 d3 ⊢
    cases Wan.setDirectConnections n.routes r ds with
    | mk t o =>
      cases o with
      | some e => exact ⟨(d1.routes t).ok _, rfl, d3, fun _ _ hx => by cases hx⟩
      | none =>
        obtain ⟨c1, c2, c3, c4⟩ := createAll_spec c r (Wan.row t r).keys (d1.routes t) hr
        exact ⟨c1.ok _, c2, fun a b ha hb hs => c3 a b (d3 a b ha hb hs), fun hc _ _ => c4 hc⟩
  · rw [if_neg (fun hx => hr (by rw [← hk]; exact Dict.has_iff.mp hx))]
    refine ⟨h.ok _, ?_, fun _ _ _ _ hs => hs, fun _ hx => absurd hx hr⟩
    unfold Wan.setDirectConnections
    rw [if_neg (fun hx => hr (by rw [← hk]; exact Dict.has_iff.mp hx))]

/-! ## Histories -/

theorem exec_append (c : Cfg) (h1 h2 : List Ev) (n : Net) : exec c n (h1 ++ h2) = exec c (exec c n h1) h2 := by
  induction h1 generalizing n with
  | nil => rfl
  | cons e h ih => exact ih _

theorem after_append (h1 h2 : List Ev) (v : View) : v.after (h1 ++ h2) = (v.after h1).after h2 := by
  induction h1 generalizing v with
  | nil => rfl
  | cons e h ih => exact ih _

theorem routeEvs_append (h1 h2 : List Ev) : routeEvs (h1 ++ h2) = routeEvs h1 ++ routeEvs h2 := by
  induction h1 with
  | nil => rfl
  | cons e h ih => cases e <;> simp [routeEvs, ih]

theorem wexec_append (h1 h2 : List (Wan.Ev Int)) (t : Wan.Table Int) : Wan.exec t (h1 ++ h2) = Wan.exec (Wan.exec t h1) h2 := by
  induction h1 generalizing t with
  | nil => rfl
  | cons e h ih => exact ih _

theorem gafter_append (h1 h2 : List (Wan.Ev Int)) (g : Wan.Graph Int) : g.after (h1 ++ h2) = (g.after h1).after h2 := by
  induction h1 generalizing g with
  | nil => rfl
  | cons e h ih => exact ih _

/-- What holds after every history. -/
structure Run (c : Cfg) (h : List Ev) : Prop where
  inv : Inv (exec c .new h) (view h)
  routes : (exec c .new h).routes = Wan.exec [] (routeEvs h)
  nodes : (Wan.graph (routeEvs h)).nodes = (view h).lans
  ok : (view h).ok → (Wan.graph (routeEvs h)).ok
  served : Reliable c → (view h).ok → ∀ p q, Linked h p q → Served (exec c .new h) p q

theorem Run.keys {c : Cfg} {h : List Ev} (r : Run c h) : (exec c .new h).routes.keys = (view h).lans := by
  rw [r.routes, ← r.nodes]
  exact Wan.C39_prefixes (routeEvs h)

theorem Run.nil (c : Cfg) : Run c [] := by
  refine ⟨⟨⟨⟨⟨Dict.WF.nil, by simp [exec, Net.new]⟩, rfl, ?_, ?_, ?_⟩, List.nodup_nil, ?_, List.nodup_nil, ?_, ?_⟩, ?_, ?_, ?_, ?_, ?_, ?_⟩,
    rfl, rfl, fun _ => trivial, fun _ _ p q hl => hl.elim⟩
  · intro p i
    simp [exec, Net.new, tab, view, View.after, Switch.new]
  · intro i; exact rfl
  · intro i a ha; simp [view, View.after] at ha
  · intro i; simp [exec, Net.new, view, View.after]
  · intro i; simp [exec, Net.new, view, View.after]
  · intro i p hp; simp [view, View.after] at hp
  · intro p j a ha; simp [exec, Net.new, tab, Switch.new] at ha
  · intro i; rfl
  · intro j _; exact ⟨rfl, by simp [exec, Net.new]⟩
  · intro k p k' hk; cases hk
  · intro p q k hk; simp [exec, Net.new, Net.row] at hk
  · intro p; exact Dict.WF.nil

/-- Events that do not concern the routes. -/
theorem Run.other {c : Cfg} {h : List Ev} (r : Run c h) (e : Ev) (he : routeEvs [e] = []) (hv : ((view h).step e).lans = (view h).lans)
    (ho : ((view h).step e).ok = (view h).ok)
    (hi : Inv (step c (exec c .new h) e) ((view h).step e)) (hr : (step c (exec c .new h) e).routes = (exec c .new h).routes)
    (hs : ∀ p q, Served (exec c .new h) p q → Served (step c (exec c .new h) e) p q) : Run c (h ++ [e]) := by
  have e1 : exec c .new (h ++ [e]) = step c (exec c .new h) e := exec_append ..
  have e2 : view (h ++ [e]) = (view h).step e := after_append ..
  have e3 : routeEvs (h ++ [e]) = routeEvs h := by rw [routeEvs_append, he, List.append_nil]
  refine ⟨by rw [e1, e2]; exact hi, by rw [e1, e3, hr]; exact r.routes, by rw [e2, e3, hv]; exact r.nodes, by rw [e2, e3, ho]; exact r.ok, ?_⟩
  intro hc hok p q hl
  unfold Linked at hl
  rw [e3] at hl
  rw [e2, ho] at hok
  rw [e1]
  exact hs p q (r.served hc hok p q hl)

theorem Run.step {c : Cfg} {h : List Ev} (r : Run c h) (e : Ev) : Run c (h ++ [e]) := by
  have e1 : exec c .new (h ++ [e]) = WanNet.step c (exec c .new h) e := exec_append ..
  have e2 : view (h ++ [e]) = (view h).step e := after_append ..
  cases e with
  | accept i =>
    obtain ⟨a, b⟩ := dev_accept r.inv.d i
    refine r.other _ rfl ?_ ?_ (r.inv.rest ⟨a, b⟩) b.routes (fun p q hs => hs.rest b)
    · unfold View.step; dsimp only; split <;> rfl
    · unfold View.step; dsimp only; split <;> rfl
  | locate i p =>
    obtain ⟨a, b⟩ := dev_locate r.inv.d i p
    refine r.other _ rfl ?_ ?_ (r.inv.rest ⟨a, b⟩) b.routes (fun p q hs => hs.rest b)
    · unfold View.step; dsimp only; split <;> rfl
    · unfold View.step; dsimp only; split <;> rfl
  | announce i x =>
    obtain ⟨a, b⟩ := dev_announce r.inv.d i x
    refine r.other _ rfl ?_ ?_ (r.inv.rest ⟨a, b⟩) b.routes (fun p q hs => hs.rest b)
    · unfold View.step; dsimp only; split <;> rfl
    · unfold View.step; dsimp only; split <;> rfl
  | lost i =>
    obtain ⟨a, b⟩ := dev_lost r.inv.d i
    refine r.other _ rfl ?_ ?_ (r.inv.rest ⟨a, b⟩) b.routes (fun p q hs => hs.rest b)
    · unfold View.step; dsimp only; split <;> rfl
    · unfold View.step; dsimp only; split <;> rfl
  | send i d x =>
    have hq := send_quiet c (exec c .new h) i d x
    refine r.other _ rfl rfl rfl (r.inv.quiet hq) ?_ ?_
    · obtain ⟨o, d, hq⟩ := hq
      show (Net.send ..).routes = _
      rw [hq]
    · obtain ⟨o, d, hq⟩ := hq
      intro p q hs
      show Served (Net.send ..) p q
      rw [hq]
      exact hs
  | register p =>
    obtain ⟨a, b, d⟩ := register_spec' r.inv r.keys p
    have e3 : routeEvs (h ++ [.register p]) = routeEvs h ++ [.register p] := routeEvs_append ..
    have e4 : Wan.graph (routeEvs h ++ [.register p]) = (Wan.graph (routeEvs h)).step (.register p) := gafter_append ..
    refine ⟨by rw [e1, e2]; exact a, ?_, ?_, ?_, ?_⟩
    · rw [e1, e3, wexec_append, ← r.routes]; exact b
    · rw [e2, e3, e4]
      unfold View.step Wan.Graph.step
      dsimp only
      rw [r.nodes]
      split
      · exact r.nodes
      · rfl
    · rw [e2, e3, e4]
      intro hok
      have hok : (view h).ok := by
        unfold View.step at hok
        dsimp only at hok
        split at hok <;> exact hok
      unfold Wan.Graph.step
      dsimp only
      split <;> exact r.ok hok
    · intro hc hok x y hl
      unfold Linked at hl
      rw [e3, e4] at hl
      rw [e2] at hok
      rw [e1]
      refine d x y (r.served hc ?_ x y ?_)
      · unfold View.step at hok
        dsimp only at hok
        split at hok <;> exact hok
      · unfold Wan.Graph.step at hl
        dsimp only at hl
        split at hl <;> exact hl
  | connect s ds =>
    obtain ⟨a, b, d1, d2⟩ := connect_spec c r.inv r.keys s ds
    have e3 : routeEvs (h ++ [.connect s ds]) = routeEvs h ++ [.connect s ds] := routeEvs_append ..
    have e4 : Wan.graph (routeEvs h ++ [.connect s ds]) = (Wan.graph (routeEvs h)).step (.connect s ds) := gafter_append ..
    have hi := Wan.inv (routeEvs h)
    rw [← r.routes] at hi
    refine ⟨by rw [e1, e2]; exact a, ?_, ?_, ?_, ?_⟩
    · rw [e1, e3, wexec_append, ← r.routes]; exact b
    · rw [e2, e3, e4]
      unfold View.step Wan.Graph.step
      dsimp only
      split
      · exact r.nodes
      · exact r.nodes
    · rw [e2, e3, e4]
      intro hok
      have hok : (view h).ok ∧ (s ∈ (view h).lans → ∀ d ∈ ds, d ∈ (view h).lans) := hok
      unfold Wan.Graph.step
      dsimp only
      rw [r.nodes]
      split
      · next hs => exact hok.2 hs
      · exact r.ok hok.1
    · intro hc hok x y hl
      have hmem := hl
      unfold Linked at hl
      rw [e3, e4] at hl
      rw [e2] at hok
      have hok : (view h).ok ∧ (s ∈ (view h).lans → ∀ d ∈ ds, d ∈ (view h).lans) := hok
      rw [e1]
      unfold Wan.Graph.step at hl
      dsimp only at hl
      by_cases hs : s ∈ (view h).lans
      · rw [if_pos (by rw [r.nodes]; exact hs)] at hl
        have hx := setDirect_ok hi (r := s) (ds := ds) (by rw [r.keys]; exact hs) (fun d hd => by rw [r.keys]; exact hok.2 hs d hd)
        have hkey : ∀ z, Linked (h ++ [.connect s ds]) s z → z ∈ (Wan.row (Wan.setDirectConnections (exec c .new h).routes s ds).1 s).keys := by
          intro z hz
          have hz := Wan.C39_direct _ _ _ hz
          rw [e3, wexec_append, ← r.routes] at hz
          have hz : Wan.getRoute (Wan.setDirectConnections (exec c .new h).routes s ds).1 s z = [z] := hz
          unfold Wan.getRoute at hz
          rw [Dict.mem_keys_iff]
          cases hg : (Wan.row (Wan.setDirectConnections (exec c .new h).routes s ds).1 s).get z with
          | none => rw [hg] at hz; cases hz
          | some w => exact ⟨w, rfl⟩
        rcases hl with ⟨hl, h1, h2⟩ | ⟨rfl, hy⟩ | ⟨rfl, hx'⟩
        · exact d1 x y h1 h2 (r.served hc hok.1 x y hl)
        · exact (d2 hc hs hx y (hkey y hmem) (hok.2 hs y (List.takeWhile_subset _ hy))).1
        · refine (d2 hc hs hx x (hkey x ?_) (hok.2 hs x (List.takeWhile_subset _ hx'))).2
          show (Wan.graph _).edge y x
          rw [e3, e4]
          unfold Wan.Graph.step
          dsimp only
          rw [if_pos (by rw [r.nodes]; exact hs)]
          exact .inr (.inl ⟨rfl, hx'⟩)
      · rw [if_neg (by rw [r.nodes]; exact hs)] at hl
        have := r.served hc hok.1 x y hl
        show Served (Net.connect ..) x y
        unfold Net.connect
        rw [if_neg (fun hx => hs (by rw [← r.keys]; exact Dict.has_iff.mp hx))]
        exact this

theorem run (c : Cfg) (h : List Ev) : Run c h := by
  induction h using List.reverseRecOn with
  | nil => exact Run.nil c
  | append_singleton h e ih => exact ih.step e

end Verif.WanNet
