import Verif.Spec.Routes
import Verif.Lemmas.Dict
import Verif.Props.Address
namespace Verif.Routes
open Verif.Dict

theorem norm_default : norm defaultKey = defaultKey := by decide

/-- The section represents the abstract configuration. -/
structure Rep (d : Dict Str Str) (n : Net) : Prop where
  wf : WF d
  low : ∀ k ∈ d.keys, norm k = k
  routes : n.routes = d.filter (·.1 ≠ defaultKey)
  default : n.default = d.get defaultKey

theorem set_new {d : Dict Str Str} {k v : Str} (h : k ∉ d.keys) : d.set k v = d ++ [(k, v)] := by
  induction d with
  | nil => rfl
  | cons x t ih =>
    obtain ⟨a, b⟩ := x
    simp only [keys, List.map_cons, List.mem_cons, not_or] at h
    rw [Dict.set, if_neg (Ne.symm h.1), ih h.2]; rfl

theorem filter_set {d : Dict Str Str} {k v : Str} : (d.set k v).filter (·.1 ≠ k) = d.filter (·.1 ≠ k) := by
  induction d with
  | nil => simp [Dict.set]
  | cons x t ih =>
    obtain ⟨a, b⟩ := x
    rw [Dict.set]
    split
    · next h => subst h; simp
    · next h => simp [h]; simpa using ih

theorem del_eq_filter {d : Dict Str Str} (h : WF d) (k : Str) : d.del k = d.filter (·.1 ≠ k) := by
  induction d with
  | nil => rfl
  | cons x t ih =>
    obtain ⟨a, b⟩ := x
    have h' : a ∉ t.map Prod.fst ∧ (t.map Prod.fst).Nodup := List.nodup_cons.mp h
    rw [Dict.del]
    split
    · next hk =>
      subst hk
      have : t.filter (·.1 ≠ a) = t := by
        rw [List.filter_eq_self]
        intro y hy
        simp only [ne_eq, decide_not, Bool.not_eq_eq_eq_not, Bool.not_true, decide_eq_false_iff_not]
        rintro rfl
        exact h'.1 (List.mem_map_of_mem hy)
      rw [List.filter_cons]; simp; simpa using this.symm
    · next hk => rw [List.filter_cons]; simp [hk]; simpa using ih h'.2

theorem Rep.nil : Rep [] ⟨[], none⟩ := ⟨WF.nil, by simp [keys], rfl, rfl⟩

theorem mem_routes {d : Dict Str Str} {n : Net} (h : Rep d n) {r : Str} (hr : r ≠ defaultKey) : r ∈ n.routes.map (·.1) ↔ r ∈ d.keys := by
  rw [h.routes]
  simp only [List.mem_map, List.mem_filter, keys]
  constructor
  · rintro ⟨x, ⟨hx, _⟩, rfl⟩; exact ⟨x, hx, rfl⟩
  · rintro ⟨x, hx, rfl⟩; exact ⟨x, ⟨hx, by simpa using hr⟩, rfl⟩

theorem Rep.add {d n} (h : Rep d n) {r dev : Str} (hr : Plain r) (hn : r ∉ d.keys) : Rep (d.set (norm r) dev) { n with routes := n.routes ++ [(r, dev)] } := by
  rw [hr.1]
  refine ⟨h.wf.set _ _, ?_, ?_, ?_⟩
  · intro k hk
    rw [set_new hn] at hk
    simp only [keys, List.map_append, List.map_cons, List.map_nil, List.mem_append, List.mem_singleton] at hk
    rcases hk with hk | rfl
    · exact h.low k hk
    · exact hr.1
  · rw [set_new hn, List.filter_append, ← h.routes]; simp [hr.2]
  · show n.default = _
    rw [h.default, get_set_ne _ _ hr.2]

theorem Rep.setDefault {d n} (h : Rep d n) (dev : Str) : Rep (d.set (norm defaultKey) dev) { n with default := some dev } := by
  rw [norm_default]
  refine ⟨h.wf.set _ _, ?_, ?_, ?_⟩
  · intro k hk
    rw [keys_set] at hk
    split at hk
    · exact h.low k hk
    · rcases List.mem_append.mp hk with hk | hk
      · exact h.low k hk
      · simp at hk; subst hk; exact norm_default
  · rw [filter_set]; exact h.routes
  · rw [get_set_self]

theorem Rep.filter {d n} (h : Rep d n) (p : Str × Str → Bool) (m : Net) (h1 : m.routes = n.routes.filter p)
    (h2 : m.default = Dict.get (d.filter p) defaultKey) : Rep (d.filter p) m := by
  refine ⟨h.wf.filter p, ?_, ?_, h2⟩
  · intro k hk
    obtain ⟨x, hx, rfl⟩ := List.mem_map.mp hk
    exact h.low _ (List.mem_map_of_mem (List.mem_filter.mp hx).1)
  · rw [h1, h.routes, List.filter_filter, List.filter_filter]
    congr 1; funext x; exact Bool.and_comm _ _

theorem get_filter' {d : Dict Str Str} (h : WF d) (p : Str × Str → Bool) (k : Str) :
    Dict.get (d.filter p) k = match d.get k with
      | none => none
      | some v => if p (k, v) then some v else none := by
  cases hg : d.get k with
  | none =>
    rw [get_eq_none_iff] at hg ⊢
    intro hk
    obtain ⟨x, hx, rfl⟩ := List.mem_map.mp hk
    exact hg (List.mem_map_of_mem (List.mem_filter.mp hx).1)
  | some v =>
    have hm := mem_of_get hg
    by_cases hp : p (k, v) = true
    · simp only [hp, if_true]
      exact get_of_mem (h.filter p) (List.mem_filter.mpr ⟨hm, hp⟩)
    · simp only [hp]
      show _ = none
      rw [get_eq_none_iff]
      intro hk
      obtain ⟨⟨k', v'⟩, hx, hk'⟩ := List.mem_map.mp hk
      dsimp only at hk'; subst hk'
      obtain ⟨hx1, hx2⟩ := List.mem_filter.mp hx
      have := get_of_mem h hx1
      rw [hg] at this; cases this
      exact hp hx2

theorem cget_low {s : St} {k : Str} (h : norm k = k) : cget s k = s.sec.get k := by rw [cget, h]

theorem removeRoutes_spec (dev : Str) : ∀ (rs : List Str) (s : St), WF s.sec → rs.Nodup → (∀ r ∈ rs, norm r = r ∧ s.sec.get r = some dev) →
    removeRoutes s dev rs = ({ s with sec := s.sec.filter (fun x => decide (x.1 ∉ rs)) }, none)
  | [], s, _, _, _ => by
    have : s.sec.filter (fun x => decide (x.1 ∉ ([] : List Str))) = s.sec := by rw [List.filter_eq_self]; simp
    rw [this]; rfl
  | r :: rs, s, hw, hnd, h => by
    obtain ⟨h1, h2⟩ := h r (by simp)
    have hc : contains s r = true := by
      simp only [contains, decide_eq_true_eq]
      rw [mem_keys_iff]; exact ⟨_, h2⟩
    have hrem : removeRoute s dev r = ({ s with sec := s.sec.filter (·.1 ≠ r) }, none) := by
      unfold removeRoute
      rw [hc, cget_low h1, h2, h1, del_eq_filter hw]; simp
    rw [removeRoutes, hrem]
    dsimp only
    rw [List.nodup_cons] at hnd
    rw [removeRoutes_spec dev rs { s with sec := s.sec.filter (·.1 ≠ r) } (hw.filter _) hnd.2 ?_]
    · congr 2
      rw [List.filter_filter]
      congr 1; funext x
      by_cases hx : x.1 = r <;> simp [hx]
    · intro q hq
      obtain ⟨q1, q2⟩ := h q (by simp [hq])
      refine ⟨q1, ?_⟩
      show Dict.get (s.sec.filter _) q = _
      have hqr : q ≠ r := fun e => hnd.1 (e ▸ hq)
      rw [get_filter' hw, q2]; simp [hqr]

theorem destroy_spec {s : St} (hw : WF s.sec) (hl : ∀ k ∈ s.sec.keys, norm k = k) (dev : Str) :
    destroy s dev = ({ s with sec := s.sec.filter (·.2 ≠ dev) }, none) := by
  unfold destroy
  rw [removeRoutes_spec dev _ s hw]
  · congr 2
    apply List.filter_congr
    rintro ⟨k, v⟩ hx
    have hk : k ∈ s.sec.keys := List.mem_map_of_mem (f := Prod.fst) hx
    have hg := get_of_mem hw hx
    simp [lookupRoutesForDevice, List.mem_filter, hk, cget_low (hl k hk), hg]
  · exact List.Sublist.nodup List.filter_sublist hw
  · intro r hr
    obtain ⟨h1, h2⟩ := List.mem_filter.mp hr
    refine ⟨hl r h1, ?_⟩
    rw [← cget_low (s := s) (hl r h1)]; simpa using h2

structure Sim (s : St) (w : World) : Prop where
  mem : Rep s.sec w.mem
  disk : Rep s.saved w.disk

theorem Sim.step {s w} (h : Sim s w) {e : Ev} (he : e.Plain) : Sim (step s e) (w.step e) := by
  cases e with
  | add dev r =>
    have he : Plain r := he
    simp only [Routes.step, addRoute, World.step]
    by_cases hr : r ∈ s.sec.keys
    · rw [if_pos (by simp [contains, hr]), if_pos ((mem_routes h.mem he.2).mpr hr)]; exact h
    · rw [if_neg (by simp [contains, hr]), if_neg (fun x => hr ((mem_routes h.mem he.2).mp x))]
      exact ⟨h.mem.add he hr, h.mem.add he hr⟩
  | remove dev r =>
    have he : Plain r := he
    simp only [Routes.step, removeRoute, World.step]
    rw [cget_low he.1]
    have key : ∀ d', d' = s.sec.filter (· ≠ (r, dev)) → Sim { s with sec := d' } { w with mem := { w.mem with routes := w.mem.routes.filter (· ≠ (r, dev)) } } := by
      rintro d' rfl
      refine ⟨h.mem.filter _ _ rfl ?_, h.disk⟩
      show w.mem.default = _
      rw [get_filter' h.mem.wf, h.mem.default]
      cases s.sec.get defaultKey with
      | none => rfl
      | some v => simp [Ne.symm he.2]
    split
    · next hc =>
      refine key s.sec ?_
      rw [eq_comm, List.filter_eq_self]
      intro x hx
      simp only [ne_eq, decide_not, Bool.not_eq_eq_eq_not, Bool.not_true, decide_eq_false_iff_not]
      rintro rfl
      simp [contains, get_of_mem h.mem.wf hx] at hc
      exact hc (List.mem_map_of_mem (f := Prod.fst) hx)
    · next hc =>
      simp [contains] at hc
      refine key _ ?_
      rw [he.1, del_eq_filter h.mem.wf]
      apply List.filter_congr
      rintro ⟨k, v⟩ hx
      by_cases hk : k = r
      · subst hk
        have := get_of_mem h.mem.wf hx
        rw [hc.2] at this; cases this
        simp
      · simp [hk]
  | setDefault dev => exact ⟨h.mem.setDefault dev, h.mem.setDefault dev⟩
  | unsetDefault dev =>
    simp only [Routes.step, unsetDefaultRoute, World.step]
    rw [cget_low norm_default, ← h.mem.default]
    split
    · have : Rep (s.sec.del (norm defaultKey)) { w.mem with default := none } := by
        rw [norm_default, del_eq_filter h.mem.wf]
        refine h.mem.filter _ _ ?_ ?_
        · show w.mem.routes = _
          rw [eq_comm, List.filter_eq_self, h.mem.routes]
          intro x hx; exact (List.mem_filter.mp hx).2
        · show none = _
          rw [get_filter' h.mem.wf]
          cases s.sec.get defaultKey <;> simp
      exact ⟨this, this⟩
    · exact h
  | destroyed dev =>
    simp only [Routes.step, World.step]
    rw [destroy_spec h.mem.wf h.mem.low]
    have : Rep (s.sec.filter (·.2 ≠ dev)) ⟨w.mem.routes.filter (·.2 ≠ dev), if w.mem.default = some dev then none else w.mem.default⟩ := by
      refine h.mem.filter _ _ rfl ?_
      rw [get_filter' h.mem.wf, h.mem.default]
      cases s.sec.get defaultKey with
      | none => rfl
      | some v => by_cases hv : v = dev <;> simp [hv]
    exact ⟨this, this⟩
  | reload => exact ⟨h.disk, h.disk⟩

theorem Sim.exec {s w} : ∀ {h : List Ev}, Sim s w → (∀ e ∈ h, e.Plain) → Sim (exec s h) (w.exec h)
  | [], hs, _ => hs
  | e :: h, hs, hp => Sim.exec (h := h) (hs.step (hp e (by simp))) (fun e' he' => hp e' (by simp [he']))

theorem sim_init : Sim .init .init := ⟨Rep.nil, Rep.nil⟩

/-- C49: after any history of additions, removals, changes of the default, destructions of devices and restarts, the routes and
the default that the manager reports are those of the abstract configuration. -/
theorem C49_table (h : List Ev) (hp : ∀ e ∈ h, e.Plain) :
    (∀ r, Plain r → ∀ dev, lookupDeviceForRoute (exec .init h) r = some dev ↔ (r, dev) ∈ (World.init.exec h).mem.routes) ∧
    getDefaultRoute (exec .init h) = (World.init.exec h).mem.default ∧
    (∀ dev r, Plain r → (r ∈ lookupRoutesForDevice (exec .init h) dev ↔ (r, dev) ∈ (World.init.exec h).mem.routes)) := by
  have hs := (sim_init.exec hp).mem
  have key : ∀ r, Plain r → ∀ dev, lookupDeviceForRoute (exec .init h) r = some dev ↔ (r, dev) ∈ (World.init.exec h).mem.routes := by
    intro r hr dev
    rw [lookupDeviceForRoute, cget_low hr.1, hs.routes, get_iff_mem hs.wf]
    simp [List.mem_filter, hr.2]
  refine ⟨key, ?_, ?_⟩
  · rw [getDefaultRoute, cget_low norm_default]; exact hs.default.symm
  · intro dev r hr
    rw [← key r hr dev]
    simp only [lookupRoutesForDevice, List.mem_filter, decide_eq_true_eq, lookupDeviceForRoute]
    constructor
    · exact fun x => x.2
    · intro x
      refine ⟨?_, x⟩
      rw [cget_low hr.1] at x
      exact mem_keys_iff.mpr ⟨_, x⟩

theorem matches_iff {r : Str} {b a : Addr} (hb : Addr.blockFromString r = .ok b) : b.isParentBlock a = true ↔ Matches r a := by
  rw [C26_isParentBlock_iff]
  constructor
  · exact fun h => ⟨b, hb, h⟩
  · rintro ⟨b', hb', h⟩
    rw [hb] at hb'; cases hb'; exact h

theorem routingLoop_spec {s : St} {n : Net} (hr : Rep s.sec n) (a : Addr) (hv : ∀ x ∈ n.routes, ∃ b, Addr.blockFromString x.1 = .ok b) :
    ∀ (suf pre : List (Str × Str)), s.sec = pre ++ suf → (∀ x ∈ pre, x.1 ≠ defaultKey → ¬ Matches x.1 a) →
    ∃ o, routingLoop s a (suf.map Prod.fst) = .ok o ∧ Best n a o
  | [], pre, he, hpre => by
    refine ⟨n.default, ?_, .default ?_⟩
    · rw [List.map_nil, routingLoop, cget_low norm_default, hr.default]
    · intro x hx
      rw [hr.routes, he, List.append_nil] at hx
      obtain ⟨h1, h2⟩ := List.mem_filter.mp hx
      exact hpre x h1 (by simpa using h2)
  | (r, dev) :: suf, pre, he, hpre => by
    rw [List.map_cons, routingLoop]
    have hmem : (r, dev) ∈ s.sec := by rw [he]; simp
    by_cases hd : r = defaultKey
    · rw [if_pos hd]
      refine routingLoop_spec hr a hv suf (pre ++ [(r, dev)]) (by simp [he]) ?_
      intro x hx hx'
      rcases List.mem_append.mp hx with hx | hx
      · exact hpre x hx hx'
      · simp at hx; subst hx; exact absurd hd hx'
    · rw [if_neg hd]
      have hmr : (r, dev) ∈ n.routes := by rw [hr.routes]; exact List.mem_filter.mpr ⟨hmem, by simpa using hd⟩
      obtain ⟨b, hb⟩ := hv _ hmr
      dsimp only at hb
      rw [hb]
      dsimp only
      by_cases hm : b.isParentBlock a = true
      · rw [if_pos hm, cget_low (hr.low r (List.mem_map_of_mem (f := Prod.fst) hmem)), get_of_mem hr.wf hmem]
        refine ⟨some dev, rfl, .route (pre.filter (·.1 ≠ defaultKey)) (suf.filter (·.1 ≠ defaultKey)) r dev ?_ ((matches_iff hb).mp hm) ?_⟩
        · rw [hr.routes, he, List.filter_append, List.filter_cons]; simp [hd]
        · intro x hx
          obtain ⟨h1, h2⟩ := List.mem_filter.mp hx
          exact hpre x h1 (by simpa using h2)
      · rw [if_neg hm]
        refine routingLoop_spec hr a hv suf (pre ++ [(r, dev)]) (by simp [he]) ?_
        intro x hx hx'
        rcases List.mem_append.mp hx with hx | hx
        · exact hpre x hx hx'
        · simp at hx; subst hx; exact fun hmm => hm ((matches_iff hb).mpr hmm)

/-- C49: as long as all routes are address blocks, the device for an address is that of the first route that covers it, in the order of
their addition, and else the default. -/
theorem C49_lookup_partial (h : List Ev) (hp : ∀ e ∈ h, e.Plain) (a : Addr)
    (hv : ∀ x ∈ (World.init.exec h).mem.routes, ∃ b, Addr.blockFromString x.1 = .ok b) :
    ∃ o, getRoutingDevice (exec .init h) a = .ok o ∧ Best (World.init.exec h).mem a o :=
  routingLoop_spec (sim_init.exec hp).mem a hv _ [] (by simp) (by simp)

/-- The answer is unique. -/
theorem Best.unique {n : Net} {a : Addr} {o o' : Option Str} (h : Best n a o) (h' : Best n a o') : o = o' := by
  cases h with
  | default h1 => cases h' with
    | default _ => rfl
    | route l1 l2 r dev e m _ => exact absurd m (h1 (r, dev) (by rw [e]; simp))
  | route l1 l2 r dev e m hl => cases h' with
    | default h2 => exact absurd m (h2 (r, dev) (by rw [e]; simp))
    | route k1 k2 r' dev' e' m' hk =>
      rw [e] at e'
      rcases List.append_eq_append_iff.mp e' with ⟨x, e1, e2⟩ | ⟨x, e1, e2⟩
      · cases x with
        | nil => simp at e2; rw [e2.1.2]
        | cons y ys => simp at e2; exact absurd m (hk (r, dev) (by rw [e1, e2.1]; simp))
      · cases x with
        | nil => simp at e2; rw [e2.1.2]
        | cons y ys => simp at e2; exact absurd m' (hl (r', dev') (by rw [e1, e2.1]; simp))

/-- C49: a destroyed device is not found any more, by any address, also after a restart. -/
theorem C49_destroyed (h : List Ev) (hp : ∀ e ∈ h, e.Plain) (dev : Str) (a : Addr) :
    getRoutingDevice (exec .init (h ++ [.destroyed dev])) a ≠ .ok (some dev) ∧
    getRoutingDevice (exec .init (h ++ [.destroyed dev, .reload])) a ≠ .ok (some dev) := by
  have app : ∀ (l : List Ev) (s : St) (l' : List Ev), exec s (l ++ l') = exec (exec s l) l' := by
    intro l
    induction l with
    | nil => intro s l'; rfl
    | cons e l ih => intro s l'; exact ih _ _
  have hs := (sim_init.exec hp).mem
  have key : ∀ s : St, s.sec = (exec .init h).sec.filter (·.2 ≠ dev) → getRoutingDevice s a ≠ .ok (some dev) := by
    intro s he hc
    have hget : ∀ k, s.sec.get k ≠ some dev := by
      intro k hk
      have := mem_of_get hk
      rw [he] at this
      have := (List.mem_filter.mp this).2
      simp at this
    unfold getRoutingDevice at hc
    generalize s.sec.keys = ks at hc
    induction ks with
    | nil => rw [routingLoop] at hc; exact hget _ (Except.ok.inj hc)
    | cons r rs ih =>
      rw [routingLoop] at hc
      split at hc
      · exact ih hc
      · split at hc
        · cases hc
        · split at hc
          · exact hget _ (Except.ok.inj hc)
          · exact ih hc
  refine ⟨key _ ?_, key _ ?_⟩
  · rw [app]; show (step _ _).sec = _
    simp only [step]; rw [destroy_spec hs.wf hs.low]; rfl
  · rw [app]; show (step _ _).saved = _
    simp only [step]; rw [destroy_spec hs.wf hs.low]; rfl

/-- A route that is not an address block is accepted, and from then on looking up any address that no earlier route covers raises. -/
theorem C49_false_bad_route :
    getRoutingDevice (exec .init [.setDefault "v".toList, .add "v".toList "all".toList]) (addr 1 2 3 4) = .error (.address .invalid) := by
  decide +kernel

/-- A removed route is back after a restart: the removal is not saved. -/
theorem C49_false_removed :
    getRoutingDevice (exec .init [.add "v".toList "1.*.*.*".toList, .remove "v".toList "1.*.*.*".toList]) (addr 1 2 3 4) = .ok none ∧
    getRoutingDevice (exec .init [.add "v".toList "1.*.*.*".toList, .remove "v".toList "1.*.*.*".toList, .reload]) (addr 1 2 3 4) =
      .ok (some "v".toList) := by
  decide +kernel

/-! ## Examples -/

/-- A history with two overlapping routes and a default. -/
def exHist : List Ev := [.add "a".toList "1.2.*.*".toList, .setDefault "d".toList, .add "b".toList "1.*.*.*".toList, .add "c".toList "1.2.*.*".toList]

example : ∀ e ∈ exHist, e.Plain := by
  intro e he
  simp [exHist] at he
  rcases he with rfl | rfl | rfl | rfl
  · exact ⟨by decide, by decide⟩
  · trivial
  · exact ⟨by decide, by decide⟩
  · exact ⟨by decide, by decide⟩
example : ∀ x ∈ (World.init.exec exHist).mem.routes, ∃ b, Addr.blockFromString x.1 = .ok b := by
  intro x hx
  have : x = ("1.2.*.*".toList, "a".toList) ∨ x = ("1.*.*.*".toList, "b".toList) := by
    have : (World.init.exec exHist).mem.routes = [("1.2.*.*".toList, "a".toList), ("1.*.*.*".toList, "b".toList)] := by decide +kernel
    rw [this] at hx; simpa using hx
  rcases this with rfl | rfl
  · exact ⟨⟨.num 1, .num 2, .star, .star⟩, by rfl⟩
  · exact ⟨⟨.num 1, .star, .star, .star⟩, by rfl⟩
example : getRoutingDevice (exec .init exHist) (addr 1 2 3 4) = .ok (some "a".toList) ∧
    getRoutingDevice (exec .init exHist) (addr 1 3 3 4) = .ok (some "b".toList) ∧
    getRoutingDevice (exec .init exHist) (addr 2 3 3 4) = .ok (some "d".toList) := by decide +kernel
example : getRoutingDevice (exec .init (exHist ++ [.destroyed "a".toList])) (addr 1 2 3 4) = .ok (some "b".toList) := by decide +kernel

end Verif.Routes
