import Verif.Lemmas.PnmsArgs
/-! # Lemmas: one command -/
namespace Verif.Pnms
open Verif.Routes (norm)
open Verif.Dict

/-- The types of the devices. -/
def Net.ty (n : Net) : Str → Option Str := fun k => (n.dev k).map Settings.type

/-- The configuration represents the network. -/
structure Rep (f : Cfg) (n : Net) : Prop where
  core : Core f n.ty n.link
  settings : ∀ k s, n.dev k = some s → ∃ d, f.secs.get k = some d ∧ s.Shown d
  routes : Routes.Rep f.routes n.routes
  owner : ∀ r v, f.routes.get r = some v → n.ty v = some vnic

theorem Net.ty_some {n : Net} {k t : Str} (h : n.ty k = some t) : ∃ s, n.dev k = some s ∧ s.type = t := by
  unfold Net.ty at h
  cases hd : n.dev k with
  | none => rw [hd] at h; cases h
  | some s => rw [hd] at h; exact ⟨s, rfl, Option.some.inj h⟩

theorem Net.ty_of {n : Net} {k : Str} {s : Settings} (h : n.dev k = some s) : n.ty k = some s.type := by unfold Net.ty; rw [h]; rfl

theorem Net.ty_none {n : Net} {k : Str} : n.ty k = none ↔ n.dev k = none := by
  unfold Net.ty
  cases n.dev k <;> simp

theorem Net.iface_iff {n : Net} {k : Str} : n.ty k = some vnic ↔ n.Iface k := by
  constructor
  · intro h
    obtain ⟨s, h1, h2⟩ := Net.ty_some h
    cases s with
    | iface a b => exact ⟨a, b, h1⟩
    | ap u b p => rw [type_ap] at h2; exact absurd h2.symm (vnic_ne_ap u)
  · rintro ⟨a, b, h⟩
    rw [Net.ty_of h, type_iface]

theorem Net.ap_iff {n : Net} {k : Str} : n.Ap k ↔ ∃ t, n.ty k = some t ∧ t ≠ vnic := by
  constructor
  · rintro ⟨u, b, p, h⟩
    exact ⟨_, Net.ty_of h, by rw [type_ap]; exact Ne.symm (vnic_ne_ap u)⟩
  · rintro ⟨t, h1, h2⟩
    obtain ⟨s, h3, h4⟩ := Net.ty_some h1
    cases s with
    | iface a b => rw [type_iface] at h4; exact absurd h4.symm h2
    | ap u b p => exact ⟨u, b, p, h3⟩

theorem rep_init : Rep .empty .init :=
  ⟨⟨.nil, .nil, .nil, (fun _ _ h => nomatch h), fun _ => rfl, (fun _ _ h => nomatch h), fun _ => rfl, (fun _ _ h => nomatch h), fun _ => rfl⟩,
    (fun _ _ h => nomatch h), .nil, (fun _ _ h => nomatch h)⟩

theorem Rep.of_same {f g : Cfg} {n : Net} (h : Rep f n) (hc : Core g n.ty n.link) (hs : Same g f) : Rep g n :=
  ⟨hc, by rw [hs.secs]; exact h.settings, by rw [hs.routes]; exact h.routes, by rw [hs.routes]; exact h.owner⟩

/-- What loading gives. -/
structure Ready (f : Option Cfg) (m : Mgr) (n : Net) : Prop where
  loaded : Loaded f m n.ty n.link
  rep : Rep m.mem n
  files : ∀ g, some g ∈ m.files → Rep g n

theorem ready {f : Option Cfg} {n : Net} (h : Rep (f.getD .empty) n) : ∃ m, load f = (m, none) ∧ Ready f m n := by
  obtain ⟨m, h1, h2⟩ := load_spec h.core
  exact ⟨m, h1, h2, h.of_same h2.core h2.same, fun g hg => h.of_same (h2.files g hg).1 (h2.files g hg).2⟩

/-- The result of a command. -/
structure Good (f : Option Cfg) (n n' : Net) (ok : Bool) (removes : Prop) (r : Mgr × Option Err) : Prop where
  outcome : r.2.isNone = ok
  rep : Rep ((r.1.file f).getD .empty) n'
  files : ∀ g, some g ∈ r.1.files → Rep g n ∨ Rep g n' ∨ removes

theorem Good.fails {f m n} (h : Ready f m n) {removes : Prop} {r : Mgr × Option Err} (hf : r.1.files = m.files) (he : ∃ e, r.2 = some e) :
    Good f n n false removes r := by
  obtain ⟨e, he⟩ := he
  refine ⟨by rw [he]; rfl, ?_, ?_⟩
  · rw [Mgr.file, hf]
    have := h.loaded.sync
    rw [Mgr.file] at this
    rw [this]
    exact h.rep
  · intro g hg
    rw [hf] at hg
    exact .inl (h.files g hg)

theorem Good.same {f m n} (h : Ready f m n) {removes : Prop} : Good f n n true removes (m, none) := by
  refine ⟨rfl, ?_, fun g hg => .inl (h.files g hg)⟩
  rw [h.loaded.sync]
  exact h.rep

/-- Something is changed and saved. -/
theorem Good.saved {f m n n'} (h : Ready f m n) {removes : Prop} {m' : Mgr} (hf : m'.files = m.files) (hr : Rep m'.mem n') :
    Good f n n' true removes (save m', none) := by
  refine ⟨rfl, ?_, ?_⟩
  · rw [file_save]; exact hr
  · intro g hg
    rw [mem_save_files, hf] at hg
    rcases hg with hg | rfl
    · exact .inl (h.files g hg)
    · exact .inr (.inl hr)

/-! ## Adding -/

theorem Core.add {f : Cfg} {n : Net} (h : Core f n.ty n.link) (hclean : ∀ k, n.link k = f.connections.get k) {k : Str} {s : Settings} (hk : norm k = k) (hne : k ≠ [])
    (hd : n.dev k = none) (d : Dict Str Str) :
    Core { f with devices := f.devices.set k s.type, secs := f.secs.set k d } { n with dev := put n.dev k (some s) : Net }.ty n.link := by
  have ty : ∀ j, { n with dev := put n.dev k (some s) : Net }.ty j = if j = k then some s.type else n.ty j := by
    intro j
    simp only [Net.ty, put]
    split <;> rfl
  have hconn : ∀ j c, f.connections.get j = some c → j ≠ k ∧ c ≠ k := by
    intro j c hc
    refine ⟨?_, ?_⟩
    · rintro rfl
      have := (h.conn j c hc).1
      rw [Net.ty_none.mpr hd] at this
      cases this
    · rintro rfl
      have h1 := h.link j
      rw [hclean, hc] at h1
      simp [Option.filter, Net.ty_none.mpr hd] at h1
  refine ⟨h.wfd.set _ _, h.wfc, h.wfs.set _ _, ?_, ?_, ?_, ?_, ?_, ?_⟩
  · intro j t hj
    rw [ty] at hj
    split at hj
    · next e => subst e; exact ⟨hk, hne⟩
    · exact h.low j t hj
  · intro j
    dsimp only
    rw [get_set, ty, h.devs]
    by_cases e : j = k
    · rw [if_pos e.symm, if_pos e]
    · rw [if_neg (Ne.symm e), if_neg e]
  · intro j t hj
    rw [ty] at hj
    split at hj
    · cases hj; exact s.type_mem
    · exact h.known j t hj
  · intro j
    have := h.secs j
    dsimp only
    rw [ty]
    unfold Dict.has at this ⊢
    rw [get_set]
    by_cases e : j = k
    · rw [if_pos e.symm, if_pos e]; rfl
    · rw [if_neg (Ne.symm e), if_neg e, this]
  · intro j c hc
    obtain ⟨e1, e2⟩ := hconn j c hc
    rw [ty, ty, if_neg e1, if_neg e2]
    exact h.conn j c hc
  · intro j
    dsimp only
    rw [h.link j]
    cases hc : f.connections.get j with
    | none => rfl
    | some c =>
      obtain ⟨_, e2⟩ := hconn j c hc
      simp only [Option.filter, ty, if_neg e2]

theorem set_set {d : Dict Str (Dict Str Str)} {k : Str} {a b : Dict Str Str} : (d.set k a).set k b = d.set k b := by
  induction d with
  | nil => simp [Dict.set]
  | cons x t ih =>
    obtain ⟨y, z⟩ := x
    simp only [Dict.set]
    by_cases h : y = k
    · simp [h, Dict.set]
    · simp [h, Dict.set, ih]

theorem add_spec {f m n} (h : Ready f m n) {k t : Str} {args : List Str} (hk : norm k = k) (removes : Prop) :
    (∃ n', Step n (.add k t args) n' ∧ Good f n n' true removes (addDevice m k t args)) ∨
    ((∀ n', ¬ Step n (.add k t args) n') ∧ Good f n n false removes (addDevice m k t args)) := by
  have hc := h.rep.core
  unfold addDevice
  rw [hk]
  have hhas : m.mem.devices.has k = (n.dev k).isSome := by
    unfold Dict.has
    rw [hc.devs, Net.ty]
    cases n.dev k <;> rfl
  cases hd : n.dev k with
  | some s =>
    rw [hhas, hd, if_pos (by rfl)]
    refine .inr ⟨?_, .fails h rfl ⟨_, rfl⟩⟩
    intro n' hs
    cases hs with
    | add _ h2 _ => rw [hd] at h2; cases h2
  | none =>
    rw [hhas, hd, if_neg (by simp)]
    by_cases ht : t ∈ types
    · rw [if_neg (fun hx => hx ht)]
      by_cases hne : k = []
      · refine .inr ⟨?_, ?_⟩
        · intro n' hs
          cases hs with
          | add h1 _ _ => exact h1 hne
        · rw [get, getDevice, if_pos hne]
          exact .fails h rfl ⟨_, rfl⟩
      · have hg : get { m with mem := { m.mem with devices := m.mem.devices.set k t, secs := m.mem.secs.set k [] } } k =
            ({ m with mem := { m.mem with devices := m.mem.devices.set k t, secs := m.mem.secs.set k [] }, objs := m.objs.set k t }, .ok (some t)) := by
          have hty := Net.ty_none.mpr hd
          have ho : m.objs.get k = none := by rw [h.loaded.all, hty]
          have hcn : m.mem.connections.get k = none := by
            cases hx : m.mem.connections.get k with
            | none => rfl
            | some c => have := (hc.conn k c hx).1; rw [hty] at this; cases this
          rw [get, getDevice, if_neg hne]
          dsimp only
          rw [ho]
          dsimp only
          rw [hk, get_set_self]
          dsimp only
          rw [if_neg (fun hx => hx ht)]
          have hs : Dict.has (m.mem.secs.set k []) k = true := by unfold Dict.has; rw [get_set_self]; rfl
          rw [hs, if_pos rfl]
          have hi : install (getDevice ((m.mem.devices.set k t).length + 1))
              { m with mem := { m.mem with devices := m.mem.devices.set k t, secs := m.mem.secs.set k [] }, objs := m.objs.set k t } k t =
              ({ m with mem := { m.mem with devices := m.mem.devices.set k t, secs := m.mem.secs.set k [] }, objs := m.objs.set k t }, none) := by
            unfold install
            split
            · simp only [connectedTo, hk, hcn]
            · rfl
          rw [hi]
        rw [hg]
        dsimp only
        cases hi : initOptions t args with
        | none =>
          refine .inr ⟨?_, .fails h rfl ⟨_, rfl⟩⟩
          intro n' hs
          cases hs with
          | add _ _ h3 =>
            obtain ⟨d, d1, _⟩ := describes_some h3
            rw [hi] at d1
            cases d1
        | some d =>
          obtain ⟨s, hs⟩ := some_describes ht hi
          obtain ⟨d', d1, d2, d3⟩ := describes_some hs
          rw [hi] at d1
          cases d1
          refine .inl ⟨_, .add hne hd hs, ?_⟩
          dsimp only
          rw [set_set]
          have hrep : Rep { m.mem with devices := m.mem.devices.set k t, secs := m.mem.secs.set k d } { n with dev := put n.dev k (some s) } := by
            have hcore := Core.add hc h.loaded.clean hk hne hd (s := s) d
            rw [d3] at hcore
            refine ⟨hcore, ?_, h.rep.routes, ?_⟩
            · intro j s' hj
              dsimp only [put] at hj
              dsimp only
              rw [get_set]
              split at hj
              · next e =>
                cases hj
                rw [if_pos e.symm]
                exact ⟨d, rfl, d2⟩
              · next e =>
                rw [if_neg (Ne.symm e)]
                exact h.rep.settings j s' hj
            · intro r v hr
              have := h.rep.owner r v hr
              have hv : v ≠ k := by rintro rfl; rw [Net.ty_none.mpr hd] at this; cases this
              rw [← this]
              simp only [Net.ty, put, if_neg hv]
          refine ⟨rfl, by rw [file_save]; exact hrep, ?_⟩
          intro g hg
          rw [mem_save_files, mem_save_files] at hg
          rcases hg with (hg | hg) | hg
          · exact .inl (h.files g hg)
          · rw [hg]; exact .inr (.inl hrep)
          · rw [hg]; exact .inr (.inl hrep)
    · rw [if_pos ht]
      refine .inr ⟨?_, .fails h rfl ⟨_, rfl⟩⟩
      intro n' hs
      cases hs with
      | add _ _ h3 =>
        obtain ⟨_, _, _, h4⟩ := describes_some h3
        rw [← h4] at ht
        exact ht (Settings.type_mem _)

/-! ## Disconnecting and removing -/

theorem disconnect_eq {f m n} (h : Ready f m n) {k : Str} (hk : norm k = k) :
    (m.mem.connections.get k = none ∧ disconnect m k = m) ∨
    (m.mem.connections.get k ≠ none ∧ disconnect m k = save { m with mem := { m.mem with connections := m.mem.connections.del k } }) := by
  unfold disconnect connectedTo
  rw [hk]
  cases hc : m.mem.connections.get k with
  | none => exact .inl ⟨rfl, rfl⟩
  | some c =>
    refine .inr ⟨by simp, ?_⟩
    have hne := (h.rep.core.conn k c hc).2.1
    cases c with
    | nil => exact absurd rfl hne
    | cons x xs =>
      simp only [disconnectApi]
      rw [if_pos (mem_keys_iff.mpr ⟨_, hc⟩), hk]

theorem Core.unlink {f : Cfg} {n : Net} (h : Core f n.ty n.link) (k : Str) :
    Core { f with connections := f.connections.del k } n.ty (put n.link k none) := by
  refine ⟨h.wfd, h.wfc.del k, h.wfs, h.low, h.devs, h.known, h.secs, ?_, ?_⟩
  · intro j c hj
    dsimp only at hj
    rw [get_del h.wfc] at hj
    split at hj
    · cases hj
    · exact h.conn j c hj
  · intro j
    dsimp only [put]
    rw [get_del h.wfc]
    by_cases e : j = k
    · rw [if_pos e, if_pos e.symm]; rfl
    · rw [if_neg e, if_neg (Ne.symm e), h.link j]

theorem put_none {n : Net} {k : Str} (h : n.link k = none) : put n.link k none = n.link := by
  funext j
  unfold put
  split
  · next e => rw [e, h]
  · rfl

theorem disconnect_rep {f m n} (h : Ready f m n) {k : Str} (hk : norm k = k) : Good f n { n with link := put n.link k none } true False (disconnect m k, none) := by
  rcases disconnect_eq h hk with ⟨h1, h2⟩ | ⟨h1, h2⟩
  · rw [h2]
    have : n.link k = none := by rw [h.loaded.clean, h1]
    have e : { n with link := put n.link k none } = n := by rw [put_none this]
    rw [e]
    exact .same h
  · rw [h2]
    refine .saved h rfl ?_
    exact ⟨h.rep.core.unlink k, h.rep.settings, h.rep.routes, h.rep.owner⟩

theorem Core.without {f : Cfg} {n : Net} (h : Core f n.ty n.link) (hclean : ∀ k, n.link k = f.connections.get k) (k : Str) {C : Dict Str Str} (hw : WF C)
    (hC : ∀ j, C.get j = if k = j then none else f.connections.get j) (R : Dict Str Str) :
    Core ⟨f.devices.del k, C, R, f.secs.del k⟩ (n.without k).ty (n.without k).link := by
  have ty : ∀ j, (n.without k).ty j = if j = k then none else n.ty j := by
    intro j
    simp only [Net.ty, Net.without, put]
    split <;> rfl
  refine ⟨h.wfd.del k, hw, h.wfs.del k, ?_, ?_, ?_, ?_, ?_, ?_⟩
  · intro j t hj
    rw [ty] at hj
    split at hj
    · cases hj
    · exact h.low j t hj
  · intro j
    dsimp only
    rw [get_del h.wfd, ty, h.devs]
    by_cases e : j = k
    · rw [if_pos e.symm, if_pos e]
    · rw [if_neg (Ne.symm e), if_neg e]
  · intro j t hj
    rw [ty] at hj
    split at hj
    · cases hj
    · exact h.known j t hj
  · intro j
    have := h.secs j
    dsimp only
    rw [ty]
    unfold Dict.has at this ⊢
    rw [get_del h.wfs]
    by_cases e : j = k
    · rw [if_pos e.symm, if_pos e]; rfl
    · rw [if_neg (Ne.symm e), if_neg e, this]
  · intro j c hc
    dsimp only at hc
    rw [hC] at hc
    split at hc
    · cases hc
    · next e =>
      obtain ⟨g1, g2, g3, g4⟩ := h.conn j c hc
      rw [ty, ty, if_neg (Ne.symm e)]
      refine ⟨g1, g2, g3, ?_⟩
      split
      · simp
      · exact g4
  · intro j
    dsimp only
    rw [hC]
    have lk : (n.without k).link j = if j = k then none else (n.link j).filter (· ≠ k) := rfl
    rw [lk]
    by_cases e : j = k
    · rw [if_pos e, if_pos e.symm]; rfl
    · rw [if_neg e, if_neg (Ne.symm e), hclean j]
      cases hc : f.connections.get j with
      | none => rfl
      | some c =>
        have hl := h.link j
        rw [hclean, hc] at hl
        have hl : (n.ty c).isSome = true := by
          cases hx : (n.ty c).isSome with
          | true => rfl
          | false => simp [Option.filter, hx] at hl
        simp only [Option.filter, ty c]
        by_cases e2 : c = k
        · simp [e2]
        · simp [e2, hl]

theorem remove_spec {f m n} (h : Ready f m n) {k : Str} (hk : norm k = k) :
    ∃ n', Step n (.remove k) n' ∧ Good f n n' true True (removeDevice m k) := by
  have hc := h.rep.core
  unfold removeDevice
  rw [hk]
  have hhas : m.mem.devices.has k = (n.dev k).isSome := by
    unfold Dict.has
    rw [hc.devs, Net.ty]
    cases n.dev k <;> rfl
  cases hd : n.dev k with
  | none =>
    rw [hhas, hd]
    exact ⟨n, .removeNothing hd, .same h⟩
  | some s =>
    rw [hhas, hd]
    have ht := Net.ty_of hd
    have hg : get m k = (m, .ok (some s.type)) := by
      rcases get_loaded h.loaded k with ⟨t, g1, g2⟩ | ⟨g1, _⟩
      · rw [ht] at g1; cases g1; exact g2
      · rw [ht] at g1; cases g1
    rw [if_neg (by simp), hg]
    dsimp only
    refine ⟨_, .remove hd, ?_⟩
    have settings : ∀ j s', (n.without k).dev j = some s' → ∃ d, Dict.get (m.mem.secs.del k) j = some d ∧ s'.Shown d := by
      intro j s' hj
      simp only [Net.without, put] at hj
      split at hj
      · cases hj
      · next e =>
        rw [get_del hc.wfs, if_neg (Ne.symm e)]
        exact h.rep.settings j s' hj
    by_cases hv : s.type = vnic
    · -- an interface: its connection and its routes
      have hi : isIface s.type = true := isIface_iff.mpr hv
      have hdc : ∃ m1, disconnect m k = m1 ∧ m1.mem.routes = m.mem.routes ∧ m1.mem.devices = m.mem.devices ∧ m1.mem.secs = m.mem.secs ∧
          WF m1.mem.connections ∧ ∀ j, m1.mem.connections.get j = if k = j then none else m.mem.connections.get j := by
        rcases disconnect_eq h hk with ⟨h1, h2⟩ | ⟨h1, h2⟩
        · refine ⟨_, h2, rfl, rfl, rfl, hc.wfc, ?_⟩
          intro j
          split
          · next e => rw [← e, h1]
          · rfl
        · refine ⟨_, h2, rfl, rfl, rfl, hc.wfc.del k, ?_⟩
          intro j
          exact get_del hc.wfc k j
      obtain ⟨m1, e1, e2, e3, e4, e5, e6⟩ := hdc
      have hdes : destroy m k s.type = ({ m1 with mem := { m1.mem with routes := m.mem.routes.filter (·.2 ≠ k) } }, none) := by
        rw [destroy, if_pos hi, e1, e2, Routes.destroy_spec h.rep.routes.wf h.rep.routes.low]
        rfl
      rw [hdes]
      dsimp only
      refine ⟨rfl, ?_, fun _ _ => .inr (.inr trivial)⟩
      rw [file_save]
      dsimp only [Option.getD]
      rw [e3, e4]
      refine ⟨?_, settings, ?_, ?_⟩
      · exact hc.without h.loaded.clean k e5 e6 _
      · refine h.rep.routes.filter _ _ rfl ?_
        rw [Routes.get_filter' h.rep.routes.wf]
        simp only [Net.without, h.rep.routes.default]
        cases m.mem.routes.get Routes.defaultKey with
        | none => rfl
        | some v => by_cases hvk : v = k <;> simp [hvk]
      · intro r v hr
        dsimp only at hr
        rw [Routes.get_filter' h.rep.routes.wf] at hr
        cases hx : m.mem.routes.get r with
        | none => rw [hx] at hr; cases hr
        | some w =>
          rw [hx] at hr
          dsimp only at hr
          split at hr
          · next hw =>
            cases hr
            have := h.rep.owner r v hx
            have hvk : v ≠ k := by simpa using hw
            rw [← this]
            simp only [Net.ty, Net.without, put, if_neg hvk]
          · cases hr
    · have hi : isIface s.type = false := by simp [isIface, hv]
      have hdes : destroy m k s.type = (m, none) := by rw [destroy, hi]; rfl
      rw [hdes]
      dsimp only
      refine ⟨rfl, ?_, fun _ _ => .inr (.inr trivial)⟩
      rw [file_save]
      dsimp only [Option.getD]
      have hno : ∀ v, n.ty v = some vnic → v ≠ k := by
        rintro v hv' rfl
        rw [ht] at hv'
        exact hv (Option.some.inj hv')
      refine ⟨?_, settings, ?_, ?_⟩
      · refine hc.without h.loaded.clean k hc.wfc ?_ _
        intro j
        split
        · next e =>
          subst e
          cases hx : m.mem.connections.get k with
          | none => rfl
          | some c => exact absurd rfl (hno k (hc.conn k c hx).1)
        · rfl
      · have hr : (n.without k).routes = n.routes := by
          simp only [Net.without]
          have e1 : n.routes.routes.filter (·.2 ≠ k) = n.routes.routes := by
            rw [List.filter_eq_self]
            intro x hx
            rw [h.rep.routes.routes] at hx
            have := h.rep.owner x.1 x.2 (get_of_mem h.rep.routes.wf (List.mem_filter.mp hx).1)
            simpa using hno _ this
          have e2 : (if n.routes.default = some k then none else n.routes.default) = n.routes.default := by
            split
            · next e =>
              rw [h.rep.routes.default] at e
              exact absurd rfl (hno k (h.rep.owner _ _ e))
            · rfl
          rw [e1, e2]
        rw [hr]
        exact h.rep.routes
      · intro r v hr
        have := h.rep.owner r v hr
        rw [← this]
        simp only [Net.ty, Net.without, put, if_neg (hno v this)]

end Verif.Pnms
