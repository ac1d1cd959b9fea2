import Verif.Lemmas.PnmsStep
/-! # Lemmas: the command `config` -/
namespace Verif.Pnms
open Verif.Routes (norm)
open Verif.Dict

/-- The ways in which a configuration command can succeed. -/
theorem Step.config_inv {n n' : Net} {k verb : Str} {args : List Str} (h : Step n (.config k verb args) n') : n.Iface k ∧
    ((Says verb "connect" ∧ ∃ c, args = [c] ∧ n.Ap c ∧ n' = { n with link := put n.link k (some c) }) ∨
     (Says verb "disconnect" ∧ n' = { n with link := put n.link k none }) ∨
     (Says verb "route" ∧ ∃ r, args = ["add".toList, r] ∧
        ((r ≠ "default".toList ∧ r ∉ n.routes.routes.map (·.1) ∧ n' = { n with routes := { n.routes with routes := n.routes.routes ++ [(r, k)] } }) ∨
         (r = "default".toList ∧ n' = { n with routes := { n.routes with default := some k } }))) ∨
     (Says verb "route" ∧ ∃ r, args = ["remove".toList, r] ∧
        ((r ≠ "default".toList ∧ (r, k) ∈ n.routes.routes ∧ n' = { n with routes := { n.routes with routes := n.routes.routes.filter (· ≠ (r, k)) } }) ∨
         (r = "default".toList ∧ n.routes.default = some k ∧ n' = { n with routes := { n.routes with default := none } })))) := by
  cases h with
  | connect h1 h2 h3 => exact ⟨h1, .inl ⟨h2, _, rfl, h3, rfl⟩⟩
  | disconnect h1 h2 => exact ⟨h1, .inr (.inl ⟨h2, rfl⟩)⟩
  | addRoute h1 h2 h3 h4 => exact ⟨h1, .inr (.inr (.inl ⟨h2, _, rfl, .inl ⟨h3, h4, rfl⟩⟩))⟩
  | setDefault h1 h2 => exact ⟨h1, .inr (.inr (.inl ⟨h2, _, rfl, .inr ⟨rfl, rfl⟩⟩))⟩
  | removeRoute h1 h2 h3 h4 => exact ⟨h1, .inr (.inr (.inr ⟨h2, _, rfl, .inl ⟨h3, h4, rfl⟩⟩))⟩
  | unsetDefault h1 h2 h3 => exact ⟨h1, .inr (.inr (.inr ⟨h2, _, rfl, .inr ⟨rfl, h3, rfl⟩⟩))⟩

theorem connect_ne_disconnect : "connect".toList ≠ "disconnect".toList := by decide +kernel
theorem connect_ne_route : "connect".toList ≠ "route".toList := by decide +kernel
theorem disconnect_ne_route : "disconnect".toList ≠ "route".toList := by decide +kernel
theorem add_ne_remove : "add".toList ≠ "remove".toList := by decide +kernel

theorem Says.unique {v : Str} {a b : String} (h : Says v a) (h' : Says v b) : a.toList = b.toList := h.symm.trans h'

theorem Core.connect {f : Cfg} {n : Net} (h : Core f n.ty n.link) {k c : Str} (hk : n.ty k = some vnic) {t : Str} (hc : n.ty c = some t) (ht : t ≠ vnic) :
    Core { f with connections := f.connections.set k c } n.ty (put n.link k (some c)) := by
  have hl := h.low c t hc
  refine ⟨h.wfd, h.wfc.set k c, h.wfs, h.low, h.devs, h.known, h.secs, ?_, ?_⟩
  · intro j d hj
    dsimp only at hj
    rw [get_set] at hj
    split at hj
    · next e =>
      subst e
      cases hj
      exact ⟨hk, hl.2, hl.1, by rw [hc]; intro e; exact ht (Option.some.inj e)⟩
    · exact h.conn j d hj
  · intro j
    dsimp only [put]
    rw [get_set]
    by_cases e : j = k
    · rw [if_pos e, if_pos e.symm]
      simp [Option.filter, hc]
    · rw [if_neg e, if_neg (Ne.symm e), h.link j]

theorem rep_routes {f : Cfg} {n : Net} (h : Rep f n) {R : Dict Str Str} {rn : Routes.Net} (hr : Routes.Rep R rn)
    (ho : ∀ r v, R.get r = some v → f.routes.get r = some v ∨ n.ty v = some vnic) : Rep { f with routes := R } { n with routes := rn } :=
  ⟨⟨h.core.wfd, h.core.wfc, h.core.wfs, h.core.low, h.core.devs, h.core.known, h.core.secs, h.core.conn, h.core.link⟩, h.settings, hr,
    fun r v hv => (ho r v hv).elim (h.owner r v) id⟩

theorem route_spec {f m n} (h : Ready f m n) {k verb : Str} (hk : n.ty k = some vnic) (hv : Says verb "route") (verbx r : Str) (hr : Routes.Plain r)
    (hno : verbx = "remove".toList → r = "default".toList) (removes : Prop) :
    (∃ n', Step n (.config k verb [verbx, r]) n' ∧ Good f n n' true removes (route m k verbx r)) ∨
    ((∀ n', ¬ Step n (.config k verb [verbx, r]) n') ∧ Good f n n false removes (route m k verbx r)) := by
  have hiface := Net.iface_iff.mp hk
  have inv : ∀ n', Step n (.config k verb [verbx, r]) n' →
      (verbx = "add".toList ∧ ((r ≠ "default".toList ∧ r ∉ n.routes.routes.map (·.1)) ∨ r = "default".toList)) ∨
      (verbx = "remove".toList ∧ (r = "default".toList → n.routes.default = some k)) := by
    intro n' hs
    rcases hs.config_inv.2 with ⟨h1, _⟩ | ⟨h1, _⟩ | ⟨_, r', e, h1⟩ | ⟨_, r', e, h1⟩
    · exact absurd (h1.unique hv) connect_ne_route
    · exact absurd (h1.unique hv) disconnect_ne_route
    · obtain ⟨e1, e2⟩ := List.cons.inj e
      have e2 : r = r' := (List.cons.inj e2).1
      subst e2
      rcases h1 with ⟨a, b, _⟩ | ⟨a, _⟩
      · exact .inl ⟨e1, .inl ⟨a, b⟩⟩
      · exact .inl ⟨e1, .inr a⟩
    · obtain ⟨e1, e2⟩ := List.cons.inj e
      have e2 : r = r' := (List.cons.inj e2).1
      subst e2
      rcases h1 with ⟨a, b, _⟩ | ⟨_, a, _⟩
      · exact .inr ⟨e1, fun x => absurd x a⟩
      · exact .inr ⟨e1, fun _ => a⟩
  unfold route
  by_cases hadd : verbx = "add".toList
  · rw [if_pos hadd]
    by_cases hd : r = "default".toList
    · rw [if_pos hd]
      refine .inl ⟨_, by rw [hadd, hd]; exact .setDefault hiface hv, ?_⟩
      refine .saved h rfl ?_
      refine rep_routes h.rep (h.rep.routes.setDefault k) ?_
      intro r v hg
      have hg : (m.mem.routes.set (norm Routes.defaultKey) k).get r = some v := hg
      rw [get_set] at hg
      split at hg
      · cases hg; exact .inr hk
      · exact .inl hg
    · rw [if_neg hd]
      unfold Routes.addRoute
      by_cases hm : r ∈ m.mem.routes.keys
      · rw [if_pos (by simp [Routes.contains, hm])]
        refine .inr ⟨?_, .fails h rfl ⟨_, rfl⟩⟩
        intro n' hs
        rcases inv n' hs with ⟨_, ⟨_, a⟩ | a⟩ | ⟨a, _⟩
        · exact a ((Routes.mem_routes h.rep.routes hr.2).mpr hm)
        · exact hd a
        · rw [hadd] at a; exact add_ne_remove a
      · rw [if_neg (by simp [Routes.contains, hm])]
        refine .inl ⟨_, by rw [hadd]; exact .addRoute hiface hv hd (fun x => hm ((Routes.mem_routes h.rep.routes hr.2).mp x)), ?_⟩
        refine .saved h rfl ?_
        refine rep_routes h.rep (h.rep.routes.add hr hm) ?_
        intro r' v hg
        have hg : (m.mem.routes.set (norm r) k).get r' = some v := hg
        rw [get_set] at hg
        split at hg
        · cases hg; exact .inr hk
        · exact .inl hg
  · rw [if_neg hadd]
    by_cases hrem : verbx = "remove".toList
    · rw [if_pos hrem, if_pos (hno hrem)]
      unfold Routes.unsetDefaultRoute
      have hdef : Routes.cget ⟨m.mem.routes, []⟩ Routes.defaultKey = n.routes.default := by
        rw [Routes.cget_low Routes.norm_default, h.rep.routes.default]
      rw [hdef]
      by_cases hs : n.routes.default = some k
      · rw [if_pos hs]
        refine .inl ⟨_, by rw [hrem, hno hrem]; exact .unsetDefault hiface hv hs, ?_⟩
        refine .saved h rfl ?_
        refine rep_routes h.rep ?_ ?_
        · show Routes.Rep (m.mem.routes.del (norm Routes.defaultKey)) _
          rw [Routes.norm_default, Routes.del_eq_filter h.rep.routes.wf]
          refine h.rep.routes.filter _ _ ?_ ?_
          · show n.routes.routes = _
            rw [eq_comm, List.filter_eq_self, h.rep.routes.routes]
            intro x hx; exact (List.mem_filter.mp hx).2
          · show none = _
            rw [Routes.get_filter' h.rep.routes.wf]
            cases m.mem.routes.get Routes.defaultKey <;> simp
        · intro r v hg
          have hg : (m.mem.routes.del (norm Routes.defaultKey)).get r = some v := hg
          rw [get_del h.rep.routes.wf] at hg
          split at hg
          · cases hg
          · exact .inl hg
      · rw [if_neg hs]
        refine .inr ⟨?_, .fails h rfl ⟨_, rfl⟩⟩
        intro n' hst
        rcases inv n' hst with ⟨a, _⟩ | ⟨_, a⟩
        · exact hadd a
        · exact hs (a (hno hrem))
    · rw [if_neg hrem]
      refine .inr ⟨?_, .fails h rfl ⟨_, rfl⟩⟩
      intro n' hst
      rcases inv n' hst with ⟨a, _⟩ | ⟨a, _⟩
      · exact hadd a
      · exact hrem a

theorem config_spec {f m n} (h : Ready f m n) {k verb : Str} {args : List Str} (hp : (Cmd.config k verb args).Plain) (hno : ¬ (Cmd.config k verb args).RemovesRoute)
    (removes : Prop) :
    (∃ n', Step n (.config k verb args) n' ∧ Good f n n' true removes (perform m (.config k verb args))) ∨
    ((∀ n', ¬ Step n (.config k verb args) n') ∧ Good f n n false removes (perform m (.config k verb args))) := by
  have hc := h.rep.core
  unfold perform
  dsimp only
  rcases get_loaded h.loaded k with ⟨t, g1, g2⟩ | ⟨g1, g2, _⟩
  · rw [g2]
    dsimp only
    unfold configDevice
    by_cases hv : t = vnic
    · subst hv
      have hiface := Net.iface_iff.mp g1
      rw [if_pos isIface_vnic]
      by_cases v1 : sanitizeVerb verb = "connect".toList
      · rw [if_pos v1]
        have v1' : Says verb "connect" := v1
        have inv : ∀ n', Step n (.config k verb args) n' → ∃ c, args = [c] ∧ n.Ap c := by
          intro n' hs
          rcases hs.config_inv.2 with ⟨_, c, h1, h2, _⟩ | ⟨h1, _⟩ | ⟨h1, _⟩ | ⟨h1, _⟩
          · exact ⟨c, h1, h2⟩
          · exact absurd (v1'.unique h1) connect_ne_disconnect
          · exact absurd (v1'.unique h1) connect_ne_route
          · exact absurd (v1'.unique h1) connect_ne_route
        match args, inv with
        | [], inv =>
          refine .inr ⟨fun n' hs => ?_, .fails h rfl ⟨_, rfl⟩⟩
          obtain ⟨c, hx, _⟩ := inv n' hs
          cases hx
        | a :: b :: l, inv =>
          refine .inr ⟨fun n' hs => ?_, .fails h rfl ⟨_, rfl⟩⟩
          obtain ⟨c, hx, _⟩ := inv n' hs
          cases hx
        | [c], inv =>
          dsimp only
          unfold connect
          rcases get_loaded h.loaded c with ⟨tc, c1, c2⟩ | ⟨c1, c2, _⟩
          · rw [c2]
            dsimp only
            by_cases hvc : tc = vnic
            · rw [if_pos (isIface_iff.mpr hvc)]
              refine .inr ⟨fun n' hs => ?_, .fails h rfl ⟨_, rfl⟩⟩
              obtain ⟨c', hx, hap⟩ := inv n' hs
              cases hx
              obtain ⟨t', h1, h2⟩ := Net.ap_iff.mp hap
              rw [c1] at h1
              cases h1
              exact h2 hvc
            · rw [if_neg (fun x => hvc (isIface_iff.mp x))]
              refine .inl ⟨_, .connect hiface v1' (Net.ap_iff.mpr ⟨tc, c1, hvc⟩), ?_⟩
              rw [(hc.low k _ g1).1]
              exact .saved h rfl ⟨hc.connect g1 c1 hvc, h.rep.settings, h.rep.routes, h.rep.owner⟩
          · refine .inr ⟨fun n' hs => ?_, ?_⟩
            · obtain ⟨c', hx, hap⟩ := inv n' hs
              cases hx
              obtain ⟨t', h1, _⟩ := Net.ap_iff.mp hap
              rw [c1] at h1
              cases h1
            · rcases c2 with ⟨e, c2⟩ | c2
              · rw [c2]; exact .fails h rfl ⟨_, rfl⟩
              · rw [c2]; exact .fails h rfl ⟨_, rfl⟩
      · rw [if_neg v1]
        by_cases v2 : sanitizeVerb verb = "disconnect".toList
        · rw [if_pos v2]
          refine .inl ⟨_, .disconnect hiface v2, ?_⟩
          have := disconnect_rep h (hc.low k _ g1).1
          exact ⟨this.outcome, this.rep, fun g hg => (this.files g hg).imp id (fun x => x.imp id False.elim)⟩
        · rw [if_neg v2]
          by_cases v3 : sanitizeVerb verb = "route".toList
          · rw [if_pos v3]
            have v3' : Says verb "route" := v3
            have inv : ∀ n', Step n (.config k verb args) n' → ∃ x r, args = [x, r] := by
              intro n' hs
              rcases hs.config_inv.2 with ⟨h1, _⟩ | ⟨h1, _⟩ | ⟨_, r, h1, _⟩ | ⟨_, r, h1, _⟩
              · exact absurd (h1.unique v3') connect_ne_route
              · exact absurd (h1.unique v3') disconnect_ne_route
              · exact ⟨_, r, h1⟩
              · exact ⟨_, r, h1⟩
            match args, inv, hp, hno with
            | [], inv, _, _ =>
              refine .inr ⟨fun n' hs => ?_, .fails h rfl ⟨_, rfl⟩⟩
              obtain ⟨x, r, hx⟩ := inv n' hs
              cases hx
            | [a], inv, _, _ =>
              refine .inr ⟨fun n' hs => ?_, .fails h rfl ⟨_, rfl⟩⟩
              obtain ⟨x, r, hx⟩ := inv n' hs
              cases hx
            | a :: b :: c :: l, inv, _, _ =>
              refine .inr ⟨fun n' hs => ?_, .fails h rfl ⟨_, rfl⟩⟩
              obtain ⟨x, r, hx⟩ := inv n' hs
              cases hx
            | [x, r], _, hp, hno =>
              dsimp only
              refine route_spec h g1 v3' x r ?_ ?_ removes
              · have : ∀ a ∈ [x, r], norm a = a ∧ a ≠ Routes.defaultKey := hp
                exact this r (by simp)
              · intro hx
                subst hx
                by_cases hr : r = "default".toList
                · exact hr
                · exact absurd ⟨v3', r, rfl, hr⟩ hno
          · rw [if_neg v3]
            refine .inr ⟨fun n' hs => ?_, .fails h rfl ⟨_, rfl⟩⟩
            rcases hs.config_inv.2 with ⟨h1, _⟩ | ⟨h1, _⟩ | ⟨h1, _⟩ | ⟨h1, _⟩
            · exact v1 h1
            · exact v2 h1
            · exact v3 h1
            · exact v3 h1
    · rw [if_neg (fun x => hv (isIface_iff.mp x))]
      refine .inr ⟨fun n' hs => ?_, .fails h rfl ⟨_, rfl⟩⟩
      have := Net.iface_iff.mpr hs.config_inv.1
      rw [g1] at this
      exact hv (Option.some.inj this)
  · refine .inr ⟨fun n' hs => ?_, ?_⟩
    · have := Net.iface_iff.mpr hs.config_inv.1
      rw [g1] at this
      cases this
    · rcases g2 with ⟨e, g2⟩ | g2
      · rw [g2]; exact .fails h rfl ⟨_, rfl⟩
      · rw [g2]; exact .fails h rfl ⟨_, rfl⟩

end Verif.Pnms
