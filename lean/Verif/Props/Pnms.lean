import Verif.Lemmas.PnmsConfig
/-! # C59: the network configuration and the commands of `pnetworking` -/
namespace Verif.Pnms
open Verif.Routes (norm)
open Verif.Dict

theorem run_spec {f : Option Cfg} {n : Net} (h : Rep (f.getD .empty) n) (c : Cmd) (hp : c.Plain) (hno : ¬ c.RemovesRoute) :
    (∃ n', Step n c n' ∧ (run f c).2 = none ∧ Rep ((after f c).getD .empty) n' ∧ ∀ g, some g ∈ (run f c).1 → Rep g n ∨ Rep g n' ∨ ∃ k, c = .remove k) ∨
    ((∀ n', ¬ Step n c n') ∧ (run f c).2 ≠ none ∧ Rep ((after f c).getD .empty) n ∧ ∀ g, some g ∈ (run f c).1 → Rep g n) := by
  obtain ⟨m, h1, h2⟩ := ready h
  have e1 : run f c = ((perform m c).1.files, (perform m c).2) := by rw [run, h1]
  have e2 : after f c = (perform m c).1.file f := by rw [after, e1]; rfl
  have key : (∃ n', Step n c n' ∧ Good f n n' true (∃ k, c = .remove k) (perform m c)) ∨
      ((∀ n', ¬ Step n c n') ∧ Good f n n false False (perform m c)) := by
    cases c with
    | add k t args =>
      rcases add_spec h2 (t := t) (args := args) hp False with ⟨n', s, g⟩ | g
      · exact .inl ⟨n', s, g.outcome, g.rep, fun x hx => (g.files x hx).imp id (fun y => y.imp id False.elim)⟩
      · exact .inr g
    | remove k =>
      obtain ⟨n', s, g⟩ := remove_spec h2 (k := k) hp
      exact .inl ⟨n', s, g.outcome, g.rep, fun x hx => .inr (.inr ⟨k, rfl⟩)⟩
    | config k verb args =>
      rcases config_spec h2 hp hno False with ⟨n', s, g⟩ | g
      · exact .inl ⟨n', s, g.outcome, g.rep, fun x hx => (g.files x hx).imp id (fun y => y.imp id False.elim)⟩
      · exact .inr g
    | other => exact .inl ⟨n, .other, .same h2⟩
  rcases key with ⟨n', s, g⟩ | ⟨s, g⟩
  · exact .inl ⟨n', s, by rw [e1]; exact Option.isNone_iff_eq_none.mp g.outcome, by rw [e2]; exact g.rep, by rw [e1]; exact g.files⟩
  · refine .inr ⟨s, ?_, by rw [e2]; exact g.rep, ?_⟩
    · rw [e1]
      intro hx
      have := g.outcome
      dsimp only at hx
      rw [hx] at this
      cases this
    · rw [e1]
      intro x hx
      rcases g.files x hx with y | y | y
      · exact y
      · exact y
      · exact y.elim

theorem shows_of_rep {f : Option Cfg} {n : Net} (h : Rep (f.getD .empty) n) : FileShows f n := by
  obtain ⟨m, h1, h2⟩ := ready h
  refine ⟨m, h1, ?_, h2.rep.settings, ?_, h2.rep.routes.routes, h2.rep.routes.default⟩
  · intro k; exact h2.rep.core.devs k
  · intro k hk
    rw [connectedTo, hk, h2.loaded.clean]

theorem exec_spec : ∀ (cs : List Cmd) (f : Option Cfg) (n : Net), Rep (f.getD .empty) n → (∀ c ∈ cs, c.Plain) → (∀ c ∈ cs, ¬ c.RemovesRoute) →
    ∃ n', Steps n cs (outcomes f cs) n' ∧ Rep ((exec f cs).getD .empty) n'
  | [], f, n, h, _, _ => ⟨n, .nil, h⟩
  | c :: cs, f, n, h, hp, hr => by
    have ih := exec_spec cs (after f c)
    rcases run_spec h c (hp c (by simp)) (hr c (by simp)) with ⟨n1, s, e, g, _⟩ | ⟨s, e, g, _⟩
    · obtain ⟨n2, k1, k2⟩ := ih n1 g (fun x hx => hp x (by simp [hx])) (fun x hx => hr x (by simp [hx]))
      refine ⟨n2, ?_, k2⟩
      rw [outcomes, e]
      exact .done s k1
    · obtain ⟨n2, k1, k2⟩ := ih n g (fun x hx => hp x (by simp [hx])) (fun x hx => hr x (by simp [hx]))
      refine ⟨n2, ?_, k2⟩
      rw [outcomes]
      have : (run f c).2.isNone = false := by
        cases hx : (run f c).2 with
        | none => exact absurd hx e
        | some _ => rfl
      rw [this]
      exact .failed s k1

/-- C59 (partial: the command that removes a route other than the default is excluded, see `C59_false_removed_route`; names in lower case, see
`C59_false_case`). Any commands, each a process of its own, do what they are meant to do, or fail and leave everything as it was; a new process
shows exactly the network that the successful commands describe. -/
theorem C59_commands_partial (cs : List Cmd) (hp : ∀ c ∈ cs, c.Plain) (hr : ∀ c ∈ cs, ¬ c.RemovesRoute) :
    ∃ n, Steps .init cs (outcomes none cs) n ∧ FileShows (exec none cs) n := by
  obtain ⟨n, h1, h2⟩ := exec_spec cs none .init rep_init hp hr
  exact ⟨n, h1, shows_of_rep h2⟩

/-- What a command is meant to do is determined by the network. -/
theorem C59_step_unique {n n1 n2 : Net} {c : Cmd} (h1 : Step n c n1) (h2 : Step n c n2) : n1 = n2 := by
  cases c with
  | add k t args => cases h1 with
    | add _ _ a => cases h2 with
      | add _ _ b => rw [a.unique b]
  | remove k => cases h1 with
    | remove a => cases h2 with
      | remove _ => rfl
      | removeNothing b => rw [a] at b; cases b
    | removeNothing a => cases h2 with
      | remove b => rw [a] at b; cases b
      | removeNothing _ => rfl
  | other => cases h1; cases h2; rfl
  | config k verb args =>
    have two : ∀ {x y r r' : Str}, args = [x, r] → args = [y, r'] → x = y ∧ r = r' := by
      intro x y r r' h h'
      rw [h] at h'
      exact ⟨(List.cons.inj h').1, (List.cons.inj (List.cons.inj h').2).1⟩
    rcases h1.config_inv.2 with ⟨a, c, a1, _, rfl⟩ | ⟨a, rfl⟩ | ⟨a, r, a1, a2⟩ | ⟨a, r, a1, a2⟩ <;>
    rcases h2.config_inv.2 with ⟨b, c', b1, _, rfl⟩ | ⟨b, rfl⟩ | ⟨b, r', b1, b2⟩ | ⟨b, r', b1, b2⟩
    · rw [a1] at b1; cases b1; rfl
    · exact absurd (a.unique b) connect_ne_disconnect
    · exact absurd (a.unique b) connect_ne_route
    · exact absurd (a.unique b) connect_ne_route
    · exact absurd (b.unique a) connect_ne_disconnect
    · rfl
    · exact absurd (a.unique b) disconnect_ne_route
    · exact absurd (a.unique b) disconnect_ne_route
    · exact absurd (b.unique a) connect_ne_route
    · exact absurd (b.unique a) disconnect_ne_route
    · obtain ⟨_, e⟩ := two a1 b1
      subst e
      rcases a2 with ⟨x, _, rfl⟩ | ⟨x, rfl⟩ <;> rcases b2 with ⟨y, _, rfl⟩ | ⟨y, rfl⟩
      · rfl
      · exact absurd y x
      · exact absurd x y
      · rfl
    · exact absurd (two a1 b1).1 add_ne_remove
    · exact absurd (b.unique a) connect_ne_route
    · exact absurd (b.unique a) disconnect_ne_route
    · exact absurd (two b1 a1).1 add_ne_remove
    · obtain ⟨_, e⟩ := two a1 b1
      subst e
      rcases a2 with ⟨x, _, rfl⟩ | ⟨x, _, rfl⟩ <;> rcases b2 with ⟨y, _, rfl⟩ | ⟨y, _, rfl⟩
      · rfl
      · exact absurd y x
      · exact absurd x y
      · rfl

theorem C59_steps_unique : ∀ {cs : List Cmd} {n n1 n2 : Net} {b1 b2 : List Bool}, Steps n cs b1 n1 → Steps n cs b2 n2 → b1 = b2 ∧ n1 = n2
  | [], _, _, _, _, _, .nil, .nil => ⟨rfl, rfl⟩
  | _ :: _, _, _, _, _, _, .done s k, .done s' k' => by
    cases C59_step_unique s s'
    obtain ⟨rfl, rfl⟩ := C59_steps_unique k k'
    exact ⟨rfl, rfl⟩
  | _ :: _, _, _, _, _, _, .done s _, .failed f _ => absurd s (f _)
  | _ :: _, _, _, _, _, _, .failed f _, .done s _ => absurd s (f _)
  | _ :: _, _, _, _, _, _, .failed _ k, .failed _ k' => by
    obtain ⟨rfl, rfl⟩ := C59_steps_unique k k'
    exact ⟨rfl, rfl⟩

/-! ## What goes wrong -/

/-- A device in the section `devices` whose own section is missing: nothing can be loaded. -/
def Broken (g : Cfg) : Prop := ∃ k, norm k = k ∧ k ∈ g.devices.keys ∧ g.secs.has k = false

structure Frame (m m' : Mgr) : Prop where
  devices : m'.mem.devices = m.mem.devices
  secs : m'.mem.secs = m.mem.secs
  files : ∀ g, some g ∈ m'.files → some g ∈ m.files ∨ (g.devices = m.mem.devices ∧ g.secs = m.mem.secs)
  objs : (∀ j, m.objs.get j ≠ none → m.mem.secs.has j = true) → ∀ j, m'.objs.get j ≠ none → m.mem.secs.has j = true
  grow : ∀ j, m.objs.get j ≠ none → m'.objs.get j ≠ none
  last : m.files.getLast? ≠ some none → m'.files.getLast? ≠ some none

theorem Frame.refl (m : Mgr) : Frame m m := ⟨rfl, rfl, fun _ h => .inl h, fun h => h, fun _ h => h, fun h => h⟩

theorem Frame.trans {a b c : Mgr} (h : Frame a b) (h' : Frame b c) : Frame a c := by
  refine ⟨h'.devices.trans h.devices, h'.secs.trans h.secs, ?_, ?_, fun j hj => h'.grow j (h.grow j hj), fun hl => h'.last (h.last hl)⟩
  · intro g hg
    rcases h'.files g hg with x | x
    · exact h.files g x
    · exact .inr ⟨x.1.trans h.devices, x.2.trans h.secs⟩
  · intro hx j hj
    have := h'.objs (by rw [h.secs]; exact h.objs hx) j hj
    rwa [h.secs] at this

theorem disconnect_frame (m : Mgr) (n : Str) : Frame m (disconnect m n) := by
  unfold disconnect
  split
  · exact .refl m
  · exact .refl m
  · unfold disconnectApi
    split
    · refine ⟨rfl, rfl, ?_, fun h => h, fun _ h => h, fun _ => by simp [save]⟩
      intro g hg
      rw [mem_save_files] at hg
      rcases hg with hg | rfl
      · exact .inl hg
      · exact .inr ⟨rfl, rfl⟩
    · refine ⟨rfl, rfl, ?_, fun h => h, fun _ h => h, fun _ => by simp [save]⟩
      intro g hg
      rw [mem_save_files] at hg
      rcases hg with hg | rfl
      · exact .inl hg
      · exact .inr ⟨rfl, rfl⟩

theorem getDevice_frame : ∀ (k : Nat) (m : Mgr) (n : Str), Frame m (getDevice k m n).1 ∧
    ∀ o, (getDevice k m n).2 = .ok o → m.mem.devices.get (norm n) ≠ none → (getDevice k m n).1.objs.get n ≠ none
  | 0, m, n => ⟨.refl m, fun o h => nomatch h⟩
  | k + 1, m, n => by
    rw [getDevice]
    split
    · exact ⟨.refl m, fun o h => nomatch h⟩
    · split
      · next t ht => exact ⟨.refl m, fun o _ _ => by dsimp only; rw [ht]; simp⟩
      · split
        · next hd => exact ⟨.refl m, fun o _ hx => absurd hd hx⟩
        · next t hd =>
          split
          · exact ⟨.refl m, fun o h => nomatch h⟩
          · split
            · next hs =>
              have f0 : Frame m { m with objs := m.objs.set n t } := by
                refine ⟨rfl, rfl, fun g h => .inl h, ?_, ?_, fun h => h⟩
                · intro hx j hj
                  dsimp only at hj
                  rw [get_set] at hj
                  split at hj
                  · next e => rw [← e]; exact hs
                  · exact hx j hj
                · intro j hj
                  dsimp only
                  rw [get_set]
                  split
                  · simp
                  · exact hj
              have key : Frame m (install (getDevice k) { m with objs := m.objs.set n t } n t).1 ∧
                  (install (getDevice k) { m with objs := m.objs.set n t } n t).1.objs.get n ≠ none := by
                have hself : Dict.get (m.objs.set n t) n ≠ none := by rw [get_set_self]; simp
                unfold install
                split
                · split
                  · exact ⟨f0, hself⟩
                  · next c _ =>
                    have ih := (getDevice_frame k { m with objs := m.objs.set n t } c).1
                    split
                    · next m' e he => rw [he] at ih; exact ⟨f0.trans ih, ih.grow n hself⟩
                    · next m' e he => rw [he] at ih; exact ⟨f0.trans ih, ih.grow n hself⟩
                    · next m' he =>
                      rw [he] at ih
                      have := ih.trans (disconnect_frame m' n)
                      exact ⟨f0.trans this, this.grow n hself⟩
                · exact ⟨f0, hself⟩
              split
              · next he => rw [he] at key; exact ⟨key.1, fun o h => nomatch h⟩
              · next he => rw [he] at key; exact ⟨key.1, fun o _ _ => key.2⟩
            · exact ⟨.refl m, fun o h => nomatch h⟩

theorem loadLoop_frame : ∀ (ns : List Str) (m : Mgr), Frame m (loadLoop m ns).1 ∧
    ((loadLoop m ns).2 = none → ∀ n ∈ ns, m.mem.devices.get (norm n) ≠ none → (loadLoop m ns).1.objs.get n ≠ none)
  | [], m => ⟨.refl m, by simp⟩
  | n :: ns, m => by
    have h1 := getDevice_frame (m.mem.devices.length + 2) m n
    rw [loadLoop, get]
    split
    · next he => rw [he] at h1; exact ⟨h1.1, fun h => nomatch h⟩
    · next m' o he =>
      rw [he] at h1
      have h2 := loadLoop_frame ns m'
      refine ⟨h1.1.trans h2.1, ?_⟩
      intro hn x hx hd
      rcases List.mem_cons.mp hx with rfl | hx
      · exact h2.1.grow _ (h1.2 o rfl hd)
      · exact h2.2 hn x hx (by rw [h1.1.devices]; exact hd)

/-- A broken file cannot be loaded, and stays broken. -/
theorem broken_load {f : Option Cfg} (h : Broken (f.getD .empty)) : (load f).2 ≠ none ∧ ∀ c, (run f c).2 ≠ none ∧ Broken ((after f c).getD .empty) := by
  have hl := loadLoop_frame (f.getD .empty).devices.keys ⟨f.getD .empty, [], []⟩
  obtain ⟨k, h1, h2, h3⟩ := h
  have h0 : (load f).2 ≠ none := by
    intro hn
    have := hl.2 hn k h2 (by rw [h1]; obtain ⟨v, hv⟩ := mem_keys_iff.mp h2; dsimp only; rw [hv]; simp)
    have := hl.1.objs (by simp) k this
    dsimp only at this
    rw [h3] at this
    cases this
  refine ⟨h0, fun c => ?_⟩
  have e : run f c = ((load f).1.files, (load f).2) := by
    unfold run
    split
    · next he => rw [he]
    · next he => rw [he] at h0; exact absurd rfl h0
  refine ⟨by rw [e]; exact h0, ?_⟩
  rw [after, e]
  dsimp only
  cases hlast : (load f).1.files.getLast? with
  | none => exact ⟨k, h1, h2, h3⟩
  | some o =>
    have hm : o ∈ (load f).1.files := List.mem_of_getLast? hlast
    cases o with
    | none => exact absurd hlast (hl.1.last (by simp))
    | some g =>
      rcases hl.1.files g hm with hx | ⟨hx, hy⟩
      · cases hx
      · refine ⟨k, h1, ?_, ?_⟩
        · show k ∈ g.devices.keys
          rw [hx]; exact h2
        · show g.secs.has k = false
          rw [hy]; exact h3

theorem broken_forever : ∀ (cs : List Cmd) {f : Option Cfg}, Broken (f.getD .empty) → ∀ b ∈ outcomes f cs, b = false
  | [], _, _, b, hb => by cases hb
  | c :: cs, f, h, b, hb => by
    obtain ⟨h1, h2⟩ := (broken_load h).2 c
    rw [outcomes] at hb
    rcases List.mem_cons.mp hb with rfl | hb
    · cases he : (run f c).2 with
      | none => exact absurd he h1
      | some _ => rfl
    · exact broken_forever cs h2 b hb

theorem toLower_toLower (c : Char) : c.toLower.toLower = c.toLower := by
  have h : ∀ c : Char, c.toLower.val.toNat = if 65 ≤ c.val.toNat ∧ c.val.toNat ≤ 90 then c.val.toNat + 32 else c.val.toNat := by
    intro c
    unfold Char.toLower
    have e : (c.val ≥ 'A'.val ∧ c.val ≤ 'Z'.val) ↔ (65 ≤ c.val.toNat ∧ c.val.toNat ≤ 90) := Iff.rfl
    split
    · next hc =>
      rw [if_pos (e.mp hc)]
      have := e.mp hc
      show (c.val + ('a'.val - 'A'.val)).toNat = _
      rw [UInt32.toNat_add]
      have : ('a'.val - 'A'.val).toNat = 32 := by decide
      omega
    · next hc => rw [if_neg (fun x => hc (e.mpr x))]
  apply Char.ext
  apply UInt32.toNat.inj
  rw [h c.toLower, h c]
  split <;> (try split) <;> omega

theorem norm_norm (k : Str) : norm (norm k) = norm k := by
  unfold norm
  rw [List.map_map]
  apply List.map_congr_left
  intro c _
  exact toLower_toLower c

/-- A device is added whose name is not in lower case: the command succeeds and the file is broken. -/
theorem add_upper {f : Option Cfg} {n : Net} (h : Rep (f.getD .empty) n) {k t : Str} {args : List Str} {s : Settings} (hk : norm k ≠ k)
    (hd : n.dev (norm k) = none) (hs : Describes t args s) : (run f (.add k t args)).2 = none ∧ Broken ((after f (.add k t args)).getD .empty) := by
  obtain ⟨m, h1, h2⟩ := ready h
  have e1 : run f (.add k t args) = ((addDevice m k t args).1.files, (addDevice m k t args).2) := by rw [run, h1]; rfl
  have hc := h2.rep.core
  obtain ⟨d, d1, d2, d3⟩ := describes_some hs
  have ht : t ∈ types := by rw [← d3]; exact s.type_mem
  have hhas : m.mem.devices.has (norm k) = false := by
    unfold Dict.has
    rw [hc.devs, Net.ty, hd]; rfl
  have hne : k ≠ [] := by rintro rfl; exact hk rfl
  have hty := Net.ty_none.mpr hd
  have hg : get { m with mem := { m.mem with devices := m.mem.devices.set (norm k) t, secs := m.mem.secs.set k [] } } k =
      ({ m with mem := { m.mem with devices := m.mem.devices.set (norm k) t, secs := m.mem.secs.set k [] }, objs := m.objs.set k t }, .ok (some t)) := by
    have ho : m.objs.get k = none := by
      rw [h2.loaded.all]
      cases hx : n.ty k with
      | none => rfl
      | some t => exact absurd (hc.low k t hx).1 hk
    have hcn : m.mem.connections.get (norm k) = none := by
      cases hx : m.mem.connections.get (norm k) with
      | none => rfl
      | some c => have := (hc.conn (norm k) c hx).1; rw [hty] at this; cases this
    rw [get, getDevice, if_neg hne]
    dsimp only
    rw [ho]
    dsimp only
    rw [get_set_self]
    dsimp only
    rw [if_neg (fun hx => hx ht)]
    have hs : Dict.has (m.mem.secs.set k []) k = true := by unfold Dict.has; rw [get_set_self]; rfl
    rw [hs, if_pos rfl]
    have hi : install (getDevice ((m.mem.devices.set (norm k) t).length + 1))
        { m with mem := { m.mem with devices := m.mem.devices.set (norm k) t, secs := m.mem.secs.set k [] }, objs := m.objs.set k t } k t =
        ({ m with mem := { m.mem with devices := m.mem.devices.set (norm k) t, secs := m.mem.secs.set k [] }, objs := m.objs.set k t }, none) := by
      unfold install
      split
      · simp only [connectedTo, hcn]
      · rfl
    rw [hi]
  have ha : addDevice m k t args = (save (save { m with mem := { m.mem with devices := m.mem.devices.set (norm k) t, secs := m.mem.secs.set k d }, objs := m.objs.set k t }), none) := by
    unfold addDevice
    rw [hhas, if_neg (by simp), if_neg (fun hx => hx ht), hg]
    dsimp only
    rw [d1]
    dsimp only
    rw [set_set]
  rw [after, e1, ha]
  refine ⟨rfl, norm k, norm_norm k, ?_, ?_⟩
  · simp [save, mem_keys_iff, get_set_self]
  · have := hc.secs (norm k)
    rw [hty] at this
    unfold Dict.has at this ⊢
    simp only [save, List.append_assoc, List.getLast?_append, List.getLast?_cons]
    simp [get_set, Ne.symm hk, this]

/-- The command that removes a route other than the default succeeds as it should, but nothing is written. -/
theorem lost_spec {f m n} (h : Ready f m n) {c : Cmd} (hp : c.Plain) (hr : c.RemovesRoute) :
    (perform m c).1.files = m.files ∧ ((∃ n', Step n c n') ∧ (perform m c).2 = none ∨ (∀ n', ¬ Step n c n') ∧ (perform m c).2 ≠ none) := by
  cases c with
  | add _ _ _ => cases hr
  | remove _ => cases hr
  | other => cases hr
  | config k verb args =>
    obtain ⟨hv, r, rfl, hd⟩ := hr
    have hc := h.rep.core
    have hlow := (hp r (by simp)).1
    unfold perform
    dsimp only
    have inv : ∀ n', Step n (.config k verb ["remove".toList, r]) n' → n.Iface k ∧ (r, k) ∈ n.routes.routes := by
      intro n' hs
      refine ⟨hs.config_inv.1, ?_⟩
      rcases hs.config_inv.2 with ⟨h1, _⟩ | ⟨h1, _⟩ | ⟨_, r', h1, _⟩ | ⟨_, r', h1, h2⟩
      · exact absurd (h1.unique hv) connect_ne_route
      · exact absurd (h1.unique hv) disconnect_ne_route
      · exact absurd (List.cons.inj h1).1.symm add_ne_remove
      · have e := (List.cons.inj (List.cons.inj h1).2).1
        subst e
        rcases h2 with ⟨_, h2, _⟩ | ⟨h2, _⟩
        · exact h2
        · exact absurd h2 hd
    rcases get_loaded h.loaded k with ⟨t, g1, g2⟩ | ⟨g1, g2, _⟩
    · rw [g2]
      dsimp only
      unfold configDevice
      by_cases hvt : t = vnic
      · subst hvt
        have hiface := Net.iface_iff.mp g1
        have e1 : sanitizeVerb verb = "route".toList := hv
        rw [if_pos isIface_vnic, if_neg (by rw [e1]; exact fun x => connect_ne_route x.symm), if_neg (by rw [e1]; exact fun x => disconnect_ne_route x.symm), if_pos e1]
        dsimp only
        unfold route
        rw [if_neg (fun x => add_ne_remove x.symm), if_pos rfl, if_neg hd]
        unfold Routes.removeRoute
        have hget : Routes.cget ⟨m.mem.routes, []⟩ r = m.mem.routes.get r := by rw [Routes.cget, hlow]
        have hcon : Routes.contains ⟨m.mem.routes, []⟩ r = decide (r ∈ m.mem.routes.keys) := rfl
        have hmem : (r, k) ∈ n.routes.routes ↔ m.mem.routes.get r = some k := by
          rw [h.rep.routes.routes, List.mem_filter, ← Dict.get_iff_mem h.rep.routes.wf]
          constructor
          · exact fun x => x.1
          · exact fun x => ⟨x, by simpa using (hp r (by simp)).2⟩
        by_cases hm : m.mem.routes.get r = some k
        · have hk' : r ∈ m.mem.routes.keys := mem_keys_iff.mpr ⟨k, hm⟩
          rw [hget, hcon, hm, if_neg (by simp [hk'])]
          exact ⟨rfl, .inl ⟨⟨_, .removeRoute hiface hv hd (hmem.mpr hm)⟩, rfl⟩⟩
        · rw [hget, if_pos (by simp [hm])]
          exact ⟨rfl, .inr ⟨fun n' hs => hm (hmem.mp (inv n' hs).2), fun x => nomatch x⟩⟩
      · rw [if_neg (fun x => hvt (isIface_iff.mp x))]
        refine ⟨rfl, .inr ⟨fun n' hs => ?_, fun x => nomatch x⟩⟩
        have := Net.iface_iff.mpr (inv n' hs).1
        rw [g1] at this
        exact hvt (Option.some.inj this)
    · have hno : ∀ n', ¬ Step n (.config k verb ["remove".toList, r]) n' := by
        intro n' hs
        have := Net.iface_iff.mpr (inv n' hs).1
        rw [g1] at this
        cases this
      rcases g2 with ⟨e, g2⟩ | g2
      · rw [g2]; exact ⟨rfl, .inr ⟨hno, fun x => nomatch x⟩⟩
      · rw [g2]; exact ⟨rfl, .inr ⟨hno, fun x => nomatch x⟩⟩

theorem run_lost {f : Option Cfg} {n : Net} (h : Rep (f.getD .empty) n) {c : Cmd} (hp : c.Plain) (hr : c.RemovesRoute) :
    Rep ((after f c).getD .empty) n ∧ (∀ g, some g ∈ (run f c).1 → Rep g n) ∧
    ((∃ n', Step n c n') ∧ (run f c).2 = none ∨ (∀ n', ¬ Step n c n') ∧ (run f c).2 ≠ none) := by
  obtain ⟨m, h1, h2⟩ := ready h
  have e1 : run f c = ((perform m c).1.files, (perform m c).2) := by rw [run, h1]
  obtain ⟨k1, k2⟩ := lost_spec h2 hp hr
  have hs := h2.loaded.sync
  rw [Mgr.file] at hs
  refine ⟨?_, ?_, by rw [e1]; exact k2⟩
  · rw [after, e1]
    dsimp only
    rw [k1, hs]
    exact h2.rep
  · rw [e1]
    dsimp only
    rw [k1]
    exact h2.files

theorem isNone_false {α : Type} {o : Option α} (h : o ≠ none) : o.isNone = false := by
  cases o with
  | none => exact absurd rfl h
  | some _ => rfl

theorem happen_spec : ∀ (cs : List Cmd) (f : Option Cfg) (n : Net), Rep (f.getD .empty) n → (∀ c ∈ cs, c.Plain) →
    ∃ n', Happen n cs (outcomes f cs) n' ∧ Rep ((exec f cs).getD .empty) n'
  | [], f, n, h, _ => ⟨n, .nil, h⟩
  | c :: cs, f, n, h, hp => by
    have ih := fun n1 g => happen_spec cs (after f c) n1 g (fun x hx => hp x (by simp [hx]))
    have hc := hp c (by simp)
    rw [outcomes]
    by_cases hr : c.RemovesRoute
    · obtain ⟨g, _, ⟨⟨n', s⟩, e⟩ | ⟨s, e⟩⟩ := run_lost h hc hr
      · obtain ⟨n2, k1, k2⟩ := ih n g
        rw [e]
        exact ⟨n2, .done (.lost hr s) k1, k2⟩
      · obtain ⟨n2, k1, k2⟩ := ih n g
        rw [isNone_false e]
        exact ⟨n2, .failed s k1, k2⟩
    · rcases run_spec h c hc hr with ⟨n1, s, e, g, _⟩ | ⟨s, e, g, _⟩
      · obtain ⟨n2, k1, k2⟩ := ih n1 g
        rw [e]
        exact ⟨n2, .done (.asMeant hr s) k1, k2⟩
      · obtain ⟨n2, k1, k2⟩ := ih n g
        rw [isNone_false e]
        exact ⟨n2, .failed s k1, k2⟩

/-- C59, all commands: they succeed exactly when they should, and what a new process shows is what they are meant to do, except that the removal
of a route other than the default is lost. -/
theorem C59_all_commands (cs : List Cmd) (hp : ∀ c ∈ cs, c.Plain) :
    ∃ n, Happen .init cs (outcomes none cs) n ∧ FileShows (exec none cs) n := by
  obtain ⟨n, h1, h2⟩ := happen_spec cs none .init rep_init hp
  exact ⟨n, h1, shows_of_rep h2⟩

/-- C59, nothing dangles: after any commands, what a new process shows has connections only from an interface to an access point, and routes only
through interfaces. -/
theorem C59_closed (cs : List Cmd) (hp : ∀ c ∈ cs, c.Plain) :
    ∃ n, FileShows (exec none cs) n ∧ (∀ k c, n.link k = some c → n.Iface k ∧ n.Ap c) ∧ (∀ r k, (r, k) ∈ n.routes.routes → n.Iface k) ∧
      (∀ k, n.routes.default = some k → n.Iface k) := by
  obtain ⟨n, _, h2⟩ := happen_spec cs none .init rep_init hp
  refine ⟨n, shows_of_rep h2, ?_, ?_, ?_⟩
  · intro k c hl
    rw [h2.core.link] at hl
    obtain ⟨h3, h4⟩ := Option.filter_eq_some_iff.mp hl
    obtain ⟨h5, h6, h7⟩ := h2.core.conn k c h3
    refine ⟨Net.iface_iff.mp h5, Net.ap_iff.mpr ?_⟩
    cases hx : n.ty c with
    | none => rw [hx] at h4; cases h4
    | some t => exact ⟨t, rfl, fun e => h7.2 (by rw [hx, e])⟩
  · intro r k hm
    rw [h2.routes.routes] at hm
    exact Net.iface_iff.mp (h2.owner r k (get_of_mem h2.routes.wf (List.mem_filter.mp hm).1))
  · intro k hd
    rw [h2.routes.default] at hd
    exact Net.iface_iff.mp (h2.owner _ k hd)

/-- C59, crashes (partial: not while the file is being written, see `C59_false_crash`, and not for the command `remove`, see
`C59_false_remove_crash`). Whenever a command is killed, a new process shows the network before or the one after. -/
theorem C59_crash_partial (cs : List Cmd) (hp : ∀ c ∈ cs, c.Plain) (c : Cmd) (hc : c.Plain) (hnr : ∀ k, c ≠ .remove k) :
    ∃ n n', Happen .init cs (outcomes none cs) n ∧ Happen n [c] (outcomes (exec none cs) [c]) n' ∧
      ∀ g, some g ∈ (run (exec none cs) c).1 → FileShows (some g) n ∨ FileShows (some g) n' := by
  obtain ⟨n, h1, h2⟩ := happen_spec cs none .init rep_init hp
  rw [outcomes]
  by_cases hr : c.RemovesRoute
  · obtain ⟨_, g, ⟨⟨n', s⟩, e⟩ | ⟨s, e⟩⟩ := run_lost h2 hc hr
    · exact ⟨n, n, h1, by rw [e]; exact .done (.lost hr s) .nil, fun x hx => .inl (shows_of_rep (g x hx))⟩
    · exact ⟨n, n, h1, by rw [isNone_false e]; exact .failed s .nil, fun x hx => .inl (shows_of_rep (g x hx))⟩
  · rcases run_spec h2 c hc hr with ⟨n', s, e, _, g⟩ | ⟨s, e, _, g⟩
    · refine ⟨n, n', h1, by rw [e]; exact .done (.asMeant hr s) .nil, ?_⟩
      intro x hx
      rcases g x hx with y | y | ⟨k, y⟩
      · exact .inl (shows_of_rep y)
      · exact .inr (shows_of_rep y)
      · exact absurd y (hnr k)
    · exact ⟨n, n, h1, by rw [isNone_false e]; exact .failed s .nil, fun x hx => .inl (shows_of_rep (g x hx))⟩

/-- The claim is false for the removal of a route: after any history, the command succeeds if the device has the route, and the route is still
there. -/
theorem C59_false_removed_route (cs : List Cmd) (hp : ∀ c ∈ cs, c.Plain) :
    ∃ n, Happen .init cs (outcomes none cs) n ∧ ∀ k r, n.Iface k → (r, k) ∈ n.routes.routes → norm r = r → r ≠ "default".toList → r ≠ Routes.defaultKey →
      ∀ verb, Says verb "route" → (run (exec none cs) (.config k verb ["remove".toList, r])).2 = none ∧
        FileShows (after (exec none cs) (.config k verb ["remove".toList, r])) n := by
  obtain ⟨n, h1, h2⟩ := happen_spec cs none .init rep_init hp
  refine ⟨n, h1, fun k r hi hm hr hd hdk verb hv => ?_⟩
  have hp : (Cmd.config k verb ["remove".toList, r]).Plain := by
    intro a ha
    simp only [List.mem_cons, List.not_mem_nil, or_false] at ha
    rcases ha with rfl | rfl
    · exact by decide +kernel
    · exact ⟨hr, hdk⟩
  obtain ⟨k1, _, ⟨_, k2⟩ | ⟨k2, _⟩⟩ := run_lost h2 hp ⟨hv, r, rfl, hd⟩
  · exact ⟨k2, shows_of_rep k1⟩
  · exact absurd (.removeRoute hi hv hd hm) (k2 _)

/-- The claim is false for names that are not in lower case: after any history, a device with such a name can be added, and then every command
fails, for ever. -/
theorem C59_false_case (cs : List Cmd) (hp : ∀ c ∈ cs, c.Plain) :
    ∃ n, Happen .init cs (outcomes none cs) n ∧ ∀ k t args s, norm k ≠ k → n.dev (norm k) = none → Describes t args s →
      (run (exec none cs) (.add k t args)).2 = none ∧ ∀ cs', ∀ b ∈ outcomes (after (exec none cs) (.add k t args)) cs', b = false := by
  obtain ⟨n, h1, h2⟩ := happen_spec cs none .init rep_init hp
  refine ⟨n, h1, fun k t args s hk hd hs => ?_⟩
  obtain ⟨k1, k2⟩ := add_upper h2 hk hd hs
  exact ⟨k1, fun cs' => broken_forever cs' k2⟩

/-! ## Concrete histories -/

def w (s : String) : Str := s.toList

/-- Two switches and two interfaces, one of them connected and with routes. -/
def exHist : List Cmd :=
  [.add (w "sw") (w "switch") [w "local", w "9090", w "manual"], .add (w "v") (w "vnic") [w "1.2.3.4"], .add (w "u") (w "vnic") [w "1.2.3.5", w "manual"],
   .add (w "far") (w "unreliable_switch") [w "remote", w "example", w "80"], .config (w "v") (w " Connect") [w "sw"],
   .config (w "v") (w "route") [w "add", w "1.2.*.*"], .config (w "v") (w "route") [w "add", w "default"], .config (w "u") (w "connect") [w "v"],
   .add (w "v") (w "switch") [], .config (w "u") (w "connect") [w "far"], .config (w "u") (w "route") [w "remove", w "1.2.*.*"], .remove (w "far"), .other]

example : (∀ c ∈ exHist, c.Plain) := by
  intro c hc
  simp only [exHist, List.mem_cons, List.not_mem_nil, or_false] at hc
  rcases hc with rfl | rfl | rfl | rfl | rfl | rfl | rfl | rfl | rfl | rfl | rfl | rfl | rfl <;> first | exact trivial | (show norm _ = _; decide +kernel) | (intro a ha; simp only [List.mem_cons, List.not_mem_nil, or_false] at ha; rcases ha with rfl | rfl <;> decide +kernel) | (intro a ha; simp only [List.mem_cons, List.not_mem_nil, or_false] at ha; rcases ha with rfl; decide +kernel)

/-- Which of them succeed. -/
example : outcomes none exHist = [true, true, true, true, true, true, true, false, false, true, false, true, true] := by decide +kernel

/-- The file at the end. -/
def exFile : Cfg :=
  ⟨[(w "sw", w "switch"), (w "v", w "vnic"), (w "u", w "vnic")], [(w "v", w "sw")], [(w "1.2.*.*", w "v"), (w "__default__", w "v")],
   [(w "sw", [(w "auto_enable", w "false"), (w "physical_connection_type", w "local"), (w "tcp_port", w "9090")]),
    (w "v", [(w "playground_address", w "1.2.3.4"), (w "auto_enable", w "true")]),
    (w "u", [(w "playground_address", w "1.2.3.5"), (w "auto_enable", w "false")])]⟩

example : (load (exec none exHist)).1.mem = exFile := by decide +kernel

/-- An interface whose route can be removed in vain. -/
example : (outcomes (exec none exHist) [.config (w "v") (w "route") [w "remove", w "1.2.*.*"], .config (w "v") (w "route") [w "remove", w "1.2.*.*"]]) = [true, true] := by
  decide +kernel

/-- `pnetworking add Alice vnic 1.2.3.6`, and afterwards nothing works. -/
example : (outcomes (exec none exHist) [.add (w "Alice") (w "vnic") [w "1.2.3.6"], .other, .remove (w "alice"), .remove (w "Alice")]) = [true, false, false, false] := by
  decide +kernel

/-- The claim about crashes is false while the file is written: any command that saves truncates the file first, and a new process then shows an
empty network, without an error. -/
theorem C59_false_crash : Option.none ∈ (run (exec none exHist) (.add (w "x") (w "vnic") [w "1.2.3.6"])).1 ∧ FileShows none .init :=
  ⟨by decide +kernel, shows_of_rep (f := none) rep_init⟩

/-- The claim about crashes is false for the removal of a device: the file in between has the device and its routes, but not its connection. -/
theorem C59_false_remove_crash : ∃ g, some g ∈ (run (exec none exHist) (.remove (w "v"))).1 ∧
    g.devices.get (w "v") = some (w "vnic") ∧ g.routes.get (w "1.2.*.*") = some (w "v") ∧ g.connections.get (w "v") = none :=
  ⟨{ exFile with connections := [] }, by decide +kernel⟩

end Verif.Pnms
