import Verif.Spec.Pnms
import Verif.Lemmas.Dict
import Verif.Props.Routes
/-! # Lemmas about loading the network configuration -/
namespace Verif.Pnms
open Verif.Routes (norm)
open Verif.Dict

/-- What is always true of the configuration. `ty` is the type of a device; `link` are the connections to devices that exist. -/
structure Core (f : Cfg) (ty : Str → Option Str) (link : Str → Option Str) : Prop where
  wfd : WF f.devices
  wfc : WF f.connections
  wfs : WF f.secs
  low : ∀ k t, ty k = some t → norm k = k ∧ k ≠ []
  devs : ∀ k, f.devices.get k = ty k
  known : ∀ k t, ty k = some t → t ∈ types
  secs : ∀ k, f.secs.has k = (ty k).isSome
  conn : ∀ k c, f.connections.get k = some c → ty k = some vnic ∧ c ≠ [] ∧ norm c = c ∧ ty c ≠ some vnic
  link : ∀ k, link k = (f.connections.get k).filter fun c => (ty c).isSome

structure Same (g f : Cfg) : Prop where
  devices : g.devices = f.devices
  secs : g.secs = f.secs
  routes : g.routes = f.routes

theorem Same.refl (f : Cfg) : Same f f := ⟨rfl, rfl, rfl⟩
theorem Same.trans {a b c : Cfg} (h : Same a b) (h' : Same b c) : Same a c :=
  ⟨h.devices.trans h'.devices, h.secs.trans h'.secs, h.routes.trans h'.routes⟩

/-- The objects are those of devices, and their connections are not dangling. -/
structure ObjsOk (m : Mgr) (ty : Str → Option Str) : Prop where
  type : ∀ k t, m.objs.get k = some t → ty k = some t
  live : ∀ k t c, m.objs.get k = some t → m.mem.connections.get k = some c → ty c ≠ none

/-- The current content of the file. -/
def Mgr.file (m : Mgr) (f : Option Cfg) : Option Cfg := m.files.getLast?.getD f

/-- While loading, starting from the file `f`. -/
structure LInv (f : Option Cfg) (m : Mgr) (ty : Str → Option Str) (link : Str → Option Str) : Prop where
  core : Core m.mem ty link
  objs : ObjsOk m ty
  same : Same m.mem (f.getD .empty)
  sync : (m.file f).getD .empty = m.mem
  files : ∀ g, some g ∈ m.files → Core g ty link ∧ Same g (f.getD .empty)

theorem types_iff {t : Str} : t ∈ types ↔ t = vnic ∨ t = switch ∨ t = unreliableSwitch := by simp [types]

theorem isIface_vnic : isIface vnic = true := by simp [isIface]

theorem isIface_iff {t : Str} : isIface t = true ↔ t = vnic := by simp [isIface]

/-- Getting a device that is no interface. -/
theorem getDevice_ap {f m ty link} (h : LInv f m ty link) {c : Str} (hc : c ≠ []) (hn : norm c = c) (ht : ty c ≠ some vnic) (k : Nat) :
    ∃ m', getDevice (k + 1) m c = (m', .ok (ty c)) ∧ LInv f m' ty link ∧ m'.mem = m.mem ∧ (∀ j t, m.objs.get j = some t → m'.objs.get j = some t) ∧
      (∀ t, ty c = some t → m'.objs.get c = some t) := by
  unfold getDevice
  rw [if_neg hc]
  cases ho : m.objs.get c with
  | some t =>
    have := h.objs.type c t ho
    exact ⟨m, by rw [this], h, rfl, fun _ _ x => x, fun t' h' => by rw [this] at h'; rw [← h', ho]⟩
  | none =>
    dsimp only
    rw [hn, h.core.devs c]
    cases hty : ty c with
    | none => exact ⟨m, rfl, h, rfl, fun _ _ x => x, fun t' h' => by cases h'⟩
    | some t =>
      dsimp only
      rw [if_neg (fun hx => hx (h.core.known c t hty)), h.core.secs c, hty]
      have hi : isIface t = false := by
        rw [hty] at ht
        cases hi : isIface t with
        | false => rfl
        | true => rw [isIface_iff.mp hi] at ht; exact absurd rfl ht
      refine ⟨{ m with objs := m.objs.set c t }, ?_, ⟨h.core, ⟨?_, ?_⟩, h.same, h.sync, h.files⟩, rfl, ?_, ?_⟩
      · simp [install, hi]
      · intro j t' hj
        dsimp only at hj
        rw [get_set] at hj
        split at hj
        · next e => subst e; cases hj; exact hty
        · exact h.objs.type j t' hj
      · intro j t' d hj hd
        dsimp only at hj hd
        rw [get_set] at hj
        split at hj
        · next e =>
          subst e
          have := (h.core.conn _ _ hd).1
          rw [this] at hty
          exact absurd this ht
        · exact h.objs.live j t' d hj hd
      · intro j t' hj
        dsimp only
        rw [get_set]
        split
        · next e => subst e; rw [ho] at hj; cases hj
        · exact hj
      · intro t' ht'
        cases ht'
        exact get_set_self _ _ _

theorem Core.del {g ty link} (h : Core g ty link) {k c : Str} (hg : g.connections.get k = some c) (hd : ty c = none) :
    Core { g with connections := g.connections.del k } ty link := by
  refine ⟨h.wfd, h.wfc.del k, h.wfs, h.low, h.devs, h.known, h.secs, ?_, ?_⟩
  · intro j d hj
    dsimp only at hj
    rw [get_del h.wfc] at hj
    split at hj
    · cases hj
    · exact h.conn j d hj
  · intro j
    dsimp only
    rw [h.link j, get_del h.wfc]
    split
    · next e => subst e; rw [hg]; simp [Option.filter, hd]
    · rfl

theorem file_save (m : Mgr) (f : Option Cfg) : (save m).file f = some m.mem := by simp [Mgr.file, save]

theorem mem_save_files {m : Mgr} {g : Cfg} : some g ∈ (save m).files ↔ some g ∈ m.files ∨ g = m.mem := by simp [save]

/-- Disconnecting an interface whose connection is dangling. -/
theorem disconnect_dangling {f m ty link} (h : LInv f m ty link) {k c : Str} (hg : m.mem.connections.get k = some c) (hd : ty c = none) :
    LInv f (disconnect m k) ty link ∧ (disconnect m k).objs = m.objs ∧ (disconnect m k).mem.connections = m.mem.connections.del k := by
  have hc := h.core.conn k c hg
  have hk : norm k = k := (h.core.low k vnic hc.1).1
  obtain ⟨x, xs, rfl⟩ : ∃ x xs, c = x :: xs := by
    cases c with
    | nil => exact absurd rfl hc.2.1
    | cons x xs => exact ⟨x, xs, rfl⟩
  have e : disconnect m k = save { m with mem := { m.mem with connections := m.mem.connections.del k } } := by
    simp only [disconnect, connectedTo, hk, hg, disconnectApi]
    rw [if_pos (mem_keys_iff.mpr ⟨_, hg⟩)]
  have hcore := h.core.del hg hd
  rw [e]
  refine ⟨⟨hcore, ⟨?_, ?_⟩, ⟨h.same.devices, h.same.secs, h.same.routes⟩, ?_, ?_⟩, rfl, rfl⟩
  · intro j t hj; exact h.objs.type j t hj
  · intro j t d hj hd'
    have hd' : (m.mem.connections.del k).get j = some d := hd'
    rw [get_del h.core.wfc] at hd'
    split at hd'
    · cases hd'
    · exact h.objs.live j t d hj hd'
  · rw [file_save]; rfl
  · intro g hg'
    rw [mem_save_files] at hg'
    rcases hg' with hg' | rfl
    · exact h.files g hg'
    · exact ⟨hcore, ⟨h.same.devices, h.same.secs, h.same.routes⟩⟩

/-- Getting a device of the configuration. -/
theorem getDevice_spec {f m ty link} (h : LInv f m ty link) {n t : Str} (ht : ty n = some t) (k : Nat) :
    ∃ m', getDevice (k + 2) m n = (m', .ok (some t)) ∧ LInv f m' ty link ∧ (∀ j t, m.objs.get j = some t → m'.objs.get j = some t) ∧
      m'.objs.get n = some t := by
  obtain ⟨hn, hne⟩ := h.core.low n t ht
  by_cases hv : t = vnic
  · subst hv
    rw [getDevice, if_neg hne]
    cases ho : m.objs.get n with
    | some t =>
      have := h.objs.type n t ho
      rw [ht] at this
      cases this
      exact ⟨m, rfl, h, fun _ _ x => x, ho⟩
    | none =>
      dsimp only
      rw [hn, h.core.devs n, ht]
      dsimp only
      rw [if_neg (fun hx => hx (h.core.known n _ ht)), h.core.secs n, ht]
      dsimp only [Option.isSome]
      rw [if_pos rfl]
      have grow : ∀ j t, m.objs.get j = some t → (m.objs.set n vnic).get j = some t := by
        intro j t' hj
        rw [get_set]
        split
        · next e => subst e; rw [ho] at hj; cases hj
        · exact hj
      simp only [install, isIface_vnic, if_true, connectedTo, hn]
      cases hc : m.mem.connections.get n with
      | none =>
        refine ⟨{ m with objs := m.objs.set n vnic }, rfl, ⟨h.core, ⟨?_, ?_⟩, h.same, h.sync, h.files⟩, grow, get_set_self _ _ _⟩
        · intro j t' hj
          dsimp only at hj
          rw [get_set] at hj
          split at hj
          · next e => subst e; cases hj; exact ht
          · exact h.objs.type j t' hj
        · intro j t' d hj hd
          dsimp only at hj hd
          rw [get_set] at hj
          split at hj
          · next e => subst e; rw [hc] at hd; cases hd
          · exact h.objs.live j t' d hj hd
      | some c =>
        dsimp only
        obtain ⟨c1, c2, c3, c4⟩ := h.core.conn n c hc
        -- the object without the condition on its own connection: first the access point is loaded
        have hcn : c ≠ n := fun e => c4 (e ▸ ht)
        cases htc : ty c with
        | some tc =>
          have h0 : LInv f { m with objs := m.objs.set n vnic } ty link := by
            refine ⟨h.core, ⟨?_, ?_⟩, h.same, h.sync, h.files⟩
            · intro j t' hj
              dsimp only at hj
              rw [get_set] at hj
              split at hj
              · next e => subst e; cases hj; exact ht
              · exact h.objs.type j t' hj
            · intro j t' d hj hd
              dsimp only at hj hd
              rw [get_set] at hj
              split at hj
              · next e => subst e; rw [hc] at hd; cases hd; rw [htc]; simp
              · exact h.objs.live j t' d hj hd
          obtain ⟨m', g1, g2, g3, g4, g5⟩ := getDevice_ap h0 c2 c3 c4 k
          rw [g1, htc]
          exact ⟨m', rfl, g2, fun j t hj => g4 j t (grow j t hj), g4 n vnic (get_set_self _ _ _)⟩
        | none =>
          have hg : getDevice (k + 1) { m with objs := m.objs.set n vnic } c = ({ m with objs := m.objs.set n vnic }, .ok none) := by
            have hoc : (m.objs.set n vnic).get c = none := by
              rw [get_set_ne _ _ (Ne.symm hcn)]
              cases hx : m.objs.get c with
              | none => rfl
              | some t' => have := h.objs.type c t' hx; rw [htc] at this; cases this
            unfold getDevice
            rw [if_neg c2]
            dsimp only
            rw [hoc]
            dsimp only
            rw [c3, h.core.devs c, htc]
          rw [hg]
          dsimp only
          obtain ⟨g1, g2, g3⟩ := disconnect_dangling h hc htc
          have e : disconnect { m with objs := m.objs.set n vnic } n = { disconnect m n with objs := m.objs.set n vnic } := by
            obtain ⟨x, xs, rfl⟩ : ∃ x xs, c = x :: xs := by
              cases c with
              | nil => exact absurd rfl c2
              | cons x xs => exact ⟨x, xs, rfl⟩
            simp only [disconnect, connectedTo, hn, hc, disconnectApi]
            rw [if_pos (mem_keys_iff.mpr ⟨_, hc⟩), if_pos (mem_keys_iff.mpr ⟨_, hc⟩)]
            rfl
          rw [e]
          refine ⟨_, rfl, ⟨g1.core, ⟨?_, ?_⟩, g1.same, g1.sync, g1.files⟩, grow, get_set_self _ _ _⟩
          · intro j t' hj
            dsimp only at hj
            rw [get_set] at hj
            split at hj
            · next e => subst e; cases hj; exact ht
            · exact h.objs.type j t' hj
          · intro j t' d hj hd
            dsimp only at hj hd
            rw [g3, get_del h.core.wfc] at hd
            split at hd
            · cases hd
            · next hne =>
              rw [get_set, if_neg hne] at hj
              exact h.objs.live j t' d hj hd
  · obtain ⟨m', g1, g2, _, g4, g5⟩ := getDevice_ap h hne hn (by rw [ht]; intro e; cases e; exact hv rfl) (k + 1)
    rw [ht] at g1
    exact ⟨m', g1, g2, g4, g5 t ht⟩

theorem loadLoop_spec {f ty link} : ∀ (ns : List Str) (m : Mgr), LInv f m ty link → (∀ n ∈ ns, ty n ≠ none) →
    ∃ m', loadLoop m ns = (m', none) ∧ LInv f m' ty link ∧ (∀ j t, m.objs.get j = some t → m'.objs.get j = some t) ∧
      ∀ n ∈ ns, m'.objs.get n = ty n
  | [], m, h, _ => ⟨m, rfl, h, fun _ _ x => x, by simp⟩
  | n :: ns, m, h, hns => by
    obtain ⟨t, ht⟩ := Option.ne_none_iff_exists'.mp (hns n (by simp))
    obtain ⟨m1, g1, g2, g3, g4⟩ := getDevice_spec h ht m.mem.devices.length
    obtain ⟨m2, k1, k2, k3, k4⟩ := loadLoop_spec ns m1 g2 (fun x hx => hns x (by simp [hx]))
    refine ⟨m2, ?_, k2, fun j t hj => k3 j t (g3 j t hj), ?_⟩
    · rw [loadLoop, get, g1]; exact k1
    · intro x hx
      rcases List.mem_cons.mp hx with rfl | hx
      · rw [ht]; exact k3 _ _ g4
      · exact k4 x hx

/-- A manager that has loaded everything: all devices have objects, and no connection is dangling. -/
structure Loaded (f : Option Cfg) (m : Mgr) (ty : Str → Option Str) (link : Str → Option Str) : Prop extends LInv f m ty link where
  all : ∀ k, m.objs.get k = ty k
  clean : ∀ k, link k = m.mem.connections.get k

theorem load_spec {f : Option Cfg} {ty link} (h : Core (f.getD .empty) ty link) : ∃ m, load f = (m, none) ∧ Loaded f m ty link := by
  have h0 : LInv f ⟨f.getD .empty, [], []⟩ ty link :=
    ⟨h, ⟨by simp, by simp⟩, .refl _, rfl, by simp⟩
  obtain ⟨m, g1, g2, _, g4⟩ := loadLoop_spec (f.getD .empty).devices.keys _ h0 (fun n hn => by
    obtain ⟨t, ht⟩ := mem_keys_iff.mp hn
    rw [h.devs] at ht
    rw [ht]; simp)
  have hall : ∀ k, m.objs.get k = ty k := by
    intro k
    cases ht : ty k with
    | none =>
      cases ho : m.objs.get k with
      | none => rfl
      | some t => have := g2.objs.type k t ho; rw [ht] at this; cases this
    | some t =>
      rw [← ht]
      exact g4 k (mem_keys_iff.mpr ⟨t, by rw [h.devs, ht]⟩)
  refine ⟨m, g1, ⟨g2, hall, ?_⟩⟩
  intro k
  rw [g2.core.link k]
  cases hc : m.mem.connections.get k with
  | none => rfl
  | some c =>
    have h1 := (g2.core.conn k c hc).1
    have := g2.objs.live k vnic c (by rw [hall, h1]) hc
    cases hx : ty c with
    | none => exact absurd hx this
    | some t => simp [Option.filter, hx]

/-- After loading, `getDevice` finds the objects and changes nothing. -/
theorem get_loaded {f m ty link} (h : Loaded f m ty link) (n : Str) :
    (∃ t, ty n = some t ∧ get m n = (m, .ok (some t))) ∨
    (ty n = none ∧ ((∃ e, get m n = (m, .error e)) ∨ get m n = (m, .ok none)) ∧ (norm n = n → n ≠ [] → get m n = (m, .ok none))) := by
  cases ht : ty n with
  | some t =>
    refine .inl ⟨t, rfl, ?_⟩
    rw [get, getDevice, if_neg (h.core.low n t ht).2, h.all, ht]
  | none =>
    refine .inr ⟨rfl, ?_⟩
    by_cases hne : n = []
    · refine ⟨.inl ⟨.emptyName, ?_⟩, fun _ hx => absurd hne hx⟩
      rw [get, getDevice, if_pos hne]
    · have e : get m n = (match m.mem.devices.get (norm n) with
          | none => (m, .ok none)
          | some t => if t ∉ types then (m, .error .unknownType) else (m, .error .noSection)) := by
        rw [get, getDevice, if_neg hne, h.all, ht]
        dsimp only
        cases m.mem.devices.get (norm n) with
        | none => rfl
        | some t =>
          dsimp only
          have hs : m.mem.secs.has n = false := by rw [h.core.secs n, ht]; rfl
          rw [hs]
          simp
      rw [e, h.core.devs]
      cases hx : ty (norm n) with
      | none => exact ⟨.inr rfl, fun _ _ => rfl⟩
      | some t =>
        refine ⟨.inl ?_, fun hn => by rw [hn, ht] at hx; cases hx⟩
        dsimp only
        split
        · exact ⟨_, rfl⟩
        · exact ⟨_, rfl⟩

end Verif.Pnms
