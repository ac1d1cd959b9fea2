import Verif.Spec.Choose
import Verif.Props.Pnms
import Verif.Props.Connector
/-! # C76: the interface that a connection or a server uses -/
namespace Verif.Choose
open Verif.Pnms (Net Cmd Happen outcomes Mgr get vnic Ready Settings)
open Verif.Routes (norm Best)

theorem happens_unique {n n1 n2 : Net} {c : Cmd} (h1 : Pnms.Happens n c n1) (h2 : Pnms.Happens n c n2) : n1 = n2 := by
  cases h1 with
  | asMeant a b => cases h2 with
    | asMeant _ d => exact Pnms.C59_step_unique b d
    | lost c _ => exact absurd c a
  | lost a _ => cases h2 with
    | asMeant c _ => exact absurd a c
    | lost _ _ => rfl

theorem happen_unique : ∀ {cs : List Cmd} {n n1 n2 : Net} {b : List Bool}, Happen n cs b n1 → Happen n cs b n2 → n1 = n2
  | [], _, _, _, _, .nil, .nil => rfl
  | _ :: _, _, _, _, _, .done a b, .done c d => by
    cases happens_unique a c
    exact happen_unique b d
  | _ :: _, _, _, _, _, .failed _ b, .failed _ d => happen_unique b d

theorem Made.ready {cs n m} (h : Made cs n m) : Ready (Pnms.exec none cs) m n := by
  obtain ⟨n', h1, h2⟩ := Pnms.happen_spec cs none .init Pnms.rep_init h.plain
  cases happen_unique h.net h1
  obtain ⟨m', h3, h4⟩ := Pnms.ready h2
  have : m = m' := h.service.trans (congrArg Prod.fst h3)
  rw [this]; exact h4

/-- Any commands make a network, and a service can be made. -/
theorem made (cs : List Cmd) (hp : ∀ c ∈ cs, c.Plain) : ∃ n, Made cs n (service (Pnms.exec none cs)) := by
  obtain ⟨n, h1, _⟩ := Pnms.C59_all_commands cs hp
  exact ⟨n, hp, h1, rfl⟩

theorem happen_removed : ∀ {cs : List Cmd} {n n' : Net} {b : List Bool} {k : Str}, Happen n (cs ++ [.remove k]) b n' → n'.dev k = none
  | [], n, n', b, k, h => by
    have hn : ¬ Cmd.RemovesRoute (.remove k) := fun x => x
    cases h with
    | done a b => cases b; cases a with
      | asMeant _ s => cases s with
        | remove _ => show (if k = k then none else _) = none; rw [if_pos rfl]
        | removeNothing h => exact h
      | lost x _ => exact absurd x hn
    | failed x y =>
      cases y
      cases hd : n.dev k with
      | none => rfl
      | some s => exact absurd (.remove hd) (x _)
  | _ :: cs, _, _, _, _, .done _ b => happen_removed (cs := cs) b
  | _ :: cs, _, _, _, _, .failed _ b => happen_removed (cs := cs) b

theorem removed_dev {cs : List Cmd} {n : Net} {m : Mgr} {k : Str} (h : Made (cs ++ [.remove k]) n m) : n.dev k = none := happen_removed h.net

section
variable {cs : List Cmd} {n : Net} {m : Mgr}

theorem get_dev (h : Made cs n m) {k : Str} {s : Settings} (hk : n.dev k = some s) : k ≠ [] ∧ get m k = (m, .ok (some s.type)) := by
  have hr := h.ready
  have ht := Pnms.Net.ty_of hk
  refine ⟨(hr.loaded.core.low k _ ht).2, ?_⟩
  rcases Pnms.get_loaded hr.loaded k with ⟨t, h1, h2⟩ | ⟨h1, _⟩
  · rw [ht] at h1; cases h1; exact h2
  · rw [ht] at h1; cases h1

theorem get_frame (h : Made cs n m) (k : Str) : (get m k).1 = m := by
  rcases Pnms.get_loaded h.ready.loaded k with ⟨t, _, h2⟩ | ⟨_, ⟨e, h2⟩ | h2, _⟩ <;> rw [h2]

theorem get_known (h : Made cs n m) {k t : Str} (hk : (get m k).2 = .ok (some t)) : ∃ s, n.dev k = some s ∧ s.type = t := by
  rcases Pnms.get_loaded h.ready.loaded k with ⟨t', h1, h2⟩ | ⟨_, ⟨e, h2⟩ | h2, _⟩
  · rw [h2] at hk; cases hk; exact Pnms.Net.ty_some h1
  · rw [h2] at hk; cases hk
  · rw [h2] at hk; cases hk

theorem iface_type (a : Str) (b : Bool) : Pnms.isIface (Settings.iface a b).type = true := rfl

theorem iface_address (h : Made cs n m) {k a : Str} {b : Bool} (hk : n.dev k = some (.iface a b)) : address m k (Settings.iface a b).type = .ok a := by
  obtain ⟨d, h1, h2⟩ := h.ready.rep.settings k _ hk
  have h3 := h2.iface a b rfl
  unfold address option
  rw [if_pos (iface_type a b), h1]
  show (match d.get Pnms.optAddress with | none => _ | some a => _) = _
  rw [show Pnms.optAddress = "playground_address".toList from rfl, h3]

theorem iface_at (w : World) (m : Mgr) (k a : Str) (b : Bool) : At w k (tcpLocation w m k (Settings.iface a b).type) := by
  unfold tcpLocation
  rw [if_pos (iface_type a b)]
  by_cases he : w.enabled k = true
  · rw [if_pos he]
    cases hl : w.line k with
    | none => exact .noFile he hl
    | some l =>
      unfold portFrom
      dsimp only
      cases hp : pyInt l with
      | none => exact .noNumber l he hl hp
      | some p => exact .up l p he hl hp
  · rw [if_neg he]
    exact .down (by simpa using he)

theorem locate_iface (h : Made cs n m) (w : World) (a : Addr) {k : Str} (hk : n.Iface k) : ∃ r, locate w m a (some k) = (m, r) ∧ Uses w k (some a) r := by
  obtain ⟨x, b, hx⟩ := hk
  obtain ⟨h1, h2⟩ := get_dev h hx
  refine ⟨match tcpLocation w m k (Settings.iface x b).type with | .ok l => .ok ⟨some a, k, l⟩ | .error e => .error e, ?_, _, iface_at w m k x b, rfl⟩
  unfold locate
  dsimp only
  unfold getVnicTcpLocation
  rw [if_neg h1, if_neg h1, h2]
  dsimp only
  cases tcpLocation w m k (Settings.iface x b).type <;> rfl

theorem at_not_nowhere {w : World} {k : Str} {l : Loc} (h : At w k (.ok l)) : l.bad = decide (l = .nowhere ∨ l.port = some 0) := by
  cases h with
  | up l p _ _ _ =>
    by_cases hp : p = 0
    · subst hp; decide
    · unfold Loc.bad Loc.nowhere
      simp [hp]
  | down _ => decide

theorem place_iface (h : Made cs n m) (w : World) {k x : Str} {b : Bool} (hk : n.dev k = some (.iface x b)) :
    (∀ a, Addr.addressFromString x = .ok a → ∃ r, place true w m (some k) = (m, r) ∧ Serves w k (some a) r) ∧
    (∀ e, Addr.addressFromString x = .error e → place true w m (some k) = (m, .error .address)) := by
  obtain ⟨h1, h2⟩ := get_dev h hk
  have hp : ∀ c, place c w m (some k) = match Addr.addressFromString x with
      | .error _ => (m, .error .address)
      | .ok a => active c w m k (some a) := by
    intro c
    unfold place
    dsimp only
    rw [if_neg h1]
    unfold getVnicPlaygroundAddress
    dsimp only
    rw [if_neg h1, h2]
    dsimp only
    rw [iface_address h hk]
    dsimp only
    cases Addr.addressFromString x <;> rfl
  refine ⟨fun a ha => ?_, fun e he => by rw [hp, he]⟩
  have hat := iface_at w m k x b
  refine ⟨_, ?_, _, hat, rfl⟩
  rw [hp, ha]
  dsimp only
  unfold active getVnicTcpLocation
  rw [if_neg h1, h2]
  dsimp only
  cases ht : tcpLocation w m k (Settings.iface x b).type with
  | error e => rfl
  | ok l =>
    dsimp only
    rw [ht] at hat
    rw [Bool.true_and, at_not_nowhere hat]
    by_cases hl : l = .nowhere ∨ l.port = some 0
    · rw [if_pos hl, if_pos (by simpa using hl)]
    · rw [if_neg hl, if_neg (by simpa using hl)]

theorem default_iface (h : Made cs n m) {k : Str} (hk : n.routes.default = some k) : n.Iface k := by
  rw [h.ready.rep.routes.default] at hk
  exact Pnms.Net.iface_iff.mp (h.ready.rep.owner _ k hk)

theorem best_iface (h : Made cs n m) {a : Addr} {o : Option Str} (hb : Best n.routes a o) {k : Str} (hk : o = some k) : n.Iface k := by
  cases hb with
  | route l1 l2 r dev e _ _ =>
    cases hk
    have : (r, k) ∈ n.routes.routes := by rw [e]; simp
    rw [h.ready.rep.routes.routes] at this
    exact Pnms.Net.iface_iff.mp (h.ready.rep.owner r k (Dict.get_of_mem h.ready.rep.routes.wf (List.mem_filter.mp this).1))
  | default _ => exact default_iface h hk

/-! ## Connections -/

/-- C76 (partial: all routes are address blocks, see `C76_false_bad_route`). A connection to an address goes out through the interface of the first route that
covers the address, else through the default interface, else it fails; the interface is one of the network. -/
theorem C76_connect_partial (h : Made cs n m) (hv : ∀ x ∈ n.routes.routes, ∃ b, Addr.blockFromString x.1 = .ok b) (w : World) (a : Addr) :
    ∃ o, Best n.routes a o ∧ match o with
      | none => connect w m (.addr a) "default".toList = (m, .error .noVnic)
      | some k => n.Iface k ∧ ∃ r, connect w m (.addr a) "default".toList = (m, r) ∧ Uses w k (some a) r := by
  obtain ⟨o, h1, h2⟩ := Routes.routingLoop_spec (s := ⟨m.mem.routes, []⟩) h.ready.rep.routes a hv m.mem.routes [] rfl (by simp)
  refine ⟨o, h2, ?_⟩
  have hc : connect w m (.addr a) "default".toList = locate w m a o := by
    unfold connect resolve
    dsimp only
    rw [if_pos rfl]
    unfold getVnicByDestination Routes.getRoutingDevice
    rw [show Dict.keys (Routes.St.sec ⟨m.mem.routes, []⟩) = List.map Prod.fst m.mem.routes from rfl, h1]
  rw [hc]
  cases o with
  | none => rfl
  | some k =>
    have hi := best_iface h h2 rfl
    exact ⟨hi, locate_iface h w a hi⟩

/-- C76. A destination that is given as a string is the address it denotes; other strings than `localhost` that denote none are an error. -/
theorem C76_text (w : World) (m : Mgr) (s v : Str) (hs : s ≠ "localhost".toList) :
    (∀ a, Addr.addressFromString s = .ok a → connect w m (.text s) v = connect w m (.addr a) v) ∧
    (∀ e, Addr.addressFromString s = .error e → connect w m (.text s) v = (m, .error .address)) := by
  refine ⟨fun a ha => ?_, fun e he => ?_⟩
  · unfold connect resolve
    dsimp only
    rw [if_neg hs, ha]
  · unfold connect resolve
    dsimp only
    rw [if_neg hs, he]

theorem getDefault_eq (h : Made cs n m) : getDefaultVnic m = n.routes.default := by
  rw [h.ready.rep.routes.default]
  show m.mem.routes.get (norm Routes.defaultKey) = _
  rw [show norm Routes.defaultKey = Routes.defaultKey by decide +kernel]

/-- C76. `localhost` is the address of the default interface. -/
theorem C76_localhost (h : Made cs n m) (w : World) (v : Str) :
    (∀ k x b a, n.routes.default = some k → n.dev k = some (.iface x b) → Addr.addressFromString x = .ok a →
      connect w m (.text "localhost".toList) v = connect w m (.addr a) v) ∧
    (n.routes.default = none → connect w m (.text "localhost".toList) v = (m, .error .address)) := by
  refine ⟨fun k x b a hk hx ha => ?_, fun hk => ?_⟩
  · obtain ⟨h1, h2⟩ := get_dev h hx
    unfold connect resolve
    dsimp only
    rw [if_pos rfl, getDefault_eq h, hk]
    unfold getVnicPlaygroundAddress
    dsimp only
    rw [if_neg h1, h2]
    dsimp only
    rw [iface_address h hx]
    dsimp only
    rw [ha]
  · unfold connect resolve
    dsimp only
    rw [if_pos rfl, getDefault_eq h, hk]
    rfl

/-- C76. A call that names an interface uses it, whatever the routes are; a name that is not in the network is an error. -/
theorem C76_named (h : Made cs n m) (w : World) (a : Addr) (v : Str) (hv : v ≠ "default".toList) :
    (n.Iface v → ∃ r, connect w m (.addr a) v = (m, r) ∧ Uses w v (some a) r) ∧
    (n.dev v = none → ∃ e, connect w m (.addr a) v = (m, .error e)) := by
  have hc : connect w m (.addr a) v = locate w m a (some v) := by
    unfold connect resolve
    dsimp only
    rw [if_neg hv]
  rw [hc]
  refine ⟨locate_iface h w a, fun hn => ?_⟩
  unfold locate
  dsimp only
  by_cases hne : v = []
  · rw [if_pos hne]; exact ⟨_, rfl⟩
  rw [if_neg hne]
  unfold getVnicTcpLocation
  rw [if_neg hne]
  rcases Pnms.get_loaded h.ready.loaded v with ⟨t, h1, _⟩ | ⟨_, ⟨e, h2⟩ | h2, _⟩
  · rw [Pnms.Net.ty_none.mpr hn] at h1; cases h1
  · rw [h2]; exact ⟨_, rfl⟩
  · rw [h2]; exact ⟨_, rfl⟩

theorem ap_type (u b : Bool) (pl : Pnms.Place) : Pnms.isIface (Settings.ap u b pl).type = false := by cases u <;> rfl

theorem portOption_eq {m : Mgr} {k t : Str} (ho : option m k Pnms.optPort = some t) (host : Option Str) :
    portOption m k host = match pyInt t with | none => .error .option | some p => .ok ⟨host, some p⟩ := by
  unfold portOption; rw [ho]; rfl

theorem managed_at (w : World) (k : Str) : At w k (if w.enabled k then portFrom (w.line k) else .ok .nowhere) := by
  by_cases he : w.enabled k = true
  · rw [if_pos he]
    cases hl : w.line k with
    | none => exact .noFile he hl
    | some l =>
      unfold portFrom
      dsimp only
      cases hp : pyInt l with
      | none => exact .noNumber l he hl hp
      | some p => exact .up l p he hl hp
  · rw [if_neg he]
    exact .down (by simpa using he)

theorem ap_at (h : Made cs n m) (w : World) {k : Str} {u b : Bool} {pl : Pnms.Place} (hk : n.dev k = some (.ap u b pl)) :
    ApAt w k pl (tcpLocation w m k (Settings.ap u b pl).type) := by
  obtain ⟨d, h1, h2⟩ := h.ready.rep.settings k _ hk
  obtain ⟨e1, e2, e3⟩ := h2.ap u b pl rfl
  have ho : ∀ o, option m k o = d.get o := fun o => by unfold option; rw [h1]; rfl
  unfold tcpLocation
  rw [ap_type, ho, show Pnms.optType = "physical_connection_type".toList from rfl, e1]
  have e3 : option m k Pnms.optPort = pl.port := by rw [ho]; exact e3
  have e2 : option m k Pnms.optTcpAddress = pl.host := by rw [ho]; exact e2
  dsimp only
  rw [if_neg (by decide)]
  cases pl with
  | managed =>
    have k0 : Pnms.Place.managed.kind = "managed".toList := rfl
    rw [if_pos k0]
    exact .managed _ (managed_at w k)
  | loc t =>
    have k1 : (Pnms.Place.loc t).kind ≠ "managed".toList := by show "local".toList ≠ _; decide
    have k2 : (Pnms.Place.loc t).kind ≠ "remote".toList := by show "local".toList ≠ _; decide
    have k3 : (Pnms.Place.loc t).kind ≠ "public".toList := by show "local".toList ≠ _; decide
    rw [if_neg k1, if_neg k2, if_neg k3, portOption_eq e3]
    cases hp : pyInt t with
    | none => exact .bad _ t rfl hp
    | some p => exact .loc t p hp
  | pub t =>
    have k1 : (Pnms.Place.pub t).kind ≠ "managed".toList := by show "public".toList ≠ _; decide
    have k2 : (Pnms.Place.pub t).kind ≠ "remote".toList := by show "public".toList ≠ _; decide
    have k0 : (Pnms.Place.pub t).kind = "public".toList := rfl
    rw [if_neg k1, if_neg k2, if_pos k0, portOption_eq e3]
    cases hp : pyInt t with
    | none => exact .bad _ t rfl hp
    | some p => exact .pub t p hp
  | remote hh t =>
    have k1 : (Pnms.Place.remote hh t).kind ≠ "managed".toList := by show "remote".toList ≠ _; decide
    have k0 : (Pnms.Place.remote hh t).kind = "remote".toList := rfl
    rw [if_neg k1, if_pos k0, e2]
    dsimp only [Pnms.Place.host]
    rw [portOption_eq e3]
    cases hp : pyInt t with
    | none => exact .bad _ t rfl hp
    | some p => exact .remote hh t p hp

/-- C76: the name of an access point is taken for that of an interface: the connection to the "interface" goes to where the access point is. -/
theorem C76_false_named_switch (h : Made cs n m) (w : World) (a : Addr) (v : Str) (hv : v ≠ "default".toList) (u b : Bool) (pl : Pnms.Place)
    (hd : n.dev v = some (.ap u b pl)) : ∃ r, ApAt w v pl r ∧
    connect w m (.addr a) v = (m, match r with | .ok l => .ok ⟨some a, v, l⟩ | .error e => .error e) := by
  obtain ⟨h1, h2⟩ := get_dev h hd
  refine ⟨_, ap_at h w hd, ?_⟩
  unfold connect resolve
  dsimp only
  rw [if_neg hv]
  unfold locate
  dsimp only
  unfold getVnicTcpLocation
  rw [if_neg h1, if_neg h1, h2]
  dsimp only
  cases tcpLocation w m v (Settings.ap u b pl).type <;> rfl

/-! ## Servers -/

/-- C76. A server on `default` or `localhost` listens on the default interface, under its address; without one, or if the interface is not enabled, it is an
error. -/
theorem C76_server_default (h : Made cs n m) (w : World) (host : Str) (hh : host = "default".toList ∨ host = "localhost".toList) :
    (∀ k x b a, n.routes.default = some k → n.dev k = some (.iface x b) → Addr.addressFromString x = .ok a →
      ∃ r, serve w m host = (m, r) ∧ Serves w k (some a) r) ∧
    (n.routes.default = none → serve w m host = (m, .error .noVnic)) := by
  have hs : serve w m host = place true w m n.routes.default := by
    unfold serve serverVnic
    rw [if_pos hh, getDefault_eq h]
  rw [hs]
  exact ⟨fun k x b a hk hx ha => by rw [hk]; exact (place_iface h w hx).1 a ha, fun hk => by rw [hk]; rfl⟩

theorem localLoop_spec (h : Made cs n m) (host : Str) : ∀ ns : List Str,
    (∃ k b, k ∈ ns ∧ n.dev k = some (.iface host b) ∧ localLoop host m ns = (m, .ok (some k))) ∨
    ((∀ k ∈ ns, ∀ b, n.dev k ≠ some (.iface host b)) ∧ localLoop host m ns = (m, .ok none))
  | [] => .inr ⟨by simp, rfl⟩
  | k :: ns => by
    have ih := localLoop_spec h host ns
    rw [localLoop]
    have hty := h.ready.loaded.core.devs k
    by_cases hk : m.mem.devices.get k = some Pnms.vnic
    · rw [if_pos hk]
      obtain ⟨x, b, hx⟩ := Pnms.Net.iface_iff.mp (by rw [← hty]; exact hk)
      rw [(get_dev h hx).2]
      dsimp only
      rw [iface_address h hx]
      dsimp only
      by_cases he : x = host
      · rw [if_pos he]
        subst he
        exact .inl ⟨k, b, List.mem_cons_self .., hx, rfl⟩
      · rw [if_neg he]
        rcases ih with ⟨k', b', h1, h2, h3⟩ | ⟨h1, h2⟩
        · exact .inl ⟨k', b', List.mem_cons_of_mem _ h1, h2, h3⟩
        · refine .inr ⟨fun k' hk' b' => ?_, h2⟩
          rcases List.mem_cons.mp hk' with rfl | hk'
          · rw [hx]; intro hc; cases hc; exact he rfl
          · exact h1 k' hk' b'
    · rw [if_neg hk]
      rcases ih with ⟨k', b', h1, h2, h3⟩ | ⟨h1, h2⟩
      · exact .inl ⟨k', b', List.mem_cons_of_mem _ h1, h2, h3⟩
      · refine .inr ⟨fun k' hk' b' => ?_, h2⟩
        rcases List.mem_cons.mp hk' with rfl | hk'
        · intro hc
          exact hk (by rw [hty, Pnms.Net.ty_of hc]; rfl)
        · exact h1 k' hk' b'

/-- C76. A server on an address listens on an interface that was added with this address, and if there is none it is an error. -/
theorem C76_server_host (h : Made cs n m) (w : World) (host : Str) (h1 : host ≠ "default".toList) (h2 : host ≠ "localhost".toList) :
    (∃ k b, n.dev k = some (.iface host b) ∧
      (∀ a, Addr.addressFromString host = .ok a → ∃ r, serve w m host = (m, r) ∧ Serves w k (some a) r) ∧
      (∀ e, Addr.addressFromString host = .error e → serve w m host = (m, .error .address))) ∨
    ((∀ k b, n.dev k ≠ some (.iface host b)) ∧ serve w m host = (m, .error .noVnic)) := by
  have hs : serve w m host = match localLoop host m m.mem.devices.keys with
      | (m', .error e) => (m', .error e)
      | (m', .ok o) => place true w m' o := by
    unfold serve serverVnic
    rw [if_neg (not_or.mpr ⟨h1, h2⟩)]
    rfl
  rw [hs]
  rcases localLoop_spec h host m.mem.devices.keys with ⟨k, b, _, hk, hl⟩ | ⟨hk, hl⟩
  · rw [hl]
    exact .inl ⟨k, b, hk, (place_iface h w hk).1, (place_iface h w hk).2⟩
  · rw [hl]
    refine .inr ⟨fun k b hc => ?_, rfl⟩
    refine hk k ?_ b hc
    have := h.ready.loaded.core.devs k
    rw [Pnms.Net.ty_of hc] at this
    exact Dict.mem_keys_iff.mpr ⟨_, this⟩

/-- C76. A raw connection uses the default interface. -/
theorem C76_raw (h : Made cs n m) (w : World) (k x : Str) (b : Bool) (a : Addr) (hk : n.routes.default = some k) (hx : n.dev k = some (.iface x b))
    (ha : Addr.addressFromString x = .ok a) : ∃ r, raw w m "default".toList = (m, r) ∧ Uses w k (some a) r := by
  obtain ⟨h1, h2⟩ := get_dev h hx
  unfold raw
  rw [if_pos rfl, getDefault_eq h, hk]
  unfold place
  dsimp only
  rw [if_neg h1]
  unfold getVnicPlaygroundAddress
  dsimp only
  rw [if_neg h1, h2]
  dsimp only
  rw [iface_address h hx]
  dsimp only
  rw [ha]
  dsimp only
  unfold active getVnicTcpLocation
  rw [if_neg h1, h2]
  dsimp only
  refine ⟨match tcpLocation w m k (Settings.iface x b).type with | .ok l => .ok ⟨some a, k, l⟩ | .error e => .error e, ?_, _, iface_at w m k x b, rfl⟩
  cases tcpLocation w m k (Settings.iface x b).type <;> rfl

/-! ## What is used exists, and asking changes nothing -/

theorem location_known (h : Made cs n m) (w : World) (k : Str) : (getVnicTcpLocation w m k).1 = m ∧
    ∀ l, (getVnicTcpLocation w m k).2 = .ok (some l) → ∃ s, n.dev k = some s := by
  unfold getVnicTcpLocation
  by_cases hne : k = []
  · rw [if_pos hne]; exact ⟨rfl, fun l hl => nomatch hl⟩
  rw [if_neg hne]
  have hf := get_frame h k
  have hk : ∀ t, (get m k).2 = .ok (some t) → ∃ s, n.dev k = some s ∧ s.type = t := fun t => get_known h
  generalize get m k = g at hf hk
  obtain ⟨m', r⟩ := g
  dsimp only at hf hk
  subst hf
  match r, hk with
  | .error _, _ => exact ⟨rfl, fun l hl => nomatch hl⟩
  | .ok none, _ => exact ⟨rfl, fun l hl => nomatch hl⟩
  | .ok (some t), hk =>
    obtain ⟨s, hs, _⟩ := hk t rfl
    dsimp only
    cases tcpLocation w m' k t with
    | error e => exact ⟨rfl, fun l hl => nomatch hl⟩
    | ok l => exact ⟨rfl, fun _ _ => ⟨s, hs⟩⟩

theorem address_frame (h : Made cs n m) (o : Option Str) : (getVnicPlaygroundAddress m o).1 = m := by
  cases o with
  | none => rfl
  | some k =>
    unfold getVnicPlaygroundAddress
    dsimp only
    by_cases hne : k = []
    · rw [if_pos hne]
    rw [if_neg hne]
    have hf := get_frame h k
    generalize get m k = g at hf
    obtain ⟨m', r⟩ := g
    dsimp only at hf
    subst hf
    match r with
    | .error _ => rfl
    | .ok none => rfl
    | .ok (some t) =>
      dsimp only
      cases address m' k t with
      | error e => rfl
      | ok a =>
        dsimp only
        cases Addr.addressFromString a <;> rfl

theorem resolve_frame (h : Made cs n m) (d : Dest) : (resolve m d).1 = m := by
  cases d with
  | addr a => rfl
  | text s =>
    unfold resolve
    dsimp only
    by_cases hs : s = "localhost".toList
    · rw [if_pos hs]
      have hf := address_frame h (getDefaultVnic m)
      generalize getVnicPlaygroundAddress m (getDefaultVnic m) = g at hf
      obtain ⟨m', r⟩ := g
      dsimp only at hf
      subst hf
      match r with
      | .error _ => rfl
      | .ok none => rfl
      | .ok (some _) => rfl
    · rw [if_neg hs]
      cases Addr.addressFromString s <;> rfl

theorem locate_known (h : Made cs n m) (w : World) (a : Addr) (o : Option Str) : (locate w m a o).1 = m ∧
    ∀ c, (locate w m a o).2 = .ok c → ∃ s, n.dev c.vnic = some s := by
  cases o with
  | none => exact ⟨rfl, fun c hc => nomatch hc⟩
  | some k =>
    unfold locate
    dsimp only
    by_cases hne : k = []
    · rw [if_pos hne]; exact ⟨rfl, fun c hc => nomatch hc⟩
    rw [if_neg hne]
    have hf := location_known h w k
    generalize getVnicTcpLocation w m k = g at hf
    obtain ⟨m', r⟩ := g
    obtain ⟨hf, hk⟩ := hf
    dsimp only at hf hk
    subst hf
    match r, hk with
    | .error _, _ => exact ⟨rfl, fun c hc => nomatch hc⟩
    | .ok none, _ => exact ⟨rfl, fun c hc => nomatch hc⟩
    | .ok (some l), hk =>
      obtain ⟨s, hs⟩ := hk l rfl
      refine ⟨rfl, fun c hc => ?_⟩
      cases hc
      exact ⟨s, hs⟩

theorem place_known (h : Made cs n m) (w : World) (b : Bool) (o : Option Str) : (place b w m o).1 = m ∧
    ∀ c, (place b w m o).2 = .ok c → ∃ s, n.dev c.vnic = some s := by
  cases o with
  | none => exact ⟨rfl, fun c hc => nomatch hc⟩
  | some k =>
    unfold place
    dsimp only
    by_cases hne : k = []
    · rw [if_pos hne]; exact ⟨rfl, fun c hc => nomatch hc⟩
    rw [if_neg hne]
    have hf := address_frame h (some k)
    generalize getVnicPlaygroundAddress m (some k) = g at hf
    obtain ⟨m', r⟩ := g
    dsimp only at hf
    subst hf
    match r with
    | .error _ => exact ⟨rfl, fun c hc => nomatch hc⟩
    | .ok a =>
      dsimp only
      unfold active
      have hf := location_known h w k
      generalize getVnicTcpLocation w m' k = g at hf
      obtain ⟨m'', r⟩ := g
      obtain ⟨hf, hk⟩ := hf
      dsimp only at hf hk
      subst hf
      match r, hk with
      | .error _, _ => exact ⟨rfl, fun c hc => nomatch hc⟩
      | .ok none, _ => exact ⟨rfl, fun c hc => nomatch hc⟩
      | .ok (some l), hk =>
        obtain ⟨s, hs⟩ := hk l rfl
        dsimp only
        by_cases hb : (b && l.bad) = true
        · rw [if_pos hb]; exact ⟨rfl, fun c hc => nomatch hc⟩
        · rw [if_neg hb]
          refine ⟨rfl, fun c hc => ?_⟩
          cases hc
          exact ⟨s, hs⟩

theorem connect_known (h : Made cs n m) (w : World) (d : Dest) (v : Str) : (connect w m d v).1 = m ∧
    ∀ c, (connect w m d v).2 = .ok c → ∃ s, n.dev c.vnic = some s := by
  unfold connect
  have hf := resolve_frame h d
  generalize resolve m d = g at hf
  obtain ⟨m', r⟩ := g
  dsimp only at hf
  subst hf
  match r with
  | .error _ => exact ⟨rfl, fun c hc => nomatch hc⟩
  | .ok a =>
    dsimp only
    by_cases hv : v = "default".toList
    · rw [if_pos hv]
      cases getVnicByDestination m' a with
      | error e => exact ⟨rfl, fun c hc => nomatch hc⟩
      | ok o => exact locate_known h w a o
    · rw [if_neg hv]
      exact locate_known h w a (some v)

theorem serve_known (h : Made cs n m) (w : World) (host : Str) : (serve w m host).1 = m ∧
    ∀ c, (serve w m host).2 = .ok c → ∃ s, n.dev c.vnic = some s := by
  unfold serve serverVnic
  by_cases hh : host = "default".toList ∨ host = "localhost".toList
  · rw [if_pos hh]
    exact place_known h w true _
  · rw [if_neg hh]
    unfold getVnicByLocalAddress
    rcases localLoop_spec h host m.mem.devices.keys with ⟨k, b, _, hk, hl⟩ | ⟨hk, hl⟩
    · rw [hl]; exact place_known h w true _
    · rw [hl]; exact place_known h w true _

theorem raw_known (h : Made cs n m) (w : World) (v : Str) : (raw w m v).1 = m ∧
    ∀ c, (raw w m v).2 = .ok c → ∃ s, n.dev c.vnic = some s := by
  unfold raw
  by_cases hv : v = "default".toList
  · rw [if_pos hv]; exact place_known h w false _
  · rw [if_neg hv]; exact ⟨rfl, fun c hc => nomatch hc⟩

/-- C76. Connections and servers do not change the configuration, neither in memory nor in the file. -/
theorem C76_reads (h : Made cs n m) (w : World) : (∀ d v, (connect w m d v).1 = m) ∧ (∀ host, (serve w m host).1 = m) ∧ ∀ v, (raw w m v).1 = m :=
  ⟨fun d v => (connect_known h w d v).1, fun host => (serve_known h w host).1, fun v => (raw_known h w v).1⟩

/-- C76. Only devices of the network are used: after the command that removes a device, a new service does not use it, whatever is asked for. -/
theorem C76_removed (cs : List Cmd) (k : Str) (hp : ∀ c ∈ cs ++ [.remove k], c.Plain) (w : World) :
    (∀ d v c, (connect w (service (Pnms.exec none (cs ++ [.remove k]))) d v).2 = .ok c → c.vnic ≠ k) ∧
    (∀ host c, (serve w (service (Pnms.exec none (cs ++ [.remove k]))) host).2 = .ok c → c.vnic ≠ k) ∧
    (∀ v c, (raw w (service (Pnms.exec none (cs ++ [.remove k]))) v).2 = .ok c → c.vnic ≠ k) := by
  obtain ⟨n, h⟩ := made (cs ++ [.remove k]) hp
  have hk : n.dev k = none := removed_dev h
  have key : ∀ c : Choice, (∃ s, n.dev c.vnic = some s) → c.vnic ≠ k := by
    intro c hs e
    obtain ⟨s, hs⟩ := hs
    rw [e, hk] at hs
    cases hs
  exact ⟨fun d v c hc => key c ((connect_known h w d v).2 c hc), fun host c hc => key c ((serve_known h w host).2 c hc),
    fun v c hc => key c ((raw_known h w v).2 c hc)⟩

end
end Verif.Choose
