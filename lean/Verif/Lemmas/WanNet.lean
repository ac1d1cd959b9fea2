import Verif.Spec.WanNet
import Verif.Lemmas.Switch
import Verif.Props.Switch
/-! # WAN with devices: the invariant -/
namespace Verif.WanNet
open Verif.Switch

theorem dev_inj {i j : Nat} (h : dev i = dev j) : i = j := by unfold dev at h; omega
theorem lnk_inj {i j : Nat} (h : lnk i = lnk j) : i = j := by unfold lnk at h; omega
theorem dev_ne_lnk (i j : Nat) : dev i ≠ lnk j := by unfold dev lnk; omega
theorem dev_or_lnk (l : Nat) : (∃ i, l = dev i) ∨ ∃ j, l = lnk j := by
  rcases Nat.mod_two_eq_zero_or_one l with h | h
  · exact .inl ⟨l / 2, by unfold dev; omega⟩
  · exact .inr ⟨l / 2, by unfold lnk; omega⟩

/-! ## The tables of the switches -/

/-- The address under which a link is registered at a prefix. -/
def tab (L : Dict Int Switch) (p : Int) (l : Nat) : Option Str := ((L.get p).getD Switch.new).linkToAddress.get l

structure Good (L : Dict Int Switch) : Prop where
  wf : Dict.WF L
  inv : ∀ p s, L.get p = some s → Switch.Inv s

theorem tab_unknown {L : Dict Int Switch} {p : Int} (h : p ∉ L.keys) (l : Nat) : tab L p l = none := by
  unfold tab; rw [Dict.get_eq_none_iff.mpr h]; rfl

theorem Good.lan {L : Dict Int Switch} (h : Good L) (p : Int) : Switch.Inv ((L.get p).getD Switch.new) := by
  cases hp : L.get p with
  | none => exact inv_new
  | some s => exact h.inv p s hp

theorem Good.set {L : Dict Int Switch} (h : Good L) {p : Int} {s : Switch} (hs : Switch.Inv s) : Good (L.set p s) := by
  refine ⟨h.wf.set p s, fun q s' hq => ?_⟩
  rw [Dict.get_set] at hq
  split at hq
  · cases hq; exact hs
  · exact h.inv q s' hq

theorem tab_set (L : Dict Int Switch) (p : Int) (s : Switch) (q : Int) (l : Nat) :
    tab (L.set p s) q l = if q = p then s.linkToAddress.get l else tab L q l := by
  unfold tab
  rw [Dict.get_set]
  by_cases h : q = p
  · subst h; simp
  · rw [if_neg (fun h' => h h'.symm), if_neg h]

theorem keys_set_of_mem {α β : Type} [DecidableEq α] {d : Dict α β} {k : α} (h : k ∈ d.keys) (v : β) : (d.set k v).keys = d.keys := by
  rw [Dict.keys_set, if_pos h]

theorem lanDo_unregister {n : Net} (hg : Good n.lans) (p : Int) (k : Nat) :
    ∃ L, n.lanDo p (·.unregisterLink k) = { n with lans := L } ∧ L.keys = n.lans.keys ∧ Good L ∧
      ∀ q l, tab L q l = if q = p ∧ l = k then none else tab n.lans q l := by
  unfold Net.lanDo
  cases hp : n.lans.get p with
  | none =>
    refine ⟨n.lans, rfl, rfl, hg, fun q l => ?_⟩
    split
    · next h => rw [h.1]; exact tab_unknown (Dict.get_eq_none_iff.mp hp) l
    · rfl
  | some s =>
    obtain ⟨s', h1, h2, h3⟩ := unregister_spec (hg.inv p s hp) k
    have hk : p ∈ n.lans.keys := Dict.mem_keys_iff.mpr ⟨s, hp⟩
    refine ⟨n.lans.set p s', by dsimp only; rw [h1], keys_set_of_mem hk _, hg.set h2, fun q l => ?_⟩
    rw [tab_set]
    by_cases hq : q = p
    · rw [if_pos hq, h3]
      subst hq
      unfold tab
      rw [hp]
      by_cases hl : l = k <;> simp [hl]
    · rw [if_neg hq, if_neg (by simp [hq])]

theorem lanDo_register {n : Net} (hg : Good n.lans) {p : Int} (hp : p ∈ n.lans.keys) {a : Str} (ha : BlockText a) (k : Nat) :
    ∃ L, n.lanDo p (·.registerLink a k) = { n with lans := L } ∧ L.keys = n.lans.keys ∧ Good L ∧
      ∀ q l, tab L q l = if q = p ∧ l = k then some a else tab n.lans q l := by
  unfold Net.lanDo
  obtain ⟨s, hs⟩ := Dict.mem_keys_iff.mp hp
  rw [hs]
  obtain ⟨s', h1, h2, h3⟩ := register_spec (hg.inv p s hs) a k
  refine ⟨n.lans.set p s', by dsimp only; rw [h1], keys_set_of_mem hp _, hg.set h2, fun q l => ?_⟩
  rw [tab_set]
  by_cases hq : q = p
  · rw [if_pos hq, h3]
    subst hq
    unfold tab
    rw [hs]
    by_cases hl : l = k <;> simp [hl, ha]
  · rw [if_neg hq, if_neg (by simp [hq])]

theorem hub_dotted (p : Int) : hub p = dotted (intStr p) ['0'] ['0'] ['0'] := by
  unfold hub dotted; simp

theorem zero_text : PartText ['0'] :=
  .inr ⟨⟨0, (pyInt_iff _ _).mp (by decide)⟩, by decide⟩

theorem hub_text (p : Int) : BlockText (hub p) :=
  ⟨_, _, _, _, hub_dotted p, .inr ⟨⟨p, (pyInt_iff _ _).mp (pyInt_intStr p)⟩, intStr_no p '.' (.inl rfl)⟩, zero_text, zero_text, zero_text⟩

/-! ## The invariant of the devices -/

/-- A dictionary with at most one key. -/
def one (x : Nat) : Option Str → Dict Nat Str
  | none => []
  | some a => [(x, a)]

theorem single {d : Dict Nat Str} (hw : Dict.WF d) {x : Nat} {o : Option Str} (h : ∀ k, d.get k = if k = x then o else none) :
    d = one x o := by
  cases d with
  | nil =>
    have := h x
    rw [if_pos rfl] at this
    rw [← this]; rfl
  | cons e t =>
    obtain ⟨k, a⟩ := e
    have h1 := h k
    have h2 : Dict.get ((k, a) :: t) k = some a := by simp [Dict.get]
    rw [h2] at h1
    split at h1
    · next hk =>
      subst hk
      rw [← h1]
      have ht : t = [] := by
        cases t with
        | nil => rfl
        | cons f u =>
          obtain ⟨k', a'⟩ := f
          have h3 := h k'
          have hne : k ≠ k' := by
            intro he
            unfold Dict.WF at hw
            simp [he] at hw
          have h4 : Dict.get ((k, a) :: (k', a') :: u) k' = some a' := by simp [Dict.get, hne]
          rw [h4, if_neg (Ne.symm hne)] at h3
          cases h3
      rw [ht]; rfl
    · cases h1

/-- The router of device `i` as its users see it. -/
structure RouterIs (i : Nat) (r : Router) (s : Seat) : Prop where
  used : s.used = true
  inv : Switch.Inv r.own
  own : ∀ k, r.own.linkToAddress.get k = if k = dev i then s.addr else none
  lan : r.lan = s.place
  loc : ∀ p, s.place = some p → r.loc = some p

def RouterOK (i : Nat) (ro : Option Router) (s : Seat) : Prop := match ro with
  | none => s = {}
  | some r => RouterIs i r s

structure Core (n : Net) (v : View) : Prop where
  good : Good n.lans
  keys : n.lans.keys = v.lans
  tabs : ∀ p i, tab n.lans p (dev i) = if (v.seat i).place = some p then (v.seat i).addr else none
  router : ∀ i, RouterOK i (n.routers.get i) (v.seat i)
  addr : ∀ i a, (v.seat i).addr = some a → BlockText a

structure DevInv (n : Net) (v : View) : Prop extends Core n v where
  nodupC : n.conns.Nodup
  conns : ∀ i, i ∈ n.conns ↔ (v.seat i).up = true
  nodupU : n.up.Nodup
  up : ∀ i, dev i ∈ n.up ↔ (v.seat i).up = true
  place : ∀ i p, (v.seat i).place = some p → p ∈ v.lans ∧ (v.seat i).up = true

theorem RouterIs.table {i : Nat} {r : Router} {s : Seat} (h : RouterIs i r s) : r.own.linkToAddress = one (dev i) s.addr := single h.inv.wf2 h.own

theorem leave_spec {n : Net} {v : View} (h : Core n v) {i : Nat} {r : Router} (hr : n.routers.get i = some r) :
    ∃ L, n.leave r = { n with lans := L } ∧ L.keys = n.lans.keys ∧ Good L ∧
      ∀ q l, tab L q l = if l = dev i then none else tab n.lans q l := by
  have hi := h.router i
  rw [hr] at hi
  have hi : RouterIs i r (v.seat i) := hi
  have ht := h.tabs
  unfold Net.leave
  rw [hi.table, hi.lan]
  cases hp : (v.seat i).place with
  | none =>
    refine ⟨n.lans, rfl, rfl, h.good, fun q l => ?_⟩
    split
    · next hl => rw [hl, ht, hp]; simp
    · rfl
  | some p =>
    cases ha : (v.seat i).addr with
    | none =>
      refine ⟨n.lans, rfl, rfl, h.good, fun q l => ?_⟩
      split
      · next hl => rw [hl, ht, ha]; simp
      · rfl
    | some a =>
      obtain ⟨L, h1, h2, h3, h4⟩ := lanDo_unregister h.good p (dev i)
      refine ⟨L, h1, h2, h3, fun q l => ?_⟩
      rw [h4]
      by_cases hl : l = dev i
      · rw [if_pos hl]
        by_cases hq : q = p
        · rw [if_pos ⟨hq, hl⟩]
        · rw [if_neg (by simp [hq]), hl, ht, hp, if_neg]
          intro he; cases he; exact hq rfl
      · rw [if_neg (by simp [hl]), if_neg hl]

theorem enter_spec {n : Net} (hg : Good n.lans) {i : Nat} {r : Router} {a : Option Str}
    (ht : r.own.linkToAddress = one (dev i) a)
    (ha : ∀ x, a = some x → BlockText x) (hk : ∀ p, r.lan = some p → p ∈ n.lans.keys) (hn : ∀ q, tab n.lans q (dev i) = none) :
    ∃ L, n.enter r = { n with lans := L } ∧ L.keys = n.lans.keys ∧ Good L ∧
      ∀ q l, tab L q l = if l = dev i then (if r.lan = some q then a else none) else tab n.lans q l := by
  unfold Net.enter
  rw [ht]
  cases hp : r.lan with
  | none =>
    refine ⟨n.lans, rfl, rfl, hg, fun q l => ?_⟩
    split
    · next hl => rw [hl, hn]; simp
    · rfl
  | some p =>
    cases a with
    | none =>
      refine ⟨n.lans, rfl, rfl, hg, fun q l => ?_⟩
      split
      · next hl => rw [hl, hn]; simp
      · rfl
    | some a =>
      obtain ⟨L, h1, h2, h3, h4⟩ := lanDo_register hg (hk p hp) (ha a rfl) (dev i)
      refine ⟨L, h1, h2, h3, fun q l => ?_⟩
      rw [h4]
      by_cases hl : l = dev i
      · rw [if_pos hl]
        by_cases hq : q = p
        · rw [if_pos ⟨hq, hl⟩, hq, if_pos rfl]
        · rw [if_neg (by simp [hq]), hl, hn, if_neg]
          intro he; cases he; exact hq rfl
      · rw [if_neg (by simp [hl]), if_neg hl]

theorem setPrefix_spec {n : Net} {v : View} (h : Core n v) {i : Nat} {r : Router} (hr : n.routers.get i = some r) (loc lan : Option Int)
    (hk : ∀ p, lan = some p → p ∈ v.lans) :
    ∃ L, n.setPrefix i loc lan = { n with lans := L, routers := n.routers.set i { r with loc := loc, lan := lan } } ∧
      L.keys = n.lans.keys ∧ Good L ∧
      ∀ q l, tab L q l = if l = dev i then (if lan = some q then (v.seat i).addr else none) else tab n.lans q l := by
  have hi := h.router i
  rw [hr] at hi
  have hi : RouterIs i r (v.seat i) := hi
  obtain ⟨L, h1, h2, h3, h4⟩ := leave_spec h hr
  unfold Net.setPrefix
  rw [hr]
  dsimp only
  rw [h1]
  obtain ⟨L', g1, g2, g3, g4⟩ := enter_spec (n := { n with lans := L, routers := n.routers.set i { r with loc := loc, lan := lan } })
    (i := i) (r := { r with loc := loc, lan := lan }) (a := (v.seat i).addr) h3 hi.table (fun x hx => h.addr i x hx)
    (fun p hp => by rw [h2, h.keys]; exact hk p hp) (fun q => by show tab L q (dev i) = none; rw [h4, if_pos rfl])
  refine ⟨L', g1, g2.trans h2, g3, fun q l => ?_⟩
  rw [g4]
  split
  · rfl
  · next hl => show tab L q l = _; rw [h4, if_neg hl]

theorem ownDo_eq {n : Net} {i : Nat} {r : Router} {s : Switch} {f : Switch → Except SwErr Switch} (hr : n.routers.get i = some r)
    (hf : f r.own = .ok s) : n.ownDo i f = { n with routers := n.routers.set i { r with own := s } } := by
  unfold Net.ownDo
  rw [hr]
  dsimp only
  rw [hf]

theorem routerUnregister_spec {n : Net} {v : View} (h : Core n v) {i : Nat} {r : Router} (hr : n.routers.get i = some r) (release : Bool) :
    ∃ L R s, n.routerUnregister i release =
        { n with lans := L, routers := R, conns := if release then n.conns.erase i else n.conns } ∧
      L.keys = n.lans.keys ∧ Good L ∧ (∀ q l, tab L q l = if l = dev i then none else tab n.lans q l) ∧
      (∀ j, R.get j = if i = j then some ⟨none, none, s⟩ else n.routers.get j) ∧ Switch.Inv s ∧ ∀ k, s.linkToAddress.get k = none := by
  have hi := h.router i
  rw [hr] at hi
  have hi : RouterIs i r (v.seat i) := hi
  obtain ⟨L, h1, h2, h3, h4⟩ := setPrefix_spec h hr none none (by simp)
  obtain ⟨s, g1, g2, g3⟩ := unregister_spec hi.inv (dev i)
  refine ⟨L, (n.routers.set i { r with loc := none, lan := none }).set i ⟨none, none, s⟩, s, ?_, h2, h3, ?_, ?_, g2, ?_⟩
  · unfold Net.routerUnregister
    dsimp only
    rw [h1]
    cases release
    · exact ownDo_eq (r := { r with loc := none, lan := none }) (Dict.get_set_self ..) g1
    · exact ownDo_eq (r := { r with loc := none, lan := none }) (Dict.get_set_self ..) g1
  · intro q l
    rw [h4]
    by_cases hl : l = dev i
    · rw [if_pos hl, if_pos hl]; simp
    · rw [if_neg hl, if_neg hl]
  · intro j
    rw [Dict.get_set, Dict.get_set]
    split <;> rfl
  · intro k
    rw [g3, hi.own]
    split <;> simp

/-- Which parts of the network a device concerns. -/
structure Rest (n n' : Net) : Prop where
  routes : n'.routes = n.routes
  direct : n'.direct = n.direct
  peers : n'.peers = n.peers
  ends : n'.ends = n.ends
  out : n'.out = n.out
  keys : n'.lans.keys = n.lans.keys
  up : ∀ j, lnk j ∈ n'.up ↔ lnk j ∈ n.up
  tabs : ∀ p j, tab n'.lans p (lnk j) = tab n.lans p (lnk j)

theorem Rest.refl (n : Net) : Rest n n := ⟨rfl, rfl, rfl, rfl, rfl, rfl, fun _ => Iff.rfl, fun _ _ => rfl⟩

theorem lnk_ne_dev (j i : Nat) : lnk j ≠ dev i := (dev_ne_lnk i j).symm

/-- The seat of `i` is replaced. -/
theorem upd_seat (v : View) (i j : Nat) (s : Seat) : (v.upd i s).seat j = if j = i then s else v.seat j := rfl

theorem router_used {n : Net} {v : View} (h : DevInv n v) (i : Nat) : n.routers.has i = (v.seat i).used := by
  have hi := h.router i
  unfold Dict.has
  cases hr : n.routers.get i with
  | none => rw [hr] at hi; have hi : v.seat i = {} := hi; rw [hi]; rfl
  | some r => rw [hr] at hi; have hi : RouterIs i r (v.seat i) := hi; rw [hi.used]; rfl

theorem up_router {n : Net} {v : View} (h : DevInv n v) {i : Nat} (hu : (v.seat i).up = true) : ∃ r, n.routers.get i = some r := by
  have hi := h.router i
  cases hr : n.routers.get i with
  | none => rw [hr] at hi; have hi : v.seat i = {} := hi; rw [hi] at hu; cases hu
  | some r => exact ⟨r, rfl⟩

theorem DevInv.upd {n n' : Net} {v : View} (h : DevInv n v) (i : Nat) (s : Seat) (r : Router)
    (hg : Good n'.lans) (hk : n'.lans.keys = n.lans.keys)
    (ht : ∀ q l, tab n'.lans q l = if l = dev i then (if s.place = some q then s.addr else none) else tab n.lans q l)
    (hr : ∀ j, n'.routers.get j = if i = j then some r else n.routers.get j) (hi : RouterIs i r s)
    (nc : n'.conns.Nodup) (hc : ∀ j, j ∈ n'.conns ↔ if j = i then s.up = true else j ∈ n.conns)
    (nu : n'.up.Nodup) (hu : ∀ l, l ∈ n'.up ↔ if l = dev i then s.up = true else l ∈ n.up)
    (hp : ∀ p, s.place = some p → p ∈ v.lans ∧ s.up = true) (ha : ∀ a, s.addr = some a → BlockText a)
    (h1 : n'.routes = n.routes) (h2 : n'.direct = n.direct) (h3 : n'.peers = n.peers) (h4 : n'.ends = n.ends) (h5 : n'.out = n.out) :
    DevInv n' (v.upd i s) ∧ Rest n n' := by
  refine ⟨⟨⟨hg, hk.trans h.keys, ?_, ?_, ?_⟩, nc, ?_, nu, ?_, ?_⟩, h1, h2, h3, h4, h5, hk, ?_, ?_⟩
  · intro q j
    rw [upd_seat, ht]
    by_cases hj : j = i
    · subst hj; rw [if_pos rfl, if_pos rfl]
    · rw [if_neg (fun he => hj (dev_inj he)), if_neg hj, h.tabs]
  · intro j
    rw [upd_seat, hr]
    by_cases hj : j = i
    · subst hj; rw [if_pos rfl, if_pos rfl]; exact hi
    · rw [if_neg (Ne.symm hj), if_neg hj]; exact h.router j
  · intro j a hja
    rw [upd_seat] at hja
    by_cases hj : j = i
    · rw [if_pos hj] at hja; exact ha a hja
    · rw [if_neg hj] at hja; exact h.addr j a hja
  · intro j
    rw [upd_seat, hc, h.conns]
    by_cases hj : j = i <;> simp [hj]
  · intro j
    rw [upd_seat, hu]
    by_cases hj : j = i
    · subst hj; rw [if_pos rfl, if_pos rfl]
    · rw [if_neg (fun he => hj (dev_inj he)), if_neg hj, h.up]
  · intro j q hq
    rw [upd_seat] at hq ⊢
    by_cases hj : j = i
    · rw [if_pos hj] at hq ⊢; exact hp q hq
    · rw [if_neg hj] at hq ⊢; exact h.place j q hq
  · intro j; rw [hu, if_neg (lnk_ne_dev j i)]
  · intro q j; rw [ht, if_neg (lnk_ne_dev j i)]

theorem dev_accept {n : Net} {v : View} (h : DevInv n v) (i : Nat) :
    DevInv (n.accept i) (v.step (.accept i)) ∧ Rest n (n.accept i) := by
  unfold Net.accept View.step
  rw [router_used h]
  dsimp only
  split
  · exact ⟨h, .refl n⟩
  · next hu =>
    have hs : v.seat i = {} := by
      have hi := h.router i
      have := router_used h i
      cases hr : n.routers.get i with
      | none => rw [hr] at hi; exact hi
      | some r => unfold Dict.has at this; rw [hr] at this; exact absurd this.symm hu
    have hup : (v.seat i).up ≠ true := by rw [hs]; simp
    refine h.upd i _ ⟨none, none, .new⟩ h.good rfl ?_ (fun j => Dict.get_set ..) ?_ ?_ ?_ ?_ ?_ (by simp) (by simp) rfl rfl rfl rfl rfl
    · intro q l
      show tab n.lans q l = _
      by_cases hl : l = dev i
      · rw [if_pos hl, hl, h.tabs, hs]
      · rw [if_neg hl]
    · exact ⟨rfl, inv_new, fun k => by simp [Switch.new], rfl, by simp⟩
    · show (n.conns ++ [i]).Nodup
      rw [List.nodup_append]
      refine ⟨h.nodupC, by simp, ?_⟩
      rintro a ha b hb rfl
      rw [List.mem_singleton] at hb
      subst hb
      exact hup ((h.conns a).mp ha)
    · intro j
      show j ∈ n.conns ++ [i] ↔ _
      rw [List.mem_append, List.mem_singleton]
      by_cases hj : j = i <;> simp [hj]
    · show (n.up ++ [dev i]).Nodup
      rw [List.nodup_append]
      refine ⟨h.nodupU, by simp, ?_⟩
      rintro a ha b hb rfl
      rw [List.mem_singleton] at hb
      subst hb
      exact hup ((h.up i).mp ha)
    · intro l
      show l ∈ n.up ++ [dev i] ↔ _
      rw [List.mem_append, List.mem_singleton]
      by_cases hj : l = dev i <;> simp [hj]

theorem dev_locate {n : Net} {v : View} (h : DevInv n v) (i : Nat) (p : Int) :
    DevInv (n.setLocation i p) (v.step (.locate i p)) ∧ Rest n (n.setLocation i p) := by
  unfold Net.setLocation View.step
  by_cases hu : (v.seat i).up = true
  · rw [if_pos ((h.conns i).mpr hu)]
    dsimp only
    rw [if_pos hu]
    obtain ⟨r, hr⟩ := up_router h hu
    have hi := h.router i
    rw [hr] at hi
    have hi : RouterIs i r (v.seat i) := hi
    have hhas : (if n.lans.has p then some p else none) = (if p ∈ v.lans then some p else none) := by
      by_cases hp : p ∈ v.lans
      · rw [if_pos hp, if_pos (Dict.has_iff.mpr (by rw [h.keys]; exact hp))]
      · rw [if_neg hp, if_neg]
        intro hx; exact hp (by rw [← h.keys]; exact Dict.has_iff.mp hx)
    rw [hhas]
    have hlan : ∀ q, (if p ∈ v.lans then some p else none) = some q → p = q ∧ q ∈ v.lans := by
      intro q hq
      split at hq
      · cases hq; exact ⟨rfl, by assumption⟩
      · cases hq
    obtain ⟨L, h1, h2, h3, h4⟩ := setPrefix_spec h.toCore hr (some p) (if p ∈ v.lans then some p else none) (fun q hq => (hlan q hq).2)
    rw [h1]
    refine h.upd i _ { r with loc := some p, lan := _ } h3 h2 h4 (fun j => Dict.get_set ..) ?_ h.nodupC ?_ h.nodupU ?_ ?_ ?_ rfl rfl rfl rfl rfl
    · exact ⟨hi.used, hi.inv, hi.own, rfl, fun q hq => by rw [(hlan q hq).1]⟩
    · intro j
      by_cases hj : j = i
      · rw [if_pos hj, hj]; exact h.conns i
      · rw [if_neg hj]
    · intro l
      by_cases hl : l = dev i
      · rw [if_pos hl, hl]; exact h.up i
      · rw [if_neg hl]
    · exact fun q hq => ⟨(hlan q hq).2, hu⟩
    · exact fun a ha => h.addr i a ha
  · rw [if_neg (fun hx => hu ((h.conns i).mp hx))]
    dsimp only
    rw [if_neg hu]
    exact ⟨h, .refl n⟩

theorem dev_lost {n : Net} {v : View} (h : DevInv n v) (i : Nat) :
    DevInv (n.lost i) (v.step (.lost i)) ∧ Rest n (n.lost i) := by
  unfold Net.lost View.step
  by_cases hu : (v.seat i).up = true
  · rw [if_pos ((h.up i).mpr hu)]
    dsimp only
    rw [if_pos hu]
    obtain ⟨r, hr⟩ := up_router h hu
    obtain ⟨L, R, s, h1, h2, h3, h4, h5, h6, h7⟩ := routerUnregister_spec (n := { n with up := n.up.erase (dev i) })
      ⟨h.good, h.keys, h.tabs, h.router, h.addr⟩ hr true
    rw [h1]
    refine h.upd i _ ⟨none, none, s⟩ h3 h2 ?_ h5 ?_ (h.nodupC.erase i) ?_ (h.nodupU.erase _) ?_ (by simp) (by simp) rfl rfl rfl rfl rfl
    · intro q l
      show tab L q l = _
      rw [h4]; simp
    · exact ⟨rfl, h6, fun k => by rw [h7]; simp, rfl, by simp⟩
    · intro j
      show j ∈ n.conns.erase i ↔ _
      rw [h.nodupC.mem_erase_iff]
      by_cases hj : j = i <;> simp [hj]
    · intro l
      show l ∈ n.up.erase _ ↔ _
      rw [h.nodupU.mem_erase_iff]
      by_cases hj : l = dev i <;> simp [hj]
  · rw [if_neg (fun hx => hu ((h.up i).mp hx))]
    dsimp only
    rw [if_neg hu]
    exact ⟨h, .refl n⟩

theorem dev_announce {n : Net} {v : View} (h : DevInv n v) (i : Nat) (a : Str) :
    DevInv (n.announce i a) (v.step (.announce i a)) ∧ Rest n (n.announce i a) := by
  unfold Net.announce View.step
  dsimp only
  by_cases hu : (v.seat i).up = true
  · rw [if_pos ((h.up i).mpr hu)]
    unfold Net.routerRegister
    by_cases ha : Addr.isValidBlockString a = true
    · rw [if_pos ha, if_pos ⟨hu, ha⟩]
      obtain ⟨r, hr⟩ := up_router h hu
      obtain ⟨L, R, s, h1, h2, h3, h4, h5, h6, h7⟩ := routerUnregister_spec h.toCore hr false
      rw [h1]
      obtain ⟨g1, g2⟩ := addLink_spec h6 a (dev i) (h7 _)
      rw [ownDo_eq (n := { n with lans := L, routers := R, conns := if false = true then n.conns.erase i else n.conns })
        (r := ⟨none, none, s⟩) (s := s.addLink a (dev i)) (by show R.get i = _; rw [h5, if_pos rfl]) rfl]
      refine h.upd i _ ⟨none, none, s.addLink a (dev i)⟩ h3 h2 ?_ ?_ ?_ h.nodupC ?_ h.nodupU ?_ (by simp) ?_ rfl rfl rfl rfl rfl
      · intro q l
        show tab L q l = _
        rw [h4]; simp
      · intro j
        show Dict.get (R.set _ _) j = _
        rw [Dict.get_set, h5]
        split <;> rfl
      · have hi := h.router i
        rw [hr] at hi
        have hi : RouterIs i r (v.seat i) := hi
        exact ⟨hi.used, g1, fun k => by rw [g2, h7], rfl, by simp⟩
      · intro j
        by_cases hj : j = i
        · rw [if_pos hj, hj]; exact h.conns i
        · rw [if_neg hj]; exact Iff.rfl
      · intro l
        by_cases hl : l = dev i
        · rw [if_pos hl, hl]; exact h.up i
        · rw [if_neg hl]
      · intro x hx
        cases hx
        exact (isValidBlockString_iff a).mp ha
    · rw [if_neg ha, if_neg (fun hx => ha hx.2)]
      exact ⟨h, .refl n⟩
  · rw [if_neg (fun hx => hu ((h.up i).mp hx)), if_neg (fun hx => hu hx.1)]
    exact ⟨h, .refl n⟩

end Verif.WanNet
