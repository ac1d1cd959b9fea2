import Verif.Lemmas.WanNet
import Verif.Props.Wan
/-! # WAN with devices: the direct links -/
namespace Verif.WanNet
open Verif.Switch

theorem intStr_inj {p q : Int} (h : intStr p = intStr q) : p = q := by
  have h1 := pyInt_intStr p
  rw [h, pyInt_intStr] at h1
  exact (Option.some.inj h1).symm

theorem hub_inj {p q : Int} (h : hub p = hub q) : p = q := by
  unfold hub at h
  exact intStr_inj (List.append_cancel_right h)

structure LinkInv (n : Net) : Prop where
  tabs : ∀ p j a, tab n.lans p (lnk j) = some a →
    lnk j ∈ n.up ∧ ∃ q k, a = hub q ∧ n.peers (lnk j) = some (p, k) ∧ n.peers k = some (q, lnk j)
  dev : ∀ i, n.peers (dev i) = none
  fresh : ∀ j, n.ends ≤ j → n.peers (lnk j) = none ∧ lnk j ∉ n.up
  pair : ∀ k p k', n.peers k = some (p, k') → p ∈ n.lans.keys ∧ ∃ q, n.peers k' = some (q, k)
  direct : ∀ p q k, (n.row p).get q = some k → ∃ k', n.peers k = some (p, k') ∧ n.peers k' = some (q, k)
  wf : ∀ p, Dict.WF (n.row p)

structure Inv (n : Net) (v : View) : Prop where
  d : DevInv n v
  l : LinkInv n

/-- At `p` there is a link registered under the address of `q`. -/
def Served (n : Net) (p q : Int) : Prop := ∃ j, tab n.lans p (lnk j) = some (hub q)

theorem LinkInv.rest {n n' : Net} (h : LinkInv n) (r : Rest n n') : LinkInv n' := by
  have hrow : ∀ p, n'.row p = n.row p := fun p => by unfold Net.row; rw [r.direct]
  refine ⟨fun p j a ht => ?_, fun i => by rw [r.peers]; exact h.dev i, fun j hj => ?_, fun k p k' hk => ?_, fun p q k hk => ?_, fun p => ?_⟩
  · rw [r.tabs] at ht
    rw [r.peers, r.up]
    exact h.tabs p j a ht
  · rw [r.ends] at hj; rw [r.peers, r.up]; exact h.fresh j hj
  · rw [r.peers] at hk ⊢; rw [r.keys]; exact h.pair k p k' hk
  · rw [hrow] at hk; rw [r.peers]; exact h.direct p q k hk
  · rw [hrow]; exact h.wf p

theorem Served.rest {n n' : Net} {p q : Int} (h : Served n p q) (r : Rest n n') : Served n' p q := by
  obtain ⟨j, hj⟩ := h
  exact ⟨j, by rw [r.tabs]; exact hj⟩

theorem DevInv.frame {n n' : Net} {v : View} (h : DevInv n v) (hg : Good n'.lans) (hk : n'.lans.keys = n.lans.keys)
    (ht : ∀ p i, tab n'.lans p (dev i) = tab n.lans p (dev i)) (hr : n'.routers = n.routers) (hc : n'.conns = n.conns)
    (nu : n'.up.Nodup) (hu : ∀ i, dev i ∈ n'.up ↔ dev i ∈ n.up) : DevInv n' v :=
  ⟨⟨hg, hk.trans h.keys, fun p i => (ht p i).trans (h.tabs p i), fun i => by rw [hr]; exact h.router i, h.addr⟩,
   by rw [hc]; exact h.nodupC, fun i => by rw [hc]; exact h.conns i, nu, fun i => (hu i).trans (h.up i), h.place⟩

/-! ## Closing -/

theorem peers_lnk {n : Net} (h : LinkInv n) {k : Nat} {x : Int × Nat} (hk : n.peers k = some x) : ∃ j, k = lnk j := by
  rcases dev_or_lnk k with ⟨i, rfl⟩ | hj
  · rw [h.dev] at hk; cases hk
  · exact hj

theorem endLost_spec {n : Net} {v : View} (h : Inv n v) {k : Nat} {p : Int} {k' : Nat} (hk : n.peers k = some (p, k')) :
    ∃ L, n.endLost k = { n with up := n.up.erase k, lans := L } ∧ Inv { n with up := n.up.erase k, lans := L } v ∧
      ∀ q l, tab L q l = if q = p ∧ l = k then none else tab n.lans q l := by
  obtain ⟨L, h1, h2, h3, h4⟩ := lanDo_unregister (n := { n with up := n.up.erase k }) h.d.good p k
  obtain ⟨j, rfl⟩ := peers_lnk h.l hk
  refine ⟨L, ?_, ⟨?_, ?_, h.l.dev, ?_, ?_, h.l.direct, h.l.wf⟩, h4⟩
  · unfold Net.endLost
    dsimp only
    rw [hk]
    exact h1
  · refine h.d.frame h3 h2 (fun q i => ?_) rfl rfl (h.d.nodupU.erase _) (fun i => ?_)
    · show tab L q (dev i) = _
      rw [h4, if_neg (fun hx => dev_ne_lnk i j hx.2)]
    · exact List.mem_erase_of_ne (dev_ne_lnk i j)
  · intro q j' a ha
    have ha : tab L q (lnk j') = some a := ha
    rw [h4] at ha
    split at ha
    · cases ha
    · next hn =>
      have ha : tab n.lans q (lnk j') = some a := ha
      obtain ⟨t1, t2⟩ := h.l.tabs q j' a ha
      refine ⟨?_, t2⟩
      have hne : lnk j' ≠ lnk j := by
        intro he
        obtain ⟨q', k2, _, t3, _⟩ := t2
        rw [he, hk] at t3
        cases t3
        exact hn ⟨rfl, he⟩
      exact (List.mem_erase_of_ne hne).mpr t1
  · intro i hi
    exact ⟨(h.l.fresh i hi).1, fun hx => (h.l.fresh i hi).2 (List.mem_of_mem_erase hx)⟩
  · intro k p k' hk
    obtain ⟨t1, t2⟩ := h.l.pair k p k' hk
    exact ⟨by show p ∈ L.keys; rw [h2]; exact t1, t2⟩

theorem close_spec {n : Net} {v : View} (h : Inv n v) {k k' : Nat} {p q : Int} (hk : n.peers k = some (p, k')) (hk' : n.peers k' = some (q, k)) :
    Inv (n.close k) v ∧ (n.close k).direct = n.direct ∧ (n.close k).routes = n.routes ∧ (n.close k).peers = n.peers ∧
      ∀ a b, ¬ (a = q ∧ b = p) → Served n a b → Served (n.close k) a b := by
  unfold Net.close
  split
  · rw [hk]
    dsimp only
    obtain ⟨L, h1, h2, h3⟩ := endLost_spec h hk'
    rw [h1]
    refine ⟨h2, rfl, rfl, rfl, fun a b hab hs => ?_⟩
    obtain ⟨j, hj⟩ := hs
    refine ⟨j, ?_⟩
    show tab L a (lnk j) = _
    rw [h3, if_neg]
    · exact hj
    · rintro ⟨rfl, he⟩
      obtain ⟨_, b', k2, t1, t2, t3⟩ := h.l.tabs _ _ _ hj
      rw [he, hk'] at t2
      cases t2
      rw [hk] at t3
      cases t3
      exact hab ⟨rfl, hub_inj t1⟩
  · exact ⟨h, rfl, rfl, rfl, fun _ _ _ hs => hs⟩

theorem row_set (n : Net) (p : Int) (w : Dict Int Nat) (q : Int) :
    ({ n with direct := n.direct.set p w } : Net).row q = if p = q then w else n.row q := by
  unfold Net.row
  dsimp only
  rw [Dict.get_set]
  split <;> rfl

/-- Only `_directLinks` changes, to entries that are still right. -/
theorem Inv.direct {n : Net} {v : View} (h : Inv n v) (p : Int) (w : Dict Int Nat) (hw : Dict.WF w)
    (hd : ∀ q k, w.get q = some k → ∃ k', n.peers k = some (p, k') ∧ n.peers k' = some (q, k)) :
    Inv { n with direct := n.direct.set p w } v := by
  refine ⟨⟨⟨h.d.good, h.d.keys, h.d.tabs, h.d.router, h.d.addr⟩, h.d.nodupC, h.d.conns, h.d.nodupU, h.d.up, h.d.place⟩,
    h.l.tabs, h.l.dev, h.l.fresh, h.l.pair, ?_, ?_⟩
  · intro a q k hk
    rw [row_set] at hk
    split at hk
    · next he => subst he; exact hd q k hk
    · exact h.l.direct a q k hk
  · intro a
    rw [row_set]
    split
    · exact hw
    · exact h.l.wf a

theorem destroyHalf_spec {n : Net} {v : View} (h : Inv n v) (p q : Int) :
    Inv (n.destroyHalf p q) v ∧ (n.destroyHalf p q).routes = n.routes ∧
      ∀ a b, ¬ (a = q ∧ b = p) → Served n a b → Served (n.destroyHalf p q) a b := by
  unfold Net.destroyHalf
  cases hr : (n.row p).get q with
  | none => exact ⟨h, rfl, fun _ _ _ hs => hs⟩
  | some k =>
    obtain ⟨k', d1, d2⟩ := h.l.direct p q k hr
    obtain ⟨c1, c2, c3, c4, c5⟩ := close_spec h d1 d2
    refine ⟨c1.direct p _ ((c1.l.wf p).del q) (fun q' k2 hq => ?_), c3, c5⟩
    rw [Dict.get_del (c1.l.wf p)] at hq
    split at hq
    · cases hq
    · exact c1.l.direct p q' k2 hq

theorem destroy_spec {n : Net} {v : View} (h : Inv n v) (r x : Int) :
    Inv (n.destroy r x) v ∧ (n.destroy r x).routes = n.routes ∧ ∀ a b, a ≠ r → b ≠ r → Served n a b → Served (n.destroy r x) a b := by
  obtain ⟨h1, h2, h3⟩ := destroyHalf_spec h r x
  obtain ⟨g1, g2, g3⟩ := destroyHalf_spec h1 x r
  exact ⟨g1, g2.trans h2, fun a b ha hb hs => g3 a b (fun e => ha e.1) (h3 a b (fun e => hb e.2) hs)⟩

theorem destroyAll_spec (r : Int) : ∀ (ks : List Int) {n : Net} {v : View}, Inv n v →
    Inv (ks.foldl (fun n p => n.destroy r p) n) v ∧ (ks.foldl (fun n p => n.destroy r p) n).routes = n.routes ∧
      ∀ a b, a ≠ r → b ≠ r → Served n a b → Served (ks.foldl (fun n p => n.destroy r p) n) a b := by
  intro ks
  induction ks with
  | nil => intro n v h; exact ⟨h, rfl, fun _ _ _ _ hs => hs⟩
  | cons k ks ih =>
    intro n v h
    obtain ⟨h1, h2, h3⟩ := destroy_spec h r k
    obtain ⟨g1, g2, g3⟩ := ih h1
    exact ⟨g1, g2.trans h2, fun a b ha hb hs => g3 a b ha hb (h3 a b ha hb hs)⟩

/-! ## Creating -/

/-- Nothing is lost, and calls may be nested. -/
def Reliable (c : Cfg) : Prop := (∀ k, c.loss k = false) ∧ 1 ≤ c.depth

theorem announce_spec (c : Cfg) {n : Net} {v : View} (h : Inv n v) {k k' : Nat} {p q : Int} (hk : n.peers k = some (p, k'))
    (hk' : n.peers k' = some (q, k)) (hu : k ∈ n.up) (hu' : k' ∈ n.up) :
    ∃ L d, Net.write c c.depth n k (.announce (hub p)) = some { n with lans := L, draws := d } ∧ Inv { n with lans := L, draws := d } v ∧
      (∀ a b, Served n a b → Served { n with lans := L, draws := d } a b) ∧
      (Reliable c → Served { n with lans := L, draws := d } q p) := by
  unfold Net.write
  rw [if_pos hu, hk]
  dsimp only
  have trivial_case : Inv { n with draws := n.draws + 1 } v :=
    ⟨⟨⟨h.d.good, h.d.keys, h.d.tabs, h.d.router, h.d.addr⟩, h.d.nodupC, h.d.conns, h.d.nodupU, h.d.up, h.d.place⟩,
      h.l.tabs, h.l.dev, h.l.fresh, h.l.pair, h.l.direct, h.l.wf⟩
  split
  · next hl =>
    exact ⟨n.lans, n.draws + 1, rfl, trivial_case, fun _ _ hs => hs, fun hc => by rw [hc.1] at hl; cases hl⟩
  · cases hd : c.depth with
    | zero => exact ⟨n.lans, n.draws + 1, rfl, trivial_case, fun _ _ hs => hs, fun hc => by have := hc.2; omega⟩
    | succ f =>
      dsimp only
      unfold Net.receive
      dsimp only
      rw [hk']
      dsimp only
      obtain ⟨L, h1, h2, h3, h4⟩ := lanDo_register (n := { n with draws := n.draws + 1 }) h.d.good (h.l.pair k' q k hk').1 (hub_text p) k'
      obtain ⟨j, rfl⟩ := peers_lnk h.l hk'
      refine ⟨L, n.draws + 1, by rw [h1], ⟨?_, ?_, h.l.dev, h.l.fresh, ?_, h.l.direct, h.l.wf⟩, ?_, ?_⟩
      · refine h.d.frame h3 h2 (fun q i => ?_) rfl rfl h.d.nodupU (fun i => Iff.rfl)
        show tab L q (dev i) = _
        rw [h4, if_neg (fun hx => dev_ne_lnk i j hx.2)]
      · intro a j' x hx
        have hx : tab L a (lnk j') = some x := hx
        rw [h4] at hx
        split at hx
        · next he =>
          cases hx
          rw [he.1, he.2]
          exact ⟨hu', p, k, rfl, hk', hk⟩
        · exact h.l.tabs a j' x hx
      · intro k p k' hk
        obtain ⟨t1, t2⟩ := h.l.pair k p k' hk
        exact ⟨by show p ∈ L.keys; rw [h2]; exact t1, t2⟩
      · rintro a b ⟨j', hj'⟩
        by_cases he : a = q ∧ lnk j' = lnk j
        · obtain ⟨rfl, he⟩ := he
          obtain ⟨_, b', k2, t1, t2, t3⟩ := h.l.tabs _ _ _ hj'
          rw [he, hk'] at t2
          cases t2
          rw [hk] at t3
          have t3 := (Prod.mk.inj (Option.some.inj t3)).1
          subst t3
          refine ⟨j, ?_⟩
          show tab L a (lnk j) = _
          rw [h4, if_pos ⟨rfl, rfl⟩, t1]
        · refine ⟨j', ?_⟩
          show tab L a (lnk j') = _
          rw [h4, if_neg he]
          exact hj'
      · intro _
        refine ⟨j, ?_⟩
        show tab L q (lnk j) = _
        rw [h4, if_pos ⟨rfl, rfl⟩]

/-- The two ends are made. -/
theorem ends_spec {n : Net} {v : View} (h : Inv n v) {p q : Int} (hp : p ∈ n.lans.keys) (hq : q ∈ n.lans.keys) :
    Inv { n with
      ends := n.ends + 2
      peers := fun k => if k = lnk n.ends then some (p, lnk (n.ends + 1)) else if k = lnk (n.ends + 1) then some (q, lnk n.ends) else n.peers k
      up := n.up ++ [lnk n.ends, lnk (n.ends + 1)] } v := by
  have hne : lnk (n.ends + 1) ≠ lnk n.ends := fun he => by have := lnk_inj he; omega
  have f1 := h.l.fresh n.ends (Nat.le_refl _)
  have f2 := h.l.fresh (n.ends + 1) (Nat.le_succ _)
  have old : ∀ {k : Nat} {x : Int × Nat}, n.peers k = some x →
      (if k = lnk n.ends then some (p, lnk (n.ends + 1)) else if k = lnk (n.ends + 1) then some (q, lnk n.ends) else n.peers k) = some x := by
    intro k x hk
    rw [if_neg, if_neg, hk]
    · rintro rfl; rw [f2.1] at hk; cases hk
    · rintro rfl; rw [f1.1] at hk; cases hk
  refine ⟨h.d.frame h.d.good rfl (fun _ _ => rfl) rfl rfl ?_ (fun i => ?_), ?_, ?_, ?_, ?_, ?_, h.l.wf⟩
  · show (n.up ++ [lnk n.ends, lnk (n.ends + 1)]).Nodup
    rw [List.nodup_append]
    refine ⟨h.d.nodupU, by simp [hne.symm], ?_⟩
    rintro a ha b hb rfl
    simp only [List.mem_cons, List.not_mem_nil, or_false] at hb
    rcases hb with rfl | rfl
    · exact f1.2 ha
    · exact f2.2 ha
  · show dev i ∈ n.up ++ [lnk n.ends, lnk (n.ends + 1)] ↔ _
    simp [dev_ne_lnk]
  · intro a j x hx
    obtain ⟨t1, b, k, t2, t3, t4⟩ := h.l.tabs a j x hx
    exact ⟨List.mem_append_left _ t1, b, k, t2, old t3, old t4⟩
  · intro i
    dsimp only
    rw [if_neg (dev_ne_lnk i _), if_neg (dev_ne_lnk i _), h.l.dev]
  · intro j hj
    have hj : n.ends + 2 ≤ j := hj
    have e1 : lnk j ≠ lnk n.ends := fun he => by have := lnk_inj he; omega
    have e2 : lnk j ≠ lnk (n.ends + 1) := fun he => by have := lnk_inj he; omega
    have f := h.l.fresh j (by omega)
    refine ⟨by dsimp only; rw [if_neg e1, if_neg e2, f.1], ?_⟩
    show lnk j ∉ n.up ++ [lnk n.ends, lnk (n.ends + 1)]
    simp [e1, e2, f.2]
  · intro k a k' hk
    dsimp only at hk ⊢
    split at hk
    · next he =>
      cases hk
      exact ⟨hp, q, by rw [if_neg hne, if_pos rfl, he]⟩
    · split at hk
      · next he =>
        cases hk
        exact ⟨hq, p, by rw [if_pos rfl, he]⟩
      · obtain ⟨t1, b, t2⟩ := h.l.pair k a k' hk
        exact ⟨t1, b, old t2⟩
  · intro a b k hk
    obtain ⟨k', t1, t2⟩ := h.l.direct a b k hk
    exact ⟨k', old t1, old t2⟩

theorem create_spec (c : Cfg) {n : Net} {v : View} (h : Inv n v) {p q : Int} (hp : p ∈ v.lans) (hq : q ∈ v.lans) :
    Inv (n.create c p q) v ∧ (n.create c p q).routes = n.routes ∧ (∀ a b, Served n a b → Served (n.create c p q) a b) ∧
      (Reliable c → Served (n.create c p q) p q ∧ Served (n.create c p q) q p) := by
  have hne : lnk (n.ends + 1) ≠ lnk n.ends := fun he => by have := lnk_inj he; omega
  rw [← h.d.keys] at hp hq
  have h0 := ends_spec h hp hq
  unfold Net.create
  dsimp only
  generalize hn0 : ({ n with
      ends := n.ends + 2
      peers := fun k => if k = lnk n.ends then some (p, lnk (n.ends + 1)) else if k = lnk (n.ends + 1) then some (q, lnk n.ends) else n.peers k
      up := n.up ++ [lnk n.ends, lnk (n.ends + 1)] } : Net) = n0 at h0 ⊢
  have pa : n0.peers (lnk n.ends) = some (p, lnk (n.ends + 1)) := by rw [← hn0]; dsimp only; rw [if_pos rfl]
  have pb : n0.peers (lnk (n.ends + 1)) = some (q, lnk n.ends) := by rw [← hn0]; dsimp only; rw [if_neg hne, if_pos rfl]
  have ua : lnk n.ends ∈ n0.up := by rw [← hn0]; simp
  have ub : lnk (n.ends + 1) ∈ n0.up := by rw [← hn0]; simp
  have hr : n0.routes = n.routes := by rw [← hn0]
  have hs0 : ∀ a b, Served n a b → Served n0 a b := by rw [← hn0]; exact fun _ _ hs => hs
  obtain ⟨L1, d1, a1, a2, a3, a4⟩ := announce_spec c h0 pa pb ua ub
  rw [a1]
  dsimp only [Option.getD_some]
  obtain ⟨L2, d2, b1, b2, b3, b4⟩ := announce_spec c a2 (k := lnk (n.ends + 1)) (k' := lnk n.ends) pb pa ub ua
  rw [b1]
  dsimp only [Option.getD_some]
  have e1 := b2.direct p (Dict.set (Net.row { n0 with lans := L2, draws := d2 } p) q (lnk n.ends)) ((b2.l.wf p).set _ _) (by
    intro q' k hk
    rw [Dict.get_set] at hk
    split at hk
    · next he => cases hk; subst he; exact ⟨_, pa, pb⟩
    · exact b2.l.direct p q' k hk)
  have e2 := e1.direct q _ ((e1.l.wf q).set p (lnk (n.ends + 1))) (by
    intro q' k hk
    rw [Dict.get_set] at hk
    split at hk
    · next he => cases hk; subst he; exact ⟨_, pb, pa⟩
    · exact e1.l.direct q q' k hk)
  refine ⟨e2, hr, fun a b hs => b3 a b (a3 a b (hs0 a b hs)), fun hc => ⟨b4 hc, b3 q p (a4 hc)⟩⟩

theorem createAll_spec (c : Cfg) (r : Int) : ∀ (ks : List Int) {n : Net} {v : View}, Inv n v → r ∈ v.lans →
    Inv (ks.foldl (fun n d => if n.lans.has d then n.create c r d else n) n) v ∧
    (ks.foldl (fun n d => if n.lans.has d then n.create c r d else n) n).routes = n.routes ∧
    (∀ a b, Served n a b → Served (ks.foldl (fun n d => if n.lans.has d then n.create c r d else n) n) a b) ∧
    (Reliable c → ∀ d ∈ ks, d ∈ v.lans → Served (ks.foldl (fun n d => if n.lans.has d then n.create c r d else n) n) r d ∧
      Served (ks.foldl (fun n d => if n.lans.has d then n.create c r d else n) n) d r) := by
  intro ks
  induction ks with
  | nil => intro n v h hr; exact ⟨h, rfl, fun _ _ hs => hs, fun _ d hd => nomatch hd⟩
  | cons k ks ih =>
    intro n v h hr
    rw [List.foldl_cons]
    by_cases hk : k ∈ v.lans
    · rw [if_pos (Dict.has_iff.mpr (by rw [h.d.keys]; exact hk))]
      obtain ⟨h1, h2, h3, h4⟩ := create_spec c h hr hk
      obtain ⟨g1, g2, g3, g4⟩ := ih h1 hr
      refine ⟨g1, g2.trans h2, fun a b hs => g3 a b (h3 a b hs), fun hc d hd hl => ?_⟩
      rcases List.mem_cons.mp hd with rfl | hd
      · exact ⟨g3 _ _ (h4 hc).1, g3 _ _ (h4 hc).2⟩
      · exact g4 hc d hd hl
    · rw [if_neg (fun hx => hk (by rw [← h.d.keys]; exact Dict.has_iff.mp hx))]
      obtain ⟨g1, g2, g3, g4⟩ := ih h hr
      refine ⟨g1, g2, g3, fun hc d hd hl => ?_⟩
      rcases List.mem_cons.mp hd with rfl | hd
      · exact absurd hl hk
      · exact g4 hc d hd hl

end Verif.WanNet
