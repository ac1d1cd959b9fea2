import Verif.Spec.WanApi
import Verif.Lemmas.WanRun
/-! # Management of a WAN: who is connected -/
namespace Verif.WanNet
open Net

theorem foldl_keep {α β γ : Type} (f : α → β → α) (g : α → γ) (hf : ∀ a b, g (f a b) = g a) : ∀ (l : List β) (a : α), g (l.foldl f a) = g a
  | [], _ => rfl
  | b :: l, a => (foldl_keep f g hf l (f a b)).trans (hf a b)

theorem lanDo_conns (n : Net) (p : Int) (f) : (n.lanDo p f).conns = n.conns := by
  unfold lanDo; split
  · rfl
  · split <;> rfl

theorem leave_conns (n : Net) (r : Router) : (n.leave r).conns = n.conns := by
  unfold leave; split
  · rfl
  · exact foldl_keep _ _ (fun _ _ => lanDo_conns ..) _ _

theorem enter_conns (n : Net) (r : Router) : (n.enter r).conns = n.conns := by
  unfold enter; split
  · rfl
  · exact foldl_keep _ _ (fun _ _ => lanDo_conns ..) _ _

theorem setPrefix_conns (n : Net) (i : Nat) (a b : Option Int) : (n.setPrefix i a b).conns = n.conns := by
  unfold setPrefix; split
  · rfl
  · rw [enter_conns]; exact leave_conns ..

theorem ownDo_conns (n : Net) (i : Nat) (f) : (n.ownDo i f).conns = n.conns := by
  unfold ownDo; split
  · rfl
  · split <;> rfl

theorem announce_conns (n : Net) (i : Nat) (a : Str) : (n.announce i a).conns = n.conns := by
  unfold announce routerRegister; split
  · split
    · rw [ownDo_conns]; unfold routerUnregister; rw [ownDo_conns, if_neg (by simp)]; exact setPrefix_conns ..
    · rfl
  · rfl

theorem lost_conns (n : Net) (i : Nat) : (n.lost i).conns = if dev i ∈ n.up then n.conns.erase i else n.conns := by
  unfold lost; split
  · unfold routerUnregister; rw [ownDo_conns, if_pos rfl]; dsimp only; rw [setPrefix_conns]
  · rfl

theorem receive_conns {wr : Net → Nat → SPkt → Option Net} (hw : ∀ n l p n', wr n l p = some n' → n'.conns = n.conns) (n : Net) (k : Nat) (p : SPkt) :
    (receive wr n k p).conns = n.conns := by
  unfold receive
  cases n.peers k with
  | none => rfl
  | some e =>
    obtain ⟨pfx, o⟩ := e
    cases p with
    | announce a => exact lanDo_conns ..
    | wire d x =>
      dsimp only
      cases (n.lan pfx).getOutboundLinks d with
      | error _ => rfl
      | ok ls =>
        dsimp only
        clear pfx o k
        induction ls generalizing n with
        | nil => rfl
        | cons l ls ih =>
          unfold writeEach
          cases hh : wr n l (.wire d x) with
          | none => rfl
          | some n' => exact (ih n').trans (hw _ _ _ _ hh)
    | other => rfl

theorem write_conns (c : Cfg) : ∀ (f : Nat) (n : Net) (l : Nat) (p : SPkt) (n' : Net), write c f n l p = some n' → n'.conns = n.conns := by
  intro f
  induction f with
  | zero =>
    intro n l p n' h
    unfold write at h
    split at h
    · split at h
      · cases h; rfl
      · split at h
        · cases h; rfl
        · cases h; rfl
    · cases h
  | succ f ih =>
    intro n l p n' h
    unfold write at h
    split at h
    · split at h
      · cases h; rfl
      · split at h
        · cases h; rfl
        · cases h; exact receive_conns ih _ _ _
    · cases h

theorem endLost_conns (n : Net) (k : Nat) : (n.endLost k).conns = n.conns := by
  unfold endLost; dsimp only; split
  · rfl
  · exact lanDo_conns ..

theorem close_conns (n : Net) (k : Nat) : (n.close k).conns = n.conns := by
  unfold close; split
  · split
    · rfl
    · exact endLost_conns ..
  · rfl

theorem destroyHalf_conns (n : Net) (p q : Int) : (n.destroyHalf p q).conns = n.conns := by
  unfold destroyHalf; split
  · rfl
  · exact close_conns ..

theorem destroy_conns (n : Net) (p q : Int) : (n.destroy p q).conns = n.conns := by
  unfold destroy; rw [destroyHalf_conns, destroyHalf_conns]

theorem write_getD_conns (c : Cfg) (f : Nat) (n : Net) (l : Nat) (p : SPkt) : ((write c f n l p).getD n).conns = n.conns := by
  cases h : write c f n l p with
  | none => rfl
  | some n' => exact write_conns c f n l p n' h

theorem create_conns (c : Cfg) (n : Net) (p q : Int) : (n.create c p q).conns = n.conns := by
  unfold create
  dsimp only
  rw [write_getD_conns, write_getD_conns]

theorem register_conns (n : Net) (p : Int) : (n.register p).conns = n.conns := by
  unfold register; split <;> rfl

theorem connect_conns (c : Cfg) (n : Net) (r : Int) (ds : List Int) : (n.connect c r ds).conns = n.conns := by
  unfold connect
  split
  · dsimp only
    have h1 : (n.routes.keys.foldl (fun n p => n.destroy r p) n).conns = n.conns := foldl_keep _ _ (fun _ _ => destroy_conns ..) _ _
    split
    · exact h1
    · refine (foldl_keep (fun (m : Net) d => if m.lans.has d then m.create c r d else m) (fun m : Net => m.conns) (fun _ _ => ?_) _ _).trans h1
      split
      · exact create_conns ..
      · rfl
  · rfl

theorem send_conns (c : Cfg) (n : Net) (i : Nat) (d : Str) (x : Nat) : (n.send c i d x).conns = n.conns := by
  obtain ⟨o, k, h⟩ := send_quiet c n i d x
  rw [h]

theorem setLocation_conns (n : Net) (i : Nat) (p : Int) : (n.setLocation i p).conns = n.conns := by
  unfold setLocation; split
  · exact setPrefix_conns ..
  · rfl

end Verif.WanNet

namespace Verif.WanApi
open Verif.WanNet (view)

theorem router_used {c : WanNet.Cfg} {h : List WanNet.Ev} (r : WanNet.Run c h) (i : Nat) :
    (WanNet.exec c .new h).routers.has i = ((view h).seat i).used := by
  have := r.inv.d.router i
  unfold WanNet.RouterOK at this
  cases hg : (WanNet.exec c .new h).routers.get i with
  | none =>
    rw [hg] at this; rw [this]
    cases hh : (WanNet.exec c .new h).routers.has i with
    | false => rfl
    | true =>
      obtain ⟨v, hv⟩ := Dict.mem_keys_iff.mp (Dict.has_iff.mp hh)
      rw [hg] at hv; cases hv
  | some ro =>
    rw [hg] at this
    rw [this.used]
    exact Dict.has_iff.mpr (Dict.mem_keys_iff.mpr ⟨_, hg⟩)

theorem connState (c : WanNet.Cfg) (h : List WanNet.Ev) :
    (∀ i, i ∈ (h.foldl connStep ([], [])).1 ↔ ((view h).seat i).used = true) ∧ (WanNet.exec c .new h).conns = connected h := by
  unfold connected
  suffices ∀ k, ∀ h : List WanNet.Ev, h.length = k → (∀ i, i ∈ (h.foldl connStep ([], [])).1 ↔ ((view h).seat i).used = true) ∧
      (WanNet.exec c .new h).conns = (h.foldl connStep ([], [])).2 from this _ h rfl
  intro k
  induction k with
  | zero =>
    intro h hk
    cases List.length_eq_zero_iff.mp hk
    exact ⟨fun i => by simp [view, WanNet.View.after], rfl⟩
  | succ k ih =>
    intro h hk
    have hne : h ≠ [] := by intro he; rw [he] at hk; simp at hk
    obtain ⟨h, e, rfl⟩ : ∃ h' e, h = h' ++ [e] := ⟨h.dropLast, h.getLast hne, (List.dropLast_concat_getLast hne).symm⟩
    obtain ⟨i1, i2⟩ := ih h (by simpa using hk)
    have r := WanNet.run c h
    have e1 : WanNet.exec c .new (h ++ [e]) = WanNet.step c (WanNet.exec c .new h) e := WanNet.exec_append ..
    have e2 : view (h ++ [e]) = (view h).step e := WanNet.after_append ..
    rw [e1, e2, List.foldl_append, List.foldl_cons, List.foldl_nil]
    generalize hs : h.foldl connStep ([], []) = s at i1 i2 ⊢
    obtain ⟨used, now⟩ := s
    dsimp only at i1 i2
    cases e with
    | accept i =>
      unfold connStep WanNet.step WanNet.View.step WanNet.Net.accept
      dsimp only
      rw [router_used r]
      by_cases hu : ((view h).seat i).used = true
      · rw [if_pos ((i1 i).mpr hu), if_pos hu, if_pos hu]; exact ⟨i1, i2⟩
      · rw [if_neg (fun hh => hu ((i1 i).mp hh)), if_neg hu, if_neg hu]
        refine ⟨fun j => ?_, by dsimp only; rw [i2]⟩
        unfold WanNet.View.upd
        dsimp only
        by_cases hj : j = i
        · simp [hj]
        · rw [if_neg hj]; simp [hj, i1]
    | lost i =>
      unfold connStep WanNet.step WanNet.View.step
      dsimp only
      rw [WanNet.lost_conns, i2]
      have hnd := r.inv.d.nodupC
      rw [i2] at hnd
      have hc := r.inv.d.conns
      rw [i2] at hc
      by_cases hu : ((view h).seat i).up = true
      · rw [if_pos hu, if_pos ((r.inv.d.up i).mpr hu), hnd.erase_eq_filter]
        refine ⟨fun j => ?_, List.filter_congr fun x _ => by by_cases hx : x = i <;> simp [hx]⟩
        unfold WanNet.View.upd
        dsimp only
        by_cases hj : j = i
        · subst hj
          rw [if_pos rfl, i1]
          have := router_used r j
          have hro := r.inv.d.router j
          unfold WanNet.RouterOK at hro
          cases hg : (WanNet.exec c .new h).routers.get j with
          | none => rw [hg] at hro; rw [hro] at hu; simp at hu
          | some ro => rw [hg] at hro; simp [hro.used]
        · rw [if_neg hj]; exact i1 j
      · rw [if_neg hu, if_neg (fun hh => hu ((r.inv.d.up i).mp hh))]
        refine ⟨i1, (List.filter_eq_self.mpr fun x hx => ?_).symm⟩
        have : x ≠ i := by rintro rfl; exact hu ((hc x).mp hx)
        simp [this]
    | register p =>
      refine ⟨fun i => ?_, (WanNet.register_conns ..).trans i2⟩
      unfold WanNet.View.step connStep; dsimp only; split <;> exact i1 i
    | connect p ds => exact ⟨i1, (WanNet.connect_conns ..).trans i2⟩
    | locate i p =>
      refine ⟨fun j => ?_, (WanNet.setLocation_conns ..).trans i2⟩
      unfold WanNet.View.step connStep WanNet.View.upd; dsimp only; split
      · dsimp only; split
        · next hj => subst hj; exact i1 j
        · exact i1 j
      · exact i1 j
    | announce i a =>
      refine ⟨fun j => ?_, (WanNet.announce_conns ..).trans i2⟩
      unfold WanNet.View.step connStep WanNet.View.upd; dsimp only; split
      · dsimp only; split
        · next hj => subst hj; exact i1 j
        · exact i1 j
      · exact i1 j
    | send i d x => exact ⟨i1, (WanNet.send_conns ..).trans i2⟩

theorem conns_eq (c : WanNet.Cfg) (h : List WanNet.Ev) : (WanNet.exec c .new h).conns = connected h := (connState c h).2

end Verif.WanApi
