import Verif.Model.Host
import Verif.Spec.Host
import Verif.Lemmas.VnicOrigin
import Verif.Lemmas.ConnectorOrigin
/-! # Lemmas: a process and its VNIC -/
namespace Verif.Host
open Verif.Cli (Kind)
open Verif.Connect (Asked RunsFor)

theorem written_eq (l : List Vnic.Eff) (n : Nat) : written l n = Vnic.written l n := by
  induction l with
  | nil => rfl
  | cons e l ih =>
    cases e with
    | write t d =>
      simp only [written, Vnic.written, ih]
      split <;> simp
    | _ => exact ih

theorem chunk_next (b : Bytes) (n k : Nat) (hn : n ≤ b.length) :
    b.take (n + (chunk b n k).length) = b.take n ++ chunk b n k ∧ n + (chunk b n k).length ≤ b.length := by
  unfold chunk
  constructor
  · rw [List.take_add, ← List.prefix_iff_eq_take.mp (List.take_prefix k (b.drop n))]
  · simp only [List.length_take, List.length_drop]; omega

theorem heard_append (n : Nat) (a b : List Vnic.Ev) : heard n (a ++ b) = heard n a ++ heard n b := by
  induction a with
  | nil => rfl
  | cons e a ih => cases e <;> simp [heard, ih]

/-- What a history of the VNIC and one of the connector say about the state. -/
structure Inv (want : Nat → Str × Nat) (a : Str) (hv : List Vnic.Ev) (hc : List Connect.Ev) (s : St) : Prop where
  vnic : s.vnic = Vnic.exec (.init a) hv
  con : s.side.con = Connect.exec .init hc
  opn : ∀ c id r, .openSocket (proto c) id r ∈ hv → ∃ f, Asked s.side.con f c id ∧ r = reqOf want (s.side.con.call f).kind f
  sent : ∀ c id r, .opens id r ∈ s.side.sent c → ∃ f, Asked s.side.con f c id ∧ r = reqOf want (s.side.con.call f).kind f
  told : ∀ c id t p, .spawned c id t p ∈ hc → ∃ k, .announce (proto c) id t k ∈ s.vnic.out ∧ s.side.data t = some k
  peer : ∀ n m, s.side.peer n = some m → n < s.vnic.nSpawn ∧ mine s.vnic n = true ∧ m < s.side.con.cb.nProto ∧ (s.side.con.cb.proto m).port = n
  port : ∀ m, m < s.side.con.cb.nProto → s.side.peer (s.side.con.cb.proto m).port = some m
  got0 : ∀ n, s.side.peer n = none → s.side.got n = 0
  got : ∀ n m, s.side.peer n = some m → ∃ ds, Callback.Good s.side.con.cb m ds ∧ ds.flatten = (Vnic.written s.vnic.out n).take (s.side.got n) ∧
    s.side.got n ≤ (Vnic.written s.vnic.out n).length
  given : ∀ n, (n < s.vnic.nSpawn → mine s.vnic n = true) → heard n hv = (s.side.wrote n).take (s.side.given n) ∧ s.side.given n ≤ (s.side.wrote n).length
  info : ∀ m f, RunsFor s.side.con m f → ∃ c id k, .announce (proto c) id (s.side.con.cb.proto m).port k ∈ s.vnic.out ∧ s.side.info m = some k

theorem Inv.init (want : Nat → Str × Nat) (a : Str) : Inv want a [] [] (.init a) where
  vnic := rfl
  con := rfl
  opn := fun _ _ _ h => by cases h
  sent := fun _ _ _ h => by cases h
  told := fun _ _ _ _ h => by cases h
  peer := fun _ _ h => by cases h
  port := fun _ h => by cases h
  got0 := fun _ _ => rfl
  got := fun _ _ h => by cases h
  given := fun _ _ => ⟨rfl, Nat.le_refl _⟩
  info := fun _ _ h => by obtain ⟨k, hk⟩ := h; cases hk

section
variable {want : Nat → Str × Nat} {a : Str} {hv : List Vnic.Ev} {hc : List Connect.Ev} {s : St}

theorem Inv.vi (h : Inv want a hv hc s) : Vnic.Inv [] s.vnic := by rw [h.vnic]; exact Vnic.Inv.reachable a hv

theorem Inv.vo (h : Inv want a hv hc s) : Vnic.Origin hv s.vnic := by rw [h.vnic]; exact Vnic.Origin.reachable a hv

theorem Inv.co (h : Inv want a hv hc s) : Connect.Origin hc s.side.con := by rw [h.con]; exact Connect.Origin.reachable hc

theorem mine_lasts {v v' : Vnic.St} (hi : Vnic.Inv [] v) (hl : Vnic.Lasts v v') {n : Nat} (hn : n < v.nSpawn) : mine v' n = mine v n := by
  unfold mine
  rw [(hl.spawn n hn).1, (hl.ctl _ (hi.spc n hn)).2.2.1]

theorem written_lasts {v v' : Vnic.St} (hl : Vnic.Lasts v v') (n : Nat) : Vnic.written v.out n <+: Vnic.written v'.out n := by
  obtain ⟨l, e⟩ := hl.out
  rw [← e, Vnic.written_append]
  exact List.prefix_append _ _

theorem take_prefix_eq {b c : Bytes} (h : b <+: c) {n : Nat} (hn : n ≤ b.length) : c.take n = b.take n ∧ n ≤ c.length := by
  obtain ⟨d, rfl⟩ := h
  exact ⟨List.take_append_of_le_length hn, by simp; omega⟩

/-- An event in the VNIC. -/
theorem Inv.vnicStep (h : Inv want a hv hc s) (e : Vnic.Ev)
    (he : ∀ c id r, e = .openSocket (proto c) id r → ∃ f, Asked s.side.con f c id ∧ r = reqOf want (s.side.con.call f).kind f)
    (hr : ∀ n d, e = .reverse n d → n < s.vnic.nSpawn ∧ mine s.vnic n = false) :
    Inv want a (hv ++ [e]) hc ⟨Vnic.step s.vnic e, s.side⟩ := by
  have hl := Vnic.Lasts.step s.vnic e
  refine ⟨?_, h.con, ?_, h.sent, ?_, ?_, h.port, h.got0, ?_, ?_, fun m f hr => ?_⟩
  · show Vnic.step s.vnic e = _
    rw [Vnic.exec_append, ← h.vnic]; rfl
  · intro c id r hm
    rcases List.mem_append.mp hm with hm | hm
    · exact h.opn c id r hm
    · exact he c id r (List.mem_singleton.mp hm).symm
  · intro c id t p hm
    obtain ⟨k, hk, hk'⟩ := h.told c id t p hm
    exact ⟨k, hl.out.subset hk, hk'⟩
  · intro n m hp
    obtain ⟨h1, h2, h3⟩ := h.peer n m hp
    exact ⟨Nat.lt_of_lt_of_le h1 hl.nSpawn, by rw [mine_lasts h.vi hl h1]; exact h2, h3⟩
  · intro n m hp
    obtain ⟨ds, h1, h2, h3⟩ := h.got n m hp
    obtain ⟨h4, h5⟩ := take_prefix_eq (written_lasts hl n) h3
    exact ⟨ds, h1, by rw [h4]; exact h2, h5⟩
  · intro n hn
    have hx := h.given n (fun hlt => by rw [← mine_lasts h.vi hl hlt]; exact hn (Nat.lt_of_lt_of_le hlt hl.nSpawn))
    have : heard n (hv ++ [e]) = heard n hv := by
      rw [heard_append]
      cases e with
      | reverse m d =>
        obtain ⟨g1, g2⟩ := hr m d rfl
        have hne : m ≠ n := by
          rintro rfl
          have := hn (Nat.lt_of_lt_of_le g1 hl.nSpawn)
          rw [mine_lasts h.vi hl g1, g2] at this
          cases this
        simp [heard, hne]
      | _ => simp [heard]
    rw [this]
    exact hx
  · obtain ⟨c, id, k, h1, h2⟩ := h.info m f hr
    exact ⟨c, id, k, hl.out.subset h1, h2⟩

/-- Events that bring no data leave what is known about the received data. -/
theorem good_step {h : List Connect.Ev} {c : Connect.St} (hc : Connect.Core h c) (e : Connect.Ev) (he : ∀ n d, e ≠ .data n d) {m : Nat} {ds : List Bytes}
    (hg : Callback.Good c.cb m ds) : Callback.Good (Connect.step c e).cb m ds := by
  have hm := Connect.step_micro c e
  have hc' := hc.mono e
  generalize Connect.step c e = t at hm
  have key : Connect.Core (h ++ [e]) t ∧ Callback.Good t.cb m ds := by
    induction hm with
    | refl => exact ⟨hc', hg⟩
    | @tail t u _ hx ih =>
      refine ⟨ih.1.micro (by simp) hx, ?_⟩
      have ab : ∀ x : Callback.Ev, Callback.now t.cb m x = [] → Callback.Good (Connect.absorb t x).cb m ds := by
        intro x hx
        have := ih.2.step ih.1.cbi x
        rw [hx, List.append_nil] at this
        exact this
      cases hx with
      | announce => exact ab _ rfl
      | conn => exact ab _ rfl
      | data n d => exact absurd rfl (he _ _)
      | lost => exact ab _ rfl
      | entry => exact ih.2.same rfl rfl rfl
      | _ => exact ih.2
  exact key.2

/-- Only callback connections add to their number. -/
theorem nProto_step {h : List Connect.Ev} {c : Connect.St} (hc : Connect.Core h c) (e : Connect.Ev) (he : ∀ n, e ≠ .callback n) :
    (Connect.step c e).cb.nProto = c.cb.nProto := by
  have hm := Connect.step_micro c e
  have hc' := hc.mono e
  generalize Connect.step c e = t at hm
  have key : Connect.Core (h ++ [e]) t ∧ t.cb.nProto = c.cb.nProto := by
    induction hm with
    | refl => exact ⟨hc', rfl⟩
    | @tail t u _ hx ih =>
      refine ⟨ih.1.micro (by simp) hx, ?_⟩
      have ab : ∀ x : Callback.Ev, (∀ p, x ≠ .conn p) → (Connect.absorb t x).cb.nProto = c.cb.nProto :=
        fun x hx => ((Callback.Lasts.step ih.1.cbi x).2.1 hx).trans ih.2
      cases hx with
      | announce => exact ab _ (fun _ h => nomatch h)
      | conn => exact absurd rfl (he _)
      | data n d => exact ab _ (fun _ h => nomatch h)
      | lost => exact ab _ (fun _ h => nomatch h)
      | _ => exact ih.2
  exact key.2

/-- New requests are those of calls. -/
theorem ups_mem {h : List Connect.Ev} {c c' : Connect.St} (ho : Connect.Origin h c') {x id : Nat} {r : Vnic.Req} (hm : .opens id r ∈ ups want c c' x) :
    ∃ f, Asked c' f x id ∧ r = reqOf want (c'.call f).kind f := by
  unfold ups at hm
  rcases List.mem_append.mp hm with hm | hm
  · obtain ⟨y, hy, hyr⟩ := List.mem_filterMap.mp hm
    cases y with
    | request id' k =>
      simp only [request, Option.some.injEq, Up.opens.injEq] at hyr
      obtain ⟨rfl, rfl⟩ := hyr
      obtain ⟨f, h1, h2⟩ := ho.req x id' k (List.mem_of_mem_drop hy)
      refine ⟨f, h1, ?_⟩
      rw [(ho.core.apps x id' f).mpr h1, h2]
      rfl
    | _ => simp [request] at hyr
  · obtain ⟨y, hy, hyr⟩ := List.mem_filterMap.mp hm
    cases y with
    | closePacket d i =>
      simp only [closing] at hyr
      split at hyr <;> simp at hyr
    | _ => simp [closing] at hyr

theorem _root_.Verif.Callback.Good.runs {c : Callback.St} {m : Nat} {ds : List Bytes} (h : Callback.Good c m ds) (hm : m < c.nProto) (hb : (c.proto m).made = true) :
    ∃ f k, Callback.Eff.built m k f ∈ c.out := by
  obtain ⟨_, k, f, h⟩ := h.running hm hb
  have key : ∀ l, Callback.effectsOn m c.out = l → .built m k f ∈ l → Callback.Eff.built m k f ∈ c.out := by
    rintro l rfl hl
    exact (Callback.mem_effectsOn.mp hl).1
  refine ⟨f, k, ?_⟩
  rcases h with ⟨_, h⟩ | ⟨_, h | h⟩
  · exact key _ h (by simp)
  · exact key _ h (by simp)
  · exact key _ h (by simp)

theorem _root_.Verif.Callback.fresh_step {c : Callback.St} (hi : Callback.Inv c) (hf : ∀ m, c.nProto ≤ m → (c.proto m).made = false) (e : Callback.Ev) :
    ∀ m, (Callback.step c e).nProto ≤ m → ((Callback.step c e).proto m).made = false := by
  have build : ∀ (t : Callback.St) (p : Nat), (∀ m, t.dataProtocols.get p = some m → m < t.nProto) → (∀ m, t.nProto ≤ m → (t.proto m).made = false) →
      ∀ m, (Callback.tryBuild t p).nProto ≤ m → ((Callback.tryBuild t p).proto m).made = false := by
    intro t p h1 h2 m hm
    rw [(Callback.tryBuild_same t p).1] at hm
    unfold Callback.tryBuild
    split
    · next cid k app x hg hd =>
      have := h1 x hd
      simp only [Callback.build, Callback.setInfo, Callback.setP]
      rw [if_neg (by omega)]
      exact h2 m hm
    · exact h2 m hm
  cases e with
  | conn p =>
    refine build _ p ?_ ?_
    · intro m hm
      have hm' : (c.dataProtocols.set p c.nProto).get p = some m := hm
      rw [Dict.get_set_self] at hm'
      cases hm'
      exact Nat.lt_succ_self _
    · intro m hm
      have hm' : c.nProto + 1 ≤ m := hm
      simp only [Callback.setP]
      rw [if_neg (by omega)]
      exact hf m (by omega)
  | announce cid k f p => exact build _ p (fun m hm => (hi.dat p m hm).1) hf
  | data n d =>
    intro m hm
    simp only [Callback.step] at hm ⊢
    split
    · next hn =>
      rw [if_pos hn] at hm
      unfold Callback.data at hm ⊢
      split
      · next hb => rw [if_pos hb] at hm; exact hf m hm
      · next hb =>
        rw [if_neg hb] at hm
        have hm' : c.nProto ≤ m := hm
        simp only [Callback.setP]
        rw [if_neg (by omega)]
        exact hf m hm'
    · next hn => rw [if_neg hn] at hm; exact hf m hm
  | lost n =>
    intro m hm
    have hl := (Callback.Lasts.step hi (.lost n)).2.1 nofun
    rw [hl] at hm
    have hm' := hf m hm
    simp only [Callback.step]
    split
    · unfold Callback.lost Callback.dataClosed
      dsimp only
      have key : ((Callback.setP c n { c.proto n with lost := true }).proto m).made = false := by
        simp only [Callback.setP]
        split
        · next e => subst e; exact hm'
        · exact hm'
      split
      · split <;> exact key
      · exact key
    · exact hm'

/-- Callback protocols that are not there have no stack. -/
theorem _root_.Verif.Connect.made_fresh (h : List Connect.Ev) : ∀ m, (Connect.exec .init h).cb.nProto ≤ m → ((Connect.exec .init h).cb.proto m).made = false := by
  have := Connect.micro_ind (fun h s => Connect.Core h s ∧ ∀ m, s.cb.nProto ≤ m → (s.cb.proto m).made = false) ⟨.init, fun _ _ => rfl⟩
    (fun h e s hp => ⟨hp.1.mono e, hp.2⟩) (fun h e s t he hp hm => ⟨hp.1.micro he hm, by
      cases hm with
      | announce => exact Callback.fresh_step hp.1.cbi hp.2 _
      | conn => exact Callback.fresh_step hp.1.cbi hp.2 _
      | data => exact Callback.fresh_step hp.1.cbi hp.2 _
      | lost => exact Callback.fresh_step hp.1.cbi hp.2 _
      | _ => exact hp.2⟩) h
  exact this.2

/-- An event in the connector; the part about its callback connections. -/
theorem Inv.conStep (h : Inv want a hv hc s) (e : Connect.Ev) (p' : Nat → Option Nat) (g' sn : Nat → Nat)
    (he : ∀ c id t p, e = .spawned c id t p → ∃ k, .announce (proto c) id t k ∈ s.vnic.out ∧ s.side.data t = some k)
    (hp : ∀ n m, p' n = some m → n < s.vnic.nSpawn ∧ mine s.vnic n = true ∧ m < (Connect.step s.side.con e).cb.nProto ∧ ((Connect.step s.side.con e).cb.proto m).port = n)
    (hq : ∀ m, m < (Connect.step s.side.con e).cb.nProto → p' ((Connect.step s.side.con e).cb.proto m).port = some m)
    (h0 : ∀ n, p' n = none → g' n = 0)
    (hg : ∀ n m, p' n = some m → ∃ ds, Callback.Good (Connect.step s.side.con e).cb m ds ∧ ds.flatten = (Vnic.written s.vnic.out n).take (g' n) ∧
      g' n ≤ (Vnic.written s.vnic.out n).length) :
    Inv want a hv (hc ++ [e]) ⟨s.vnic, { conStep want s.side e with peer := p', got := g', seen := sn }⟩ := by
  have ho := h.co.step e
  have hl := (h.co.core.step e).2
  have told : ∀ c id t p, .spawned c id t p ∈ hc ++ [e] → ∃ k, .announce (proto c) id t k ∈ s.vnic.out ∧ s.side.data t = some k := by
    intro c id t p hm
    rcases List.mem_append.mp hm with hm | hm
    · exact h.told c id t p hm
    · exact he c id t p (List.mem_singleton.mp hm).symm
  refine ⟨h.vnic, ?_, ?_, ?_, told, hp, hq, h0, hg, h.given, ?_⟩
  · show Connect.step s.side.con e = _
    rw [Connect.exec_append, ← h.con]; rfl
  · intro c id r hm
    obtain ⟨f, h1, h2⟩ := h.opn c id r hm
    exact ⟨f, hl.asked h1, by rw [show (Host.conStep want s.side e).con = Connect.step s.side.con e from rfl, hl.kind f h1.1]; exact h2⟩
  · intro c id r hm
    have hm' : .opens id r ∈ s.side.sent c ++ ups want s.side.con (Connect.step s.side.con e) c := hm
    rcases List.mem_append.mp hm' with hm' | hm'
    · obtain ⟨f, h1, h2⟩ := h.sent c id r hm'
      exact ⟨f, hl.asked h1, by rw [show (Host.conStep want s.side e).con = Connect.step s.side.con e from rfl, hl.kind f h1.1]; exact h2⟩
    · exact ups_mem ho hm'
  · intro m f hr
    show ∃ c id k, .announce (proto c) id ((Connect.step s.side.con e).cb.proto m).port k ∈ s.vnic.out ∧ inform s.side (Connect.step s.side.con e) m = some k
    have hfresh : ∀ m, s.side.con.cb.nProto ≤ m → (s.side.con.cb.proto m).made = false := by rw [h.con]; exact Connect.made_fresh hc
    unfold inform
    cases hb : (s.side.con.cb.proto m).made with
    | true =>
      have hm : m < s.side.con.cb.nProto := by
        by_cases hlt : m < s.side.con.cb.nProto
        · exact hlt
        · rw [hfresh m (by omega)] at hb; cases hb
      obtain ⟨ds, hg⟩ := h.co.core.good m
      obtain ⟨f', hr'⟩ := hg.runs hm hb
      obtain ⟨c, id, k, h1, h2⟩ := h.info m f' hr'
      rw [hl.cb.port m hm]
      exact ⟨c, id, k, h1, by simpa using h2⟩
    | false =>
      obtain ⟨k', hk'⟩ := hr
      obtain ⟨ds, hg⟩ := ho.core.good m
      obtain ⟨c, id, sp, g1, -⟩ := ho.built m f ⟨k', hk'⟩
      obtain ⟨k, g2, g3⟩ := told c id _ sp g1
      refine ⟨c, id, k, g2, ?_⟩
      rw [if_pos ⟨(hg.built_made hk').2, rfl⟩]
      exact g3

/-- An event in the connector that is none of its callback connections. -/
theorem Inv.conQuiet (h : Inv want a hv hc s) (e : Connect.Ev) (sn : Nat → Nat)
    (he : ∀ c id t p, e = .spawned c id t p → ∃ k, .announce (proto c) id t k ∈ s.vnic.out ∧ s.side.data t = some k)
    (h1 : ∀ n, e ≠ .callback n) (h2 : ∀ n d, e ≠ .data n d) :
    Inv want a hv (hc ++ [e]) ⟨s.vnic, { Host.conStep want s.side e with seen := sn }⟩ := by
  have hn := nProto_step h.co.core e h1
  have hl := (h.co.core.step e).2.cb
  refine h.conStep e s.side.peer s.side.got sn he ?_ ?_ h.got0 ?_
  · intro n m hp
    obtain ⟨g1, g2, g3, g4⟩ := h.peer n m hp
    exact ⟨g1, g2, by rw [hn]; exact g3, by rw [hl.port m g3]; exact g4⟩
  · intro m hm
    rw [hn] at hm
    rw [hl.port m hm]
    exact h.port m hm
  · intro n m hp
    obtain ⟨ds, g1, g2⟩ := h.got n m hp
    exact ⟨ds, good_step h.co.core e h2 g1, g2⟩

theorem downs_mem {v : Vnic.St} {c : Nat} {x : Down} (h : x ∈ downs v c) {id t : Nat} {k : Vnic.Key} (hx : x = .spawned id t k) : .announce (proto c) id t k ∈ v.out := by
  subst hx
  obtain ⟨y, hy, hyx⟩ := List.mem_filterMap.mp h
  cases y with
  | announce p' id' t' k' =>
    simp only [down] at hyx
    split at hyx
    · next e =>
      simp only [Option.some.injEq, Down.spawned.injEq] at hyx
      obtain ⟨rfl, rfl, rfl⟩ := hyx
      rw [← e]; exact hy
    · cases hyx
  | respond p' id' r =>
    simp only [down] at hyx
    split at hyx <;> simp at hyx
  | _ => simp [down] at hyx

theorem exec_nil (v : Vnic.St) : Vnic.exec v [] = v := rfl

theorem Inv.noVnic (h : Inv want a hv hc s) {e : Ev} (hvn : vnicEv s.vnic s.side e = []) (hcs : ∃ l, Inv want a hv (hc ++ l) ⟨s.vnic, sideStep want s.vnic s.side e⟩) :
    ∃ m, Inv want a (hv ++ vnicEv s.vnic s.side e) (hc ++ m) (step want s e) := by
  obtain ⟨l, hl⟩ := hcs
  refine ⟨l, ?_⟩
  unfold step
  rw [hvn, List.append_nil]
  exact hl

theorem Inv.keep (h : Inv want a hv hc s) : ∃ l, Inv want a hv (hc ++ l) ⟨s.vnic, s.side⟩ := ⟨[], by rw [List.append_nil]; exact h⟩

/-- An event that changes only the VNIC. -/
theorem Inv.onlyVnic (h : Inv want a hv hc s) {e : Ev} (x : Vnic.Ev) (hvn : vnicEv s.vnic s.side e = [x])
    (hs : ∀ hv', Inv want a hv' hc ⟨Vnic.step s.vnic x, s.side⟩ → Inv want a hv' hc ⟨Vnic.step s.vnic x, sideStep want s.vnic s.side e⟩)
    (he : ∀ c id r, x = .openSocket (proto c) id r → ∃ f, Asked s.side.con f c id ∧ r = reqOf want (s.side.con.call f).kind f)
    (hr : ∀ n d, x = .reverse n d → n < s.vnic.nSpawn ∧ mine s.vnic n = false) :
    ∃ m, Inv want a (hv ++ vnicEv s.vnic s.side e) (hc ++ m) (step want s e) := by
  refine ⟨[], ?_⟩
  unfold step
  rw [hvn, List.append_nil]
  exact hs _ (h.vnicStep x he hr)

theorem proto_even (c : Nat) : proto c % 2 = 0 := by unfold proto; omega

/-- Parts of the process that the invariant does not mention. -/
theorem Inv.side (h : Inv want a hv hc s) (t : Side) (e1 : t.con = s.side.con) (e2 : t.sent = s.side.sent) (e3 : t.peer = s.side.peer) (e4 : t.got = s.side.got)
    (e5 : t.wrote = s.side.wrote) (e6 : t.given = s.side.given) (e7 : t.data = s.side.data) (e8 : t.info = s.side.info) : Inv want a hv hc ⟨s.vnic, t⟩ := by
  obtain ⟨v, u⟩ := s
  obtain ⟨t1, t2, t3, t4, t5, t6, t7, t8, t9, t10, t11⟩ := t
  dsimp only at e1 e2 e3 e4 e5 e6 e7 e8
  subst e1 e2 e3 e4 e5 e6 e7 e8
  exact ⟨h.vnic, h.con, h.opn, h.sent, h.told, h.peer, h.port, h.got0, h.got, h.given, h.info⟩

theorem learn_same (t : Side) (c : Nat) (x : Down) : (learn t c x).con = t.con ∧ (learn t c x).sent = t.sent ∧ (learn t c x).peer = t.peer ∧
    (learn t c x).got = t.got ∧ (learn t c x).wrote = t.wrote ∧ (learn t c x).given = t.given := by
  unfold learn
  split
  · split <;> exact ⟨rfl, rfl, rfl, rfl, rfl, rfl⟩
  · exact ⟨rfl, rfl, rfl, rfl, rfl, rfl⟩

/-- The connector knows the connection ids that the VNIC announces to it. -/
theorem Inv.known (h : Inv want a hv hc s) {c id t : Nat} {k : Vnic.Key} (hk : .announce (proto c) id t k ∈ s.vnic.out) : ∃ f, (s.side.con.cli c).apps.get id = some f := by
  obtain ⟨t1, t2, t3, t4⟩ := h.vo.told _ _ _ _ hk
  obtain ⟨_, r, s1, s2⟩ := h.vo.spawn t t1
  rw [t2, t3] at s1
  obtain ⟨f, u1, rfl⟩ := h.opn c id r s1
  exact ⟨f, (h.co.core.apps c id f).mpr u1⟩

theorem Inv.learn (h : Inv want a hv hc s) (c : Nat) {x : Down} (hm : x ∈ downs s.vnic c) : Inv want a hv hc ⟨s.vnic, Host.learn s.side c x⟩ := by
  cases x with
  | response id r => exact h
  | spawned id t k =>
    have hk := downs_mem hm rfl
    unfold Host.learn
    dsimp only
    split
    · refine ⟨h.vnic, h.con, h.opn, h.sent, ?_, h.peer, h.port, h.got0, h.got, h.given, h.info⟩
      intro c' id' t' p' hm'
      obtain ⟨k', g1, g2⟩ := h.told c' id' t' p' hm'
      refine ⟨k', g1, ?_⟩
      simp only [upd]
      split
      · next e =>
        subst e
        rw [← (h.vo.told _ _ _ _ hk).2.2.2, ← (h.vo.told _ _ _ _ g1).2.2.2]
      · exact g2
    · exact h

theorem Inv.step (h : Inv want a hv hc s) (e : Ev) : ∃ m, Inv want a (hv ++ vnicEv s.vnic s.side e) (hc ++ m) (step want s e) := by
  cases e with
  | own e =>
    refine h.noVnic rfl ?_
    simp only [sideStep]
    split
    · next hi => exact ⟨[e], h.conQuiet e s.side.seen (by rintro _ _ _ _ rfl; cases hi) (by rintro _ rfl; cases hi) (by rintro _ _ rfl; cases hi)⟩
    · exact h.keep
  | other e =>
    by_cases hf : foreign s.vnic e = true
    · refine h.onlyVnic e (by simp [vnicEv, hf]) (fun _ hx => hx) ?_ ?_
      · rintro c id r rfl
        simp only [foreign, beq_iff_eq] at hf
        have := proto_even c
        omega
      · rintro n d rfl
        simpa [foreign] using hf
    · exact h.noVnic (by simp [vnicEv, hf]) h.keep
  | accept c =>
    by_cases hx : c < s.side.con.nCli ∧ c ∉ s.side.acc
    · refine h.onlyVnic (.ctlMade (proto c)) (by simp only [vnicEv]; rw [if_pos hx]) ?_ nofun nofun
      intro hv' hi
      simp only [sideStep]
      rw [if_pos hx]
      exact hi.side _ rfl rfl rfl rfl rfl rfl rfl rfl
    · refine h.noVnic (by simp only [vnicEv]; rw [if_neg hx]) ?_
      simp only [sideStep]
      rw [if_neg hx]
      exact h.keep
  | toVnic c =>
    by_cases hx : c ∈ s.side.acc
    · cases hg : (s.side.sent c)[s.side.read c]? with
      | none =>
        refine h.noVnic (by simp only [vnicEv]; rw [if_pos hx, hg]; rfl) ?_
        simp only [sideStep]
        split
        · exact ⟨[], by rw [List.append_nil]; exact h.side _ rfl rfl rfl rfl rfl rfl rfl rfl⟩
        · exact h.keep
      | some x =>
        refine h.onlyVnic (vnicEvOf c x) (by simp only [vnicEv]; rw [if_pos hx, hg]; rfl) ?_ ?_ ?_
        · intro hv' hi
          simp only [sideStep]
          split
          · exact hi.side _ rfl rfl rfl rfl rfl rfl rfl rfl
          · exact hi
        · intro c' id r hr
          have hm := List.mem_of_getElem? hg
          cases x with
          | opens id' r' =>
            simp only [vnicEvOf, Vnic.Ev.openSocket.injEq, proto] at hr
            have hcc : c = c' := by omega
            obtain ⟨_, rfl, rfl⟩ := hr
            subst hcc
            exact h.sent c id' r' hm
          | closes id' => cases hr
        · intro n d hr
          cases x <;> cases hr
    · refine h.noVnic (by simp only [vnicEv]; rw [if_neg hx]) ?_
      simp only [sideStep]
      rw [if_neg (fun hy => hx hy.1)]
      exact h.keep
  | toCon c =>
    refine h.noVnic rfl ?_
    simp only [sideStep]
    split
    · cases hg : (downs s.vnic c)[s.side.seen c]? with
      | none => exact h.keep
      | some x =>
        have hm := List.mem_of_getElem? hg
        have h' := h.learn c hm
        refine ⟨[conEv c x], h'.conQuiet (conEv c x) _ ?_ ?_ ?_⟩
        · intro c' id t p hx
          cases x with
          | response => cases hx
          | spawned id' t' k' =>
            simp only [conEv, Connect.Ev.spawned.injEq] at hx
            obtain ⟨rfl, rfl, rfl, rfl⟩ := hx
            have hk := downs_mem hm rfl
            refine ⟨k', hk, ?_⟩
            obtain ⟨f, hf⟩ := h.known hk
            simp [Host.learn, hf, upd]
        · intro n hx; cases x <;> cases hx
        · intro n d hx; cases x <;> cases hx
    · exact h.keep
  | lostVnic c =>
    by_cases hx : c ∈ s.side.acc
    · exact h.onlyVnic (.ctlLost (proto c)) (by simp only [vnicEv]; rw [if_pos hx]) (fun _ hx => hx) nofun nofun
    · exact h.noVnic (by simp only [vnicEv]; rw [if_neg hx]) h.keep
  | lostCon c =>
    exact h.noVnic rfl ⟨[.ctlLost c], h.conQuiet (.ctlLost c) s.side.seen nofun nofun nofun⟩
  | callback n =>
    refine h.noVnic rfl ?_
    simp only [sideStep]
    split
    · next hx =>
      obtain ⟨h1, h2, h3⟩ := hx
      have hcb : (Connect.step s.side.con (.callback n)).cb = Callback.step s.side.con.cb (.conn n) := rfl
      obtain ⟨g1, _, g3⟩ := Callback.Lasts.step h.co.core.cbi (.conn n)
      obtain ⟨g4, g5⟩ := g3 n rfl
      have hold : ∀ m, m < s.side.con.cb.nProto → (s.side.con.cb.proto m).port ≠ n := by
        intro m hm e
        have := h.port m hm
        rw [e, h3] at this
        cases this
      refine ⟨[.callback n], h.conStep (.callback n) (upd s.side.peer n (some s.side.con.cb.nProto)) s.side.got s.side.seen nofun ?_ ?_ ?_ ?_⟩
      · intro n' m hp
        rw [hcb]
        simp only [upd] at hp
        split at hp
        · next e =>
          cases hp
          rw [e]
          exact ⟨h1, h2, by rw [g4]; omega, g5⟩
        · obtain ⟨x1, x2, x3, x4⟩ := h.peer n' m hp
          exact ⟨x1, x2, by omega, by rw [g1.port m x3]; exact x4⟩
      · intro m hm
        rw [hcb] at hm ⊢
        rw [g4] at hm
        by_cases e : m = s.side.con.cb.nProto
        · subst e; rw [g5]; simp [upd]
        · have hm' : m < s.side.con.cb.nProto := by omega
          rw [g1.port m hm']
          simp only [upd]
          rw [if_neg (hold m hm')]
          exact h.port m hm'
      · intro n' hp
        simp only [upd] at hp
        split at hp
        · cases hp
        · exact h.got0 n' hp
      · intro n' m hp
        simp only [upd] at hp
        split at hp
        · next e =>
          subst e
          cases hp
          obtain ⟨ds, hg⟩ := h.co.core.good s.side.con.cb.nProto
          have hds := (hg.fresh (Nat.le_refl _)).2
          subst hds
          refine ⟨[], good_step h.co.core (.callback _) (fun _ _ h => nomatch h) hg, ?_, ?_⟩
          · rw [h.got0 n' h3]; rfl
          · rw [h.got0 n' h3]; exact Nat.zero_le _
        · obtain ⟨ds, x1, x2⟩ := h.got n' m hp
          exact ⟨ds, good_step h.co.core (.callback _) (fun _ _ h => nomatch h) x1, x2⟩
    · exact h.keep
  | toApp n k =>
    refine h.noVnic rfl ?_
    simp only [sideStep]
    cases hp : s.side.peer n with
    | none => exact h.keep
    | some m =>
      simp only [take]
      split
      · next hx =>
        obtain ⟨hrun, hne⟩ := hx
        simp only [running, Bool.and_eq_true, decide_eq_true_eq, Bool.not_eq_true'] at hrun
        rw [written_eq] at hne ⊢
        generalize hd : chunk (Vnic.written s.vnic.out n) (s.side.got n) k = d at hne ⊢
        have hn := nProto_step h.co.core (.data m d) nofun
        have hl := (h.co.core.step (.data m d)).2.cb
        refine ⟨[.data m d], h.conStep (.data m d) s.side.peer _ s.side.seen nofun ?_ ?_ ?_ ?_⟩
        · intro n' m' hp'
          obtain ⟨x1, x2, x3, x4⟩ := h.peer n' m' hp'
          exact ⟨x1, x2, by rw [hn]; exact x3, by rw [hl.port m' x3]; exact x4⟩
        · intro m' hm'
          rw [hn] at hm'
          rw [hl.port m' hm']
          exact h.port m' hm'
        · intro n' hp'
          simp only [upd]
          rw [if_neg (by rintro rfl; rw [hp] at hp'; cases hp')]
          exact h.got0 n' hp'
        · intro n' m' hp'
          obtain ⟨ds, x1, x2, x3⟩ := h.got n' m' hp'
          have hg := x1.step h.co.core.cbi (.data m d)
          simp only [Callback.now] at hg
          by_cases e : n' = n
          · subst e
            rw [hp] at hp'
            cases hp'
            rw [if_pos ⟨rfl, hrun⟩] at hg
            refine ⟨ds ++ [d], hg, ?_⟩
            have hc := chunk_next (Vnic.written s.vnic.out n') (s.side.got n') k x3
            rw [hd] at hc
            simp only [upd, if_true]
            exact ⟨by rw [hc.1]; simp [x2], hc.2⟩
          · have hmm : m ≠ m' := by
              rintro rfl
              have y1 := (h.peer n m hp).2.2.2
              have y2 := (h.peer n' m hp').2.2.2
              exact e (y2.symm.trans y1)
            rw [if_neg (fun y => hmm y.1), List.append_nil] at hg
            simp only [upd]
            rw [if_neg e]
            exact ⟨ds, hg, x2, x3⟩
      · exact h.keep
  | write n d =>
    refine h.noVnic rfl ?_
    simp only [sideStep]
    cases hp : s.side.peer n with
    | none => exact h.keep
    | some m =>
      simp only [put]
      split
      · refine ⟨[], ?_⟩
        rw [List.append_nil]
        refine ⟨h.vnic, h.con, h.opn, h.sent, h.told, h.peer, h.port, h.got0, h.got, ?_, h.info⟩
        intro n' hn'
        obtain ⟨x1, x2⟩ := h.given n' hn'
        simp only [upd]
        split
        · next e =>
          subst e
          obtain ⟨y1, y2⟩ := take_prefix_eq (List.prefix_append (s.side.wrote n') d) x2
          exact ⟨by rw [y1]; exact x1, y2⟩
        · exact ⟨x1, x2⟩
      · exact h.keep
  | toSock n k =>
    by_cases hx : mine s.vnic n = true ∧ live s.vnic n = true
    · have hlt : n < s.vnic.nSpawn := by
        have := hx.2
        simp only [live, Bool.and_eq_true, decide_eq_true_eq] at this
        exact this.1.1
      have hgv := h.given n (fun _ => hx.1)
      by_cases hd : chunk (s.side.wrote n) (s.side.given n) k = []
      · refine h.noVnic (by simp only [vnicEv]; rw [if_neg (fun y => y.2.2 hd)]) ?_
        simp only [sideStep]
        rw [if_pos hx, hd]
        refine ⟨[], ?_⟩
        rw [List.append_nil]
        refine h.side _ rfl rfl rfl rfl rfl ?_ rfl rfl
        funext j
        simp only [upd, List.length_nil, Nat.add_zero]
        split
        · next e => rw [e]
        · rfl
      · refine ⟨[], ?_⟩
        rw [List.append_nil]
        unfold Host.step
        simp only [vnicEv, sideStep]
        rw [if_pos ⟨hx.1, hx.2, hd⟩, if_pos hx]
        generalize hch : chunk (s.side.wrote n) (s.side.given n) k = d
        have hl := Vnic.Lasts.step s.vnic (.reverse n d)
        have hns : ∀ m, m < s.vnic.nSpawn → mine (Vnic.step s.vnic (.reverse n d)) m = mine s.vnic m := fun m hm => mine_lasts h.vi hl hm
        refine ⟨?_, h.con, ?_, h.sent, ?_, ?_, h.port, h.got0, ?_, ?_, ?_⟩
        · rw [Vnic.exec_append, ← h.vnic]
        · intro c id r hm
          rcases List.mem_append.mp hm with hm | hm
          · exact h.opn c id r hm
          · simp at hm
        · intro c id t p hm
          obtain ⟨k, hk, hk'⟩ := h.told c id t p hm
          exact ⟨k, hl.out.subset hk, hk'⟩
        · intro n' m hp
          obtain ⟨h1, h2, h3⟩ := h.peer n' m hp
          exact ⟨Nat.lt_of_lt_of_le h1 hl.nSpawn, (hns n' h1).trans h2, h3⟩
        · intro n' m hp
          obtain ⟨ds, h1, h2, h3⟩ := h.got n' m hp
          obtain ⟨h4, h5⟩ := take_prefix_eq (written_lasts hl n') h3
          exact ⟨ds, h1, by rw [show Vnic.exec s.vnic [.reverse n d] = Vnic.step s.vnic (.reverse n d) from rfl, h4]; exact h2, h5⟩
        · intro n' hn'
          rw [heard_append]
          by_cases e : n' = n
          · subst e
            have hc := chunk_next (s.side.wrote n') (s.side.given n') k hgv.2
            rw [hch] at hc
            simp only [upd, if_true]
            exact ⟨by rw [hc.1]; simp [heard, hgv.1], hc.2⟩
          · simp only [upd]
            rw [if_neg e]
            have := h.given n' (fun hlt' => by rw [← hns n' hlt']; exact hn' (Nat.lt_of_lt_of_le hlt' hl.nSpawn))
            simp only [heard]
            rw [if_neg (Ne.symm e)]
            simpa using this
        · intro m f hr
          obtain ⟨c, id, k, h1, h2⟩ := h.info m f hr
          exact ⟨c, id, k, hl.out.subset h1, h2⟩
    · refine h.noVnic (by simp only [vnicEv]; rw [if_neg (fun y => hx ⟨y.1, y.2.1⟩)]) ?_
      simp only [sideStep]
      rw [if_neg hx]
      exact h.keep
  | endVnic n =>
    by_cases hx : mine s.vnic n = true
    · exact h.onlyVnic (.lost n) (by simp only [vnicEv]; rw [if_pos hx]) (fun _ hx => hx) nofun nofun
    · exact h.noVnic (by simp only [vnicEv]; rw [if_neg hx]) h.keep
  | endApp n =>
    refine h.noVnic rfl ?_
    simp only [sideStep]
    split
    · exact h.keep
    · next m _ => exact ⟨[.lost m], h.conQuiet (.lost m) s.side.seen nofun nofun nofun⟩

theorem Inv.exec : ∀ (h : List Ev) {hv : List Vnic.Ev} {hc : List Connect.Ev} {s : St}, Inv want a hv hc s →
    ∃ m, Inv want a (hv ++ vnicHist want s h) (hc ++ m) (exec want s h)
  | [], hv, hc, s, hi => ⟨[], by rw [vnicHist, List.append_nil, List.append_nil]; exact hi⟩
  | e :: h, hv, hc, s, hi => by
    obtain ⟨m, h1⟩ := hi.step e
    obtain ⟨m', h2⟩ := Inv.exec h h1
    exact ⟨m ++ m', by rw [vnicHist, ← List.append_assoc, ← List.append_assoc]; exact h2⟩

end

theorem Inv.reachable (want : Nat → Str × Nat) (a : Str) (h : List Ev) : ∃ hc, Inv want a (vnicHist want (.init a) h) hc (Host.exec want (.init a) h) := by
  obtain ⟨m, hi⟩ := Inv.exec h (Inv.init want a)
  exact ⟨_, hi⟩

end Verif.Host
