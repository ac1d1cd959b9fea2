import Verif.Props.Switch
/-! # C27, C28 for the protocol instances of a switch -/
namespace Verif.SwNet
open Addr Switch

theorem opsOf_append (g h : List Ev) : opsOf (g ++ h) = opsOf g ++ opsOf h := by
  induction g with
  | nil => rfl
  | cons e g ih => cases e <;> simp [opsOf, ih]

/-- What holds after a calm history. -/
structure NInv (h : List Ev) (n : SwNet) : Prop where
  sw : Switch.new.exec (opsOf h) = .ok n.switch
  pend : ∀ l, n.pending l = []
  up : ∀ l, l ∈ n.up ↔ LinkUp h l
  reg : ∀ l a, n.switch.linkToAddress.get l = some a → l ∈ n.up
  nodup : n.up.Nodup

theorem writeAll_ok (n : SwNet) (p : SPkt) (ds : List Nat) (h : ∀ d ∈ ds, d ∈ n.up) :
    n.writeAll p ds = ({ n with out := n.out ++ ds.map (·, p) }, none) := by
  induction ds generalizing n with
  | nil => simp [writeAll]
  | cons d ds ih =>
    unfold writeAll
    rw [if_pos (h d (by simp))]
    refine (ih { n with out := n.out ++ [(d, p)] } (fun x hx => h x (by simp [hx]))).trans ?_
    simp

theorem outLinks_registered {s : Switch} (hi : Switch.Inv s) {d : Str} {ls : List Nat}
    (h : s.getOutboundLinks d = .ok ls) : ∀ l ∈ ls, ∃ a, s.linkToAddress.get l = some a := by
  intro l hl
  unfold getOutboundLinks at h
  split at h
  · split at h
    · cases h
    · cases h
      rw [outLoop_mem] at hl
      simp only [List.not_mem_nil, false_or] at hl
      obtain ⟨b, _, m, hm, hlm⟩ := hl
      exact ⟨b.str, (hi.agree _ _).mpr ⟨m, hm, hlm⟩⟩
  · cases h; simp at hl

theorem outLinks_ok (s : Switch) {d : Str} (h : (∃ a, blockFromString d = .ok a) ∨ ¬ BlockText d) :
    ∃ ls, s.getOutboundLinks d = .ok ls := by
  unfold getOutboundLinks
  split
  · next hv =>
    rcases h with ⟨a, ha⟩ | h
    · rw [ha]; exact ⟨_, rfl⟩
    · exact absurd ((isValidBlockString_iff d).mp hv) h
  · exact ⟨_, rfl⟩

/-- Facts about the state inside the loop. -/
structure LInv (ops : List Op) (n : SwNet) : Prop where
  sw : Switch.new.exec ops = .ok n.switch
  reg : ∀ l a, n.switch.linkToAddress.get l = some a → l ∈ n.up

theorem handle_ok {ops : List Op} {n : SwNet} (hi : LInv ops n) (l : Nat) (hl : l ∈ n.up) (p : SPkt)
    (hp : ∀ d x, p = .wire d x → (∃ a, blockFromString d = .ok a) ∨ ¬ BlockText d) :
    ∃ n', n.handle l p = (n', none) ∧ n'.up = n.up ∧ n'.pending = n.pending ∧
      LInv (ops ++ opsOf [.data l [p]]) n' := by
  obtain ⟨s, h1, h2, _⟩ := exec_spec ops
  rw [hi.sw] at h1
  cases h1
  cases p with
  | announce a =>
    obtain ⟨s', g1, g2, g3⟩ := register_spec h2 a l
    unfold handle; dsimp only
    rw [g1]
    refine ⟨_, rfl, rfl, rfl, ?_, ?_⟩
    · show Switch.new.exec (ops ++ [.register a l]) = _
      rw [Switch.exec_append, hi.sw]
      dsimp only [Switch.exec, Switch.step]
      rw [g1]
    · intro k b hk
      dsimp only at hk ⊢
      rw [g3] at hk
      split at hk
      · next e => rw [e.1]; exact hl
      · exact hi.reg k b hk
  | wire d x =>
    obtain ⟨ls, hls⟩ := outLinks_ok n.switch (hp d x rfl)
    have hu : ∀ k ∈ ls, k ∈ n.up := fun k hk => by
      obtain ⟨a, ha⟩ := outLinks_registered h2 hls k hk
      exact hi.reg k a ha
    unfold handle; dsimp only
    rw [hls]
    dsimp only
    rw [writeAll_ok n _ ls hu]
    refine ⟨_, rfl, rfl, rfl, ?_, hi.reg⟩
    show Switch.new.exec (ops ++ []) = _
    rw [List.append_nil]; exact hi.sw
  | other =>
    refine ⟨n, rfl, rfl, rfl, ?_, hi.reg⟩
    show Switch.new.exec (ops ++ []) = _
    rw [List.append_nil]; exact hi.sw

theorem loop_ok {ops : List Op} {n : SwNet} (hi : LInv ops n) (l : Nat) (hl : l ∈ n.up) (ps : List SPkt)
    (hp : ∀ d x, .wire d x ∈ ps → (∃ a, blockFromString d = .ok a) ∨ ¬ BlockText d) :
    (n.loop l ps).up = n.up ∧ (∀ k, (n.loop l ps).pending k = if k = l then [] else n.pending k) ∧
      LInv (ops ++ opsOf [.data l ps]) (n.loop l ps) := by
  induction ps generalizing n ops with
  | nil =>
    refine ⟨rfl, fun k => rfl, ?_, hi.reg⟩
    show Switch.new.exec (ops ++ []) = _
    rw [List.append_nil]; exact hi.sw
  | cons p ps ih =>
    obtain ⟨n', g1, g2, g3, g4⟩ := handle_ok hi l hl p (fun d x h => hp d x (by simp [h]))
    obtain ⟨k1, k2, k3⟩ := ih g4 (by rw [g2]; exact hl) (fun d x h => hp d x (by simp [h]))
    unfold loop
    rw [g1]
    refine ⟨k1.trans g2, fun k => (k2 k).trans (by rw [g3]), ?_⟩
    have : ops ++ opsOf [.data l [p]] ++ opsOf [.data l ps] = ops ++ opsOf [.data l (p :: ps)] := by
      rw [List.append_assoc]
      congr 1
      cases p <;> simp [opsOf]
    rw [← this]; exact k3

theorem exec_append (n : SwNet) (g h : List Ev) : n.exec (g ++ h) = (n.exec g).exec h := by
  induction g generalizing n with
  | nil => rfl
  | cons e g ih => exact ih _

theorem linkUp_snoc (h : List Ev) (e : Ev) (l : Nat) : LinkUp (h ++ [e]) l ↔
    (e = .connectionMade l ∨ (LinkUp h l ∧ e ≠ .connectionLost l)) := by
  constructor
  · rintro ⟨b, a, he, hn⟩
    rcases List.eq_nil_or_concat a with rfl | ⟨a', x, rfl⟩
    · obtain ⟨_, e2⟩ := List.append_inj' he rfl
      cases e2; exact .inl rfl
    · rw [List.concat_eq_append, ← List.cons_append, ← List.append_assoc] at he
      obtain ⟨e1, e2⟩ := List.append_inj' he rfl
      cases e2
      refine .inr ⟨⟨b, a', e1, fun k hk => hn k (by simp [hk])⟩, ?_⟩
      rintro rfl
      exact hn l (by simp) rfl
  · rintro (rfl | ⟨⟨b, a, rfl, hn⟩, he⟩)
    · exact ⟨h, [], rfl, by simp⟩
    · refine ⟨b, a ++ [e], by simp, fun k hk => ?_⟩
      simp only [List.mem_append, List.mem_singleton] at hk
      rcases hk with hk | hk
      · exact hn k hk
      · rintro rfl; exact he hk.symm

theorem ninv (h : List Ev) (hd : DataWhenUp h) (hc : Calm h) : NInv h (new.exec h) := by
  induction h using List.reverseRecOn with
  | nil =>
    refine ⟨rfl, fun _ => rfl, fun l => ?_, fun l a h => ?_, List.nodup_nil⟩
    · constructor
      · intro h; cases h
      · rintro ⟨b, a, he, _⟩; simp at he
    · cases h
  | append_singleton h e ih =>
    have hi := ih (fun b l ps a he => hd b l ps (a ++ [e]) (by rw [he]; simp))
      (fun l ps d x h1 h2 => hc l ps d x (by simp [h1]) h2)
    rw [exec_append]
    obtain ⟨s, h1, h2, _⟩ := exec_spec (opsOf h)
    rw [hi.sw] at h1
    have h1 := Except.ok.inj h1
    subst h1
    show NInv _ ((new.exec h).step e)
    cases e with
    | connectionMade l =>
      refine ⟨by rw [opsOf_append]; simpa [opsOf, step] using hi.sw, hi.pend, fun k => ?_, fun k a hk => ?_, ?_⟩
      · rw [linkUp_snoc]
        simp only [step, Ev.connectionMade.injEq, reduceCtorEq, not_false_eq_true, and_true, ne_eq]
        split
        · next hm => rw [← hi.up]
                     constructor
                     · exact .inr
                     · rintro (rfl | h); exact hm; exact h
        · rw [List.mem_append, List.mem_singleton, hi.up, eq_comm (a := l), or_comm]
      · have := hi.reg k a hk
        simp only [step]
        split
        · exact this
        · exact List.mem_append_left _ this
      · simp only [step]
        split
        · exact hi.nodup
        · next hm =>
          rw [List.nodup_append]
          exact ⟨hi.nodup, by simp, by rintro a ha b hb rfl; rw [List.mem_singleton] at hb; subst hb; exact hm ha⟩
    | connectionLost l =>
      obtain ⟨s', g1, g2, g3⟩ := unregister_spec h2 l
      simp only [step, g1]
      refine ⟨?_, hi.pend, fun k => ?_, fun k a hk => ?_, ?_⟩
      · rw [opsOf_append, Switch.exec_append, hi.sw]
        dsimp only [opsOf, Switch.exec, Switch.step]
        rw [g1]
      · rw [linkUp_snoc, hi.nodup.mem_erase_iff, hi.up]
        simp only [reduceCtorEq, false_or, ne_eq, Ev.connectionLost.injEq, eq_comm (a := l), and_comm]
      · dsimp only at hk ⊢
        rw [g3] at hk
        split at hk
        · cases hk
        · next hne => exact (List.mem_erase_of_ne hne).mpr (hi.reg k a hk)
      · exact hi.nodup.erase l
    | data l ps =>
      have hl : l ∈ (new.exec h).up := (hi.up l).mpr (hd h l ps [] rfl)
      simp only [step, hi.pend, List.nil_append]
      obtain ⟨k1, k2, k3⟩ := loop_ok (n := new.exec h) ⟨hi.sw, hi.reg⟩ l hl ps
        (fun d x hm => hc l ps d x (by simp) hm)
      refine ⟨by rw [opsOf_append]; exact k3.sw, fun k => ?_, fun k => ?_, k3.reg, by rw [k1]; exact hi.nodup⟩
      · rw [k2]; split
        · rfl
        · exact hi.pend k
      · rw [k1, linkUp_snoc, hi.up]; simp

/-- C27. In any calm history, when a wire packet with destination `z.n.d.i` arrives on a connected link, it is
written unchanged and once to exactly the connected links whose most recent valid announcement is the address or one of its
enclosing blocks, and to nothing else. -/
theorem C27_forward (h : List Ev) (hd : DataWhenUp h) (hc : Calm h) (l x : Nat) (dst : Str)
    (z n d i : Nat)
    (ha : ∃ a b c e, dst = dotted a b c e ∧ DenotesNum a (.num z) ∧ DenotesNum b (.num n) ∧ DenotesNum c (.num d) ∧
      DenotesNum e (.num i)) :
    ∃ links : List Nat, (new.exec (h ++ [.data l [.wire dst x]])).out = (new.exec h).out ++ links.map (·, .wire dst x) ∧
      links.Nodup ∧ (∀ k, k ∈ links ↔ ∃ a ∈ enclosing z n d i, RegisteredAs (opsOf h) k a) ∧
      ∀ k ∈ links, LinkUp h k := by
  have hi := ninv h hd hc
  obtain ⟨links, g1, g2, g3⟩ := C27_links (opsOf h) _ hi.sw dst z n d i ha
  obtain ⟨s, h1, h2, _⟩ := exec_spec (opsOf h)
  rw [hi.sw] at h1
  have h1 := Except.ok.inj h1
  subst h1
  have hu : ∀ k ∈ links, k ∈ (new.exec h).up := fun k hk => by
    obtain ⟨a, ha⟩ := outLinks_registered h2 g1 k hk
    exact hi.reg k a ha
  refine ⟨links, ?_, g2, g3, fun k hk => (hi.up k).mp (hu k hk)⟩
  rw [exec_append]
  show ((new.exec h).loop l ((new.exec h).pending l ++ [.wire dst x])).out = _
  rw [hi.pend]
  simp only [List.nil_append, loop, handle, g1, writeAll_ok _ _ _ hu]
  rfl

/-- C27. It does not matter whether packets come in one chunk or in several. -/
theorem C27_batching (h : List Ev) (l : Nat) (ps qs : List SPkt) (g : List Ev)
    (hd : DataWhenUp (h ++ .data l (ps ++ qs) :: g)) (hc : Calm (h ++ .data l (ps ++ qs) :: g)) :
    new.exec (h ++ .data l (ps ++ qs) :: g) = new.exec (h ++ .data l ps :: .data l qs :: g) := by
  have hi := ninv h (fun b k ps' a he => hd b k ps' (a ++ .data l (ps ++ qs) :: g) (by rw [he]; simp))
    (fun k ps' d x h1 h2 => hc k ps' d x (by simp [h1]) h2)
  have hl : l ∈ (new.exec h).up := (hi.up l).mpr (hd h l _ g rfl)
  have hp : ∀ d x, .wire d x ∈ ps ++ qs → (∃ a, blockFromString d = .ok a) ∨ ¬ BlockText d :=
    fun d x hm => hc l (ps ++ qs) d x (by simp) hm
  rw [exec_append, exec_append]
  show ((new.exec h).loop l ((new.exec h).pending l ++ (ps ++ qs))).exec g =
    (((new.exec h).loop l ((new.exec h).pending l ++ ps)).step (.data l qs)).exec g
  congr 1
  rw [hi.pend]
  simp only [List.nil_append, step]
  have hq := loop_ok (n := new.exec h) ⟨hi.sw, hi.reg⟩ l hl ps (fun d x hm => hp d x (by simp [hm]))
  rw [hq.2.1 l, if_pos rfl, List.nil_append]
  have gen : ∀ (ps : List SPkt) (ops : List Op) (n : SwNet), LInv ops n → l ∈ n.up → n.pending l = [] →
      (∀ d x, .wire d x ∈ ps → (∃ a, blockFromString d = .ok a) ∨ ¬ BlockText d) →
      n.loop l (ps ++ qs) = (n.loop l ps).loop l qs := by
    intro ps
    induction ps with
    | nil =>
      intro ops n hi hl hpd _
      simp only [List.nil_append, loop]
      congr 1
      have e : (fun k => if k = l then [] else n.pending k) = n.pending := by
        funext k
        split
        · next e => rw [e, hpd]
        · rfl
      unfold setPending
      rw [e]
    | cons p ps ih =>
      intro ops n hi hl hpd hp
      obtain ⟨n', g1, g2, g3, g4⟩ := handle_ok hi l hl p (fun d x h => hp d x (by simp [h]))
      simp only [List.cons_append, loop, g1]
      exact ih _ n' g4 (by rw [g2]; exact hl) (by rw [g3]; exact hpd) (fun d x h => hp d x (by simp [h]))
  exact gen ps _ _ ⟨hi.sw, hi.reg⟩ hl (hi.pend l) (fun d x hm => hp d x (by simp [hm]))

/-- A history meeting the hypotheses, in which something is forwarded. -/
def exHist : List Ev := [.connectionMade 1, .connectionMade 2, .data 1 [.announce "20.1.1.1".toList],
  .data 2 [.announce "20.1.*.*".toList, .wire "20.1.1.1".toList 5]]
example : (new.exec exHist).out = [(1, .wire "20.1.1.1".toList 5), (2, .wire "20.1.1.1".toList 5)] := by decide +kernel
theorem exHist_ok : DataWhenUp exHist ∧ Calm exHist := by
  constructor
  · intro b l ps a he
    unfold exHist at he
    rcases b with _ | ⟨b1, _ | ⟨b2, _ | ⟨b3, _ | ⟨b4, b⟩⟩⟩⟩ <;> simp at he
    · obtain ⟨rfl, rfl, ⟨rfl, rfl⟩, rfl⟩ := he
      exact ⟨[], [.connectionMade 2], rfl, by simp⟩
    · obtain ⟨rfl, rfl, rfl, ⟨rfl, rfl⟩, rfl⟩ := he
      exact ⟨[.connectionMade 1], _, rfl, by simp⟩
  · intro l ps d x h1 h2
    simp [exHist] at h1
    rcases h1 with ⟨rfl, rfl⟩ | ⟨rfl, rfl⟩
    · simp at h2
    · simp at h2
      obtain ⟨rfl, rfl⟩ := h2
      exact .inl ⟨addr 20 1 1 1, rfl⟩

/-- C28. A packet to a string that has not the form of an address goes nowhere and changes nothing, in any state. -/
theorem C28_net_ignored_partial (n : SwNet) (l x : Nat) (dst : Str) (h : ¬ BlockText dst) :
    n.handle l (.wire dst x) = (n, none) ∧ n.handle l (.announce dst) = (n, none) := by
  obtain ⟨h1, h2⟩ := C28_ignored_partial n.switch dst h l
  unfold handle; dsimp only
  rw [h1, h2]
  exact ⟨rfl, rfl⟩

/-- The exception for an address with a negative part ends the processing of the chunk: the announcement after it takes effect only
when more data arrives. -/
theorem C28_false_postponed :
    (new.exec [.connectionMade 1, .data 1 [.wire "-1.1.1.1".toList 0, .announce "20.1.1.1".toList]]).switch = .new ∧
    (new.exec [.connectionMade 1, .data 1 [.wire "-1.1.1.1".toList 0, .announce "20.1.1.1".toList], .data 1 []]).switch ≠ .new := by
  decide +kernel

end Verif.SwNet
