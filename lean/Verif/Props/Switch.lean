import Verif.Lemmas.Switch
/-! # C27, C28: the switch -/
namespace Verif
open Addr Switch

/-- No history makes the switch raise. -/
theorem C27_no_error (h : List Op) : ∃ s, new.exec h = .ok s := by
  obtain ⟨s, h1, _⟩ := exec_spec h
  exact ⟨s, h1⟩

theorem enclosing_str (z n d i : Nat) : (ancestors 5 (addr z n d i)).map Addr.str = enclosing z n d i := by
  rw [ancestors_addr]
  have : ∀ k : Nat, APart.str (.num k) = dec k := by
    intro k; simp [APart.str, intStr, dec]
  simp only [List.map_cons, List.map_nil, str_dotted, this, enclosing]
  rfl

/-- C27. After any history of registrations and unregistrations, a packet whose destination string denotes the
address `z.n.d.i` goes to exactly the links whose most recent valid registration (not unregistered since) is the
string of the address or of one of the four blocks enclosing it; each of them gets it once. -/
theorem C27_links (h : List Op) (s : Switch) (hs : new.exec h = .ok s) (dst : Str) (z n d i : Nat)
    (hd : ∃ a b c e, dst = dotted a b c e ∧ DenotesNum a (.num z) ∧ DenotesNum b (.num n) ∧ DenotesNum c (.num d) ∧
      DenotesNum e (.num i)) :
    ∃ links, s.getOutboundLinks dst = .ok links ∧ links.Nodup ∧
      ∀ l, l ∈ links ↔ ∃ a ∈ enclosing z n d i, RegisteredAs h l a := by
  obtain ⟨s', h1, h2, h3⟩ := exec_spec h
  rw [hs] at h1; cases h1
  obtain ⟨a, b, c, e, rfl, d1, d2, d3, d4⟩ := hd
  have hf : blockFromString (dotted a b c e) = .ok (addr z n d i) :=
    (C25_block_accepts_iff _ _).mpr ⟨a, b, c, e, rfl, .inr d1, .inr d2, .inr d3, .inr d4⟩
  have hv : isValidBlockString (dotted a b c e) = true := by
    unfold blockFromString at hf
    unfold isValidBlockString
    split at hf
    · cases hf
    · next hp => rw [hp]; rfl
  unfold getOutboundLinks
  rw [if_pos hv, hf]
  refine ⟨_, rfl, outLoop_nodup _ _ _ _ List.nodup_nil, fun l => ?_⟩
  rw [outLoop_mem, ← enclosing_str]
  simp only [List.not_mem_nil, false_or, List.mem_map]
  constructor
  · rintro ⟨b, hb, m, hm, hl⟩
    exact ⟨b.str, ⟨b, hb, rfl⟩, (h3 _ _).mp ((h2.agree _ _).mpr ⟨m, hm, hl⟩)⟩
  · rintro ⟨_, ⟨b, hb, rfl⟩, hr⟩
    obtain ⟨m, hm, hl⟩ := (h2.agree _ _).mp ((h3 _ _).mpr hr)
    exact ⟨b, hb, m, hm, hl⟩

/-- The same for any destination the switch can read, in particular blocks: the links registered under the
string of the block, or of one of the blocks met going up from it. -/
theorem C27_links_block (h : List Op) (s : Switch) (hs : new.exec h = .ok s) (dst : Str) (a : Addr)
    (hd : blockFromString dst = .ok a) :
    ∃ links, s.getOutboundLinks dst = .ok links ∧ links.Nodup ∧
      ∀ l, l ∈ links ↔ ∃ b ∈ ancestors 5 a, RegisteredAs h l b.str := by
  obtain ⟨s', h1, h2, h3⟩ := exec_spec h
  rw [hs] at h1; cases h1
  have hv : isValidBlockString dst = true := by
    unfold blockFromString at hd
    unfold isValidBlockString
    split at hd
    · cases hd
    · next hp => rw [hp]; rfl
  unfold getOutboundLinks
  rw [if_pos hv, hd]
  refine ⟨_, rfl, outLoop_nodup _ _ _ _ List.nodup_nil, fun l => ?_⟩
  rw [outLoop_mem]
  simp only [List.not_mem_nil, false_or]
  constructor
  · rintro ⟨b, hb, m, hm, hl⟩
    exact ⟨b, hb, (h3 _ _).mp ((h2.agree _ _).mpr ⟨m, hm, hl⟩)⟩
  · rintro ⟨b, hb, hr⟩
    obtain ⟨m, hm, hl⟩ := (h2.agree _ _).mp ((h3 _ _).mpr hr)
    exact ⟨b, hb, m, hm, hl⟩

/-- The bound on the number of turns in the model of the loop is harmless: any larger bound gives the same. -/
theorem C27_fuel (s : Switch) (a : Addr) (n : Nat) (acc : List Nat) : s.outLoop (n + 5) a acc = s.outLoop 5 a acc := by
  have h : a.specified.length < 5 := by
    have := List.Sublist.length_le (List.takeWhile_sublist (l := a.parts) (fun p => decide (p ≠ .star)))
    have h4 : a.parts.length = 4 := rfl
    unfold specified
    omega
  rw [outLoop_fuel s (n + 5) a acc (by omega), outLoop_fuel s 5 a acc h]

/-- A registration that is valid but not written in the usual form never gets anything. -/
theorem C27_false_noncanonical : ∃ s, new.exec [.register "01.1.1.1".toList 7] = .ok s ∧
    s.getOutboundLinks "1.1.1.1".toList = .ok [] ∧ s.getOutboundLinks "01.1.1.1".toList = .ok [] ∧
    RegisteredAs [.register "01.1.1.1".toList 7] 7 "01.1.1.1".toList := by
  refine ⟨⟨[("01.1.1.1".toList, [7])], [(7, "01.1.1.1".toList)]⟩, by decide +kernel, by decide +kernel, by decide +kernel, ?_, [], [], rfl, by simp, by simp⟩
  exact (isValidBlockString_iff _).mp rfl

example : ∃ s, new.exec [.register "20.1.*.*".toList 1, .register "20.1.5.6".toList 2, .register "20.2.*.*".toList 3,
      .register "junk".toList 1, .register "*.*.*.*".toList 4, .unregister 4, .register "20.1.5.7".toList 2] = .ok s ∧
    s.getOutboundLinks "20.1.5.7".toList = .ok [2, 1] ∧ s.getOutboundLinks "20.1.5.6".toList = .ok [1] :=
  ⟨⟨[("20.1.*.*".toList, [1]), ("20.1.5.6".toList, []), ("20.2.*.*".toList, [3]), ("*.*.*.*".toList, []),
     ("20.1.5.7".toList, [2])], [(1, "20.1.*.*".toList), (3, "20.2.*.*".toList), (2, "20.1.5.7".toList)]⟩,
   by decide +kernel, by decide +kernel, by decide +kernel⟩

/-- C28. Registering a string that is not four parts, each `*` or an integer literal, changes nothing; a packet to
such a destination goes nowhere. For every state. -/
theorem C28_ignored_partial (s : Switch) (x : Str) (hx : ¬ BlockText x) (l : Nat) :
    s.registerLink x l = .ok s ∧ s.getOutboundLinks x = .ok [] := by
  have hv : ¬ isValidBlockString x = true := fun h => hx ((isValidBlockString_iff x).mp h)
  exact ⟨by unfold registerLink; rw [if_neg hv], by unfold getOutboundLinks; rw [if_neg hv]⟩

/-- C28, the other direction: a valid registration is always recorded. -/
theorem C28_valid_registered (h : List Op) (x : Str) (hx : BlockText x) (l : Nat) :
    RegisteredAs (h ++ [.register x l]) l x := ⟨hx, h, [], rfl, by simp, by simp⟩

example : ¬ BlockText "1.2.3".toList := fun h => by
  have := (isValidBlockString_iff _).mpr h
  exact absurd this (by decide)

/-- C28 is false for addresses with a negative part: such an address is invalid (no address object exists for it),
but it is registered, and a packet to it raises `InvalidPlaygroundAddress`. -/
theorem C28_false_negative (s : Switch) : s.getOutboundLinks "-1.1.1.1".toList = .error .invalidAddress ∧
    addressFromString "-1.1.1.1".toList = .error .invalid ∧ blockFromString "-1.1.1.1".toList = .error .invalid ∧
    new.registerLink "-1.1.1.1".toList 3 ≠ .ok new := by
  refine ⟨rfl, rfl, rfl, ?_⟩
  intro h
  have : (new.registerLink "-1.1.1.1".toList 3) = .ok ⟨[("-1.1.1.1".toList, [3])], [(3, "-1.1.1.1".toList)]⟩ := rfl
  rw [this] at h
  simp [new] at h

/-- C28. A destination makes the lookup raise exactly when it has the form of an address but is none (some part
is negative), whatever the switch. -/
theorem C28_raises_iff (s : Switch) (x : Str) : s.getOutboundLinks x = .error .invalidAddress ↔
    (BlockText x ∧ ∀ a, blockFromString x ≠ .ok a) := by
  unfold getOutboundLinks
  split
  · next hv =>
    have hv := (isValidBlockString_iff x).mp hv
    cases hb : blockFromString x with
    | error e => simp [hv]
    | ok a => simp
  · next hv =>
    have hv : ¬ BlockText x := fun h => hv ((isValidBlockString_iff x).mpr h)
    simp [hv]

end Verif
