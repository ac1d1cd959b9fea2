import Verif.Lemmas.Pnms
/-! # Lemmas about the arguments of `pnetworking add` -/
namespace Verif.Pnms
open Verif.Dict

theorem ifaceArgs_iff : ∀ (args : List Str) (auto b : Bool), ifaceArgs auto args = some b ↔
    ∃ k, args = List.replicate k "manual".toList ∧ b = if k = 0 then auto else false
  | [], auto, b => by
    constructor
    · intro h; exact ⟨0, rfl, by cases h; rfl⟩
    · rintro ⟨k, h, rfl⟩
      cases k with
      | zero => rfl
      | succ k => cases h
  | a :: as, auto, b => by
    rw [ifaceArgs]
    split
    · next ha =>
      rw [ifaceArgs_iff as false b]
      constructor
      · rintro ⟨k, h1, h2⟩
        refine ⟨k + 1, by rw [List.replicate_succ, ha, h1], ?_⟩
        rw [h2]; split <;> simp
      · rintro ⟨k, h1, h2⟩
        cases k with
        | zero => cases h1
        | succ k =>
          rw [List.replicate_succ] at h1
          exact ⟨k, (List.cons.inj h1).2, by rw [h2]; simp⟩
    · next ha =>
      constructor
      · intro h; cases h
      · rintro ⟨k, h1, _⟩
        cases k with
        | zero => cases h1
        | succ k =>
          rw [List.replicate_succ] at h1
          exact absurd (List.cons.inj h1).1 ha

/-- The variables describe the place. -/
structure VP (v : ApVars) (p : Place) : Prop where
  kind : v.connType = p.kind
  host : ∀ h, p.host = some h → v.connAddress = some h
  port : ∀ q, p.port = some q → v.connPort = some q

theorem apArgs_cons (v : ApVars) (a : Str) (as : List Str) : apArgs v (a :: as) =
    if a = "manual".toList then apArgs { v with auto := false } as
    else if a = "auto-enable".toList then apArgs { v with auto := true } as
    else if a = "managed".toList then apArgs { v with connType := a } as
    else if a = "remote".toList then (match as with
      | h :: p :: as' => apArgs { v with connType := a, connAddress := some h, connPort := some p } as'
      | _ => none)
    else if a = "local".toList ∨ a = "public".toList then (match as with
      | p :: as' => apArgs { v with connType := a, connPort := some p } as'
      | _ => none)
    else none := by
  rw [apArgs.eq_def]; rfl

theorem apArgs_words : ∀ (opts : List Opt) (v : ApVars) (p : Place), VP v p →
    ∃ v', apArgs v (opts.flatMap Opt.words) = some v' ∧ v'.auto = autoOf v.auto opts ∧ VP v' (placeOf p opts)
  | [], v, p, h => ⟨v, rfl, rfl, h⟩
  | .manual :: opts, v, p, h => by
    obtain ⟨v', g1, g2, g3⟩ := apArgs_words opts { v with auto := false } p ⟨h.kind, h.host, h.port⟩
    exact ⟨v', by rw [List.flatMap_cons]; simp only [Opt.words, List.cons_append, List.nil_append]; rw [apArgs_cons, if_pos rfl]; exact g1, g2, g3⟩
  | .auto :: opts, v, p, h => by
    obtain ⟨v', g1, g2, g3⟩ := apArgs_words opts { v with auto := true } p ⟨h.kind, h.host, h.port⟩
    exact ⟨v', by
      rw [List.flatMap_cons]; simp only [Opt.words, List.cons_append, List.nil_append]
      rw [apArgs_cons, if_neg (by decide +kernel), if_pos rfl]; exact g1, g2, g3⟩
  | .place .managed :: opts, v, p, h => by
    obtain ⟨v', g1, g2, g3⟩ := apArgs_words opts { v with connType := "managed".toList } .managed ⟨rfl, by simp [Place.host], by simp [Place.port]⟩
    exact ⟨v', by
      rw [List.flatMap_cons]; simp only [Opt.words, List.cons_append, List.nil_append]
      rw [apArgs_cons, if_neg (by decide +kernel), if_neg (by decide +kernel), if_pos rfl]; exact g1, g2, g3⟩
  | .place (.loc q) :: opts, v, p, h => by
    obtain ⟨v', g1, g2, g3⟩ := apArgs_words opts { v with connType := "local".toList, connPort := some q } (.loc q) ⟨rfl, by simp [Place.host], by simp [Place.port]⟩
    exact ⟨v', by
      rw [List.flatMap_cons]; simp only [Opt.words, List.cons_append, List.nil_append]
      rw [apArgs_cons, if_neg (by decide +kernel), if_neg (by decide +kernel), if_neg (by decide +kernel), if_neg (by decide +kernel), if_pos (.inl rfl)]; exact g1, g2, g3⟩
  | .place (.pub q) :: opts, v, p, h => by
    obtain ⟨v', g1, g2, g3⟩ := apArgs_words opts { v with connType := "public".toList, connPort := some q } (.pub q) ⟨rfl, by simp [Place.host], by simp [Place.port]⟩
    exact ⟨v', by
      rw [List.flatMap_cons]; simp only [Opt.words, List.cons_append, List.nil_append]
      rw [apArgs_cons, if_neg (by decide +kernel), if_neg (by decide +kernel), if_neg (by decide +kernel), if_neg (by decide +kernel), if_pos (.inr rfl)]; exact g1, g2, g3⟩
  | .place (.remote a q) :: opts, v, p, h => by
    obtain ⟨v', g1, g2, g3⟩ := apArgs_words opts { v with connType := "remote".toList, connAddress := some a, connPort := some q } (.remote a q)
      ⟨rfl, by simp [Place.host], by simp [Place.port]⟩
    exact ⟨v', by
      rw [List.flatMap_cons]; simp only [Opt.words, List.cons_append, List.nil_append]
      rw [apArgs_cons, if_neg (by decide +kernel), if_neg (by decide +kernel), if_neg (by decide +kernel), if_pos rfl]; exact g1, g2, g3⟩

theorem apArgs_parses : ∀ (k : Nat) (args : List Str) (v v' : ApVars), args.length ≤ k → apArgs v args = some v' → ∃ opts : List Opt, args = opts.flatMap Opt.words
  | _, [], v, v', _, _ => ⟨[], rfl⟩
  | 0, a :: as, v, v', h, _ => by simp at h
  | k + 1, a :: as, v, v', h, he => by
    have hl : as.length ≤ k := by simpa using h
    rw [apArgs_cons] at he
    split at he
    · next ha =>
      obtain ⟨o, rfl⟩ := apArgs_parses k as _ _ hl he
      exact ⟨.manual :: o, by rw [ha]; rfl⟩
    · split at he
      · next ha =>
        obtain ⟨o, rfl⟩ := apArgs_parses k as _ _ hl he
        exact ⟨.auto :: o, by rw [ha]; rfl⟩
      · split at he
        · next ha =>
          obtain ⟨o, rfl⟩ := apArgs_parses k as _ _ hl he
          exact ⟨.place .managed :: o, by rw [ha]; rfl⟩
        · split at he
          · next ha =>
            match as, hl, he with
            | q :: p :: as', hl, he =>
              obtain ⟨o, rfl⟩ := apArgs_parses k as' _ _ (by simp at hl; omega) he
              exact ⟨.place (.remote q p) :: o, by rw [ha]; rfl⟩
          · split at he
            · next ha =>
              match as, hl, he with
              | p :: as', hl, he =>
                obtain ⟨o, rfl⟩ := apArgs_parses k as' _ _ (by simp at hl; omega) he
                rcases ha with ha | ha
                · exact ⟨.place (.loc p) :: o, by rw [ha]; rfl⟩
                · exact ⟨.place (.pub p) :: o, by rw [ha]; rfl⟩
            · cases he

theorem initAp_some {v : ApVars} {p : Place} (h : VP v p) {args : List Str} (ha : apArgs ⟨true, "managed".toList, none, none⟩ args = some v) (u : Bool) :
    ∃ d, initAp args = some d ∧ (Settings.ap u v.auto p).Shown d := by
  have hk := h.kind
  cases p with
  | managed =>
    refine ⟨[(optAuto, truth v.auto), (optType, "managed".toList)], ?_, ?_⟩
    · simp only [initAp, ha, hk, Place.kind, if_true]
    · refine ⟨rfl, (fun a b e => by cases e), ?_⟩
      intro u b p e
      cases e
      exact ⟨rfl, rfl, rfl⟩
  | loc q =>
    refine ⟨[(optAuto, truth v.auto), (optType, "local".toList), (optPort, q)], ?_, ?_⟩
    · have := h.port q rfl
      simp only [initAp, ha, hk, Place.kind, this]
      rw [if_neg (by decide +kernel), if_neg (by decide +kernel)]
    · refine ⟨rfl, (fun a b e => by cases e), ?_⟩
      intro u b p e
      cases e
      exact ⟨rfl, rfl, rfl⟩
  | pub q =>
    refine ⟨[(optAuto, truth v.auto), (optType, "public".toList), (optPort, q)], ?_, ?_⟩
    · have := h.port q rfl
      simp only [initAp, ha, hk, Place.kind, this]
      rw [if_neg (by decide +kernel), if_neg (by decide +kernel)]
    · refine ⟨rfl, (fun a b e => by cases e), ?_⟩
      intro u b p e
      cases e
      exact ⟨rfl, rfl, rfl⟩
  | remote a q =>
    refine ⟨[(optAuto, truth v.auto), (optType, "remote".toList), (optTcpAddress, a), (optPort, q)], ?_, ?_⟩
    · have h1 := h.port q rfl
      have h2 := h.host a rfl
      simp only [initAp, ha, hk, Place.kind, h1, h2]
      rw [if_neg (by decide +kernel), if_pos trivial]
    · refine ⟨rfl, (fun a b e => by cases e), ?_⟩
      intro u b p e
      cases e
      exact ⟨rfl, rfl, rfl⟩

theorem describes_some {t : Str} {args : List Str} {s : Settings} (h : Describes t args s) : ∃ d, initOptions t args = some d ∧ s.Shown d ∧ s.type = t := by
  cases h with
  | vnic address k =>
    have := (ifaceArgs_iff (List.replicate k "manual".toList) true (if k = 0 then true else false)).mpr ⟨k, rfl, rfl⟩
    refine ⟨[(optAddress, address), (optAuto, truth (decide (k = 0)))], ?_, ⟨rfl, ?_, ?_⟩, rfl⟩
    · rw [initOptions, if_pos (by decide +kernel), initIface, this]
      by_cases hk : k = 0 <;> simp [hk]
    · intro a b e
      cases e
      rfl
    · intro u b p e
      cases e
  | switch opts =>
    obtain ⟨v, g1, g2, g3⟩ := apArgs_words opts ⟨true, "managed".toList, none, none⟩ .managed ⟨rfl, by simp [Place.host], by simp [Place.port]⟩
    obtain ⟨d, d1, d2⟩ := initAp_some g3 g1 false
    refine ⟨d, ?_, ?_, rfl⟩
    · rw [initOptions, if_neg (by decide +kernel)]; exact d1
    · rw [← g2]; exact d2
  | unreliable opts =>
    obtain ⟨v, g1, g2, g3⟩ := apArgs_words opts ⟨true, "managed".toList, none, none⟩ .managed ⟨rfl, by simp [Place.host], by simp [Place.port]⟩
    obtain ⟨d, d1, d2⟩ := initAp_some g3 g1 true
    refine ⟨d, ?_, ?_, rfl⟩
    · rw [initOptions, if_neg (by decide +kernel)]; exact d1
    · rw [← g2]; exact d2

theorem some_describes {t : Str} {args : List Str} {d : Dict Str Str} (ht : t ∈ types) (h : initOptions t args = some d) : ∃ s, Describes t args s := by
  rw [types_iff] at ht
  by_cases hv : t = vnic
  · subst hv
    rw [initOptions, if_pos isIface_vnic] at h
    cases args with
    | nil => cases h
    | cons a as =>
      rw [initIface] at h
      cases hi : ifaceArgs true as with
      | none => rw [hi] at h; cases h
      | some b =>
        obtain ⟨k, rfl, _⟩ := (ifaceArgs_iff _ _ _).mp hi
        exact ⟨_, .vnic a k⟩
  · have : isIface t = false := by simp [isIface, hv]
    rw [initOptions, this] at h
    simp only [Bool.false_eq_true, if_false] at h
    cases ha : apArgs ⟨true, "managed".toList, none, none⟩ args with
    | none => simp only [initAp, ha] at h; cases h
    | some v =>
      obtain ⟨o, rfl⟩ := apArgs_parses args.length args _ _ (Nat.le_refl _) ha
      rcases ht with ht | ht | ht
      · exact absurd ht hv
      · rw [ht]; exact ⟨_, .switch o⟩
      · rw [ht]; exact ⟨_, .unreliable o⟩

theorem Place.eq_of {p q : Place} (h1 : p.kind = q.kind) (h2 : p.host = q.host) (h3 : p.port = q.port) : p = q := by
  cases p <;> cases q <;> first | rfl | exact absurd h1 (by simp only [Place.kind]; decide +kernel) | (simp only [Place.host, Place.port, Option.some.injEq] at h2 h3; subst_vars; rfl)

theorem type_iface (a : Str) (b : Bool) : (Settings.iface a b).type = vnic := rfl
theorem type_ap (u b : Bool) (p : Place) : (Settings.ap u b p).type = if u then unreliableSwitch else switch := by cases u <;> rfl
theorem vnic_ne_ap (u : Bool) : vnic ≠ if u then unreliableSwitch else switch := by cases u <;> decide +kernel
theorem ap_inj {u u' : Bool} (h : (if u then unreliableSwitch else switch) = if u' then unreliableSwitch else switch) : u = u' := by
  revert h; revert u u'; decide +kernel

theorem Settings.Shown.unique {s s' : Settings} {d : Dict Str Str} (h : s.Shown d) (h' : s'.Shown d) (ht : s.type = s'.type) : s = s' := by
  have ha : s.auto = s'.auto := by
    have := h.auto.symm.trans h'.auto
    cases h1 : s.auto <;> cases h2 : s'.auto <;> rw [h1, h2] at this <;> first | rfl | (exfalso; revert this; decide +kernel)
  cases s with
  | iface a b => cases s' with
    | iface a' b' =>
      have h2 : a = a' := Option.some.inj ((h.iface a b rfl).symm.trans (h'.iface a' b' rfl))
      have h3 : b = b' := ha
      rw [h2, h3]
    | ap u b' p => rw [type_iface, type_ap] at ht; exact absurd ht (vnic_ne_ap u)
  | ap u b p => cases s' with
    | iface a' b' => rw [type_iface, type_ap] at ht; exact absurd ht.symm (vnic_ne_ap u)
    | ap u' b' p' =>
      have hu : u = u' := by rw [type_ap, type_ap] at ht; exact ap_inj ht
      obtain ⟨x1, x2, x3⟩ := h.ap u b p rfl
      obtain ⟨y1, y2, y3⟩ := h'.ap u' b' p' rfl
      have hp : p = p' := Place.eq_of (Option.some.inj (x1.symm.trans y1)) (x2.symm.trans y2) (x3.symm.trans y3)
      have h3 : b = b' := ha
      rw [hu, hp, h3]

/-- The arguments determine the device. -/
theorem Describes.unique {t : Str} {args : List Str} {s s' : Settings} (h : Describes t args s) (h' : Describes t args s') : s = s' := by
  obtain ⟨d, d1, d2, d3⟩ := describes_some h
  obtain ⟨d', e1, e2, e3⟩ := describes_some h'
  rw [d1] at e1
  cases e1
  exact d2.unique e2 (d3.trans e3.symm)

theorem Settings.type_mem (s : Settings) : s.type ∈ types := by
  cases s with
  | iface a b => rw [type_iface, types_iff]; exact .inl rfl
  | ap u b p => rw [type_ap, types_iff]; cases u <;> simp

end Verif.Pnms
