import Verif.Model.Loader
import Verif.Lemmas.Dict
/-! # C103: the classes of devices -/
namespace Verif.Loader

/-- `x` is `a` or an ancestor of it. -/
def Above (s : St) (x a : Nat) : Prop := ∃ c, s.classes[a]? = some c ∧ x ∈ c.mro

theorem addRules_eq (x : Nat) : ∀ (l : List (Option Nat)) (rs : List (Nat × Nat)), ∃ t, (addRules x rs l).1 = rs ++ t ∧ (∀ r ∈ t, r.1 = x) ∧
    ((addRules x rs l).2 = false → ∀ y, (x, y) ∈ t ↔ some y ∈ l)
  | [], rs => ⟨[], by simp [addRules], by simp, by simp⟩
  | none :: l, rs => ⟨[], by simp [addRules], by simp, by simp [addRules]⟩
  | some y :: l, rs => by
    obtain ⟨t, h1, h2, h3⟩ := addRules_eq x l (rs ++ [(x, y)])
    refine ⟨(x, y) :: t, ?_, ?_, ?_⟩
    · rw [addRules, h1, List.append_assoc]; rfl
    · intro r hr
      rcases List.mem_cons.1 hr with rfl | hr
      · rfl
      · exact h2 r hr
    · intro h z
      have := h3 h z
      rw [List.mem_cons, List.mem_cons, this, Option.some.injEq, Prod.mk.injEq]
      constructor
      · rintro (⟨_, h⟩ | h)
        · exact .inl h
        · exact .inr h
      · rintro (h | h)
        · exact .inl ⟨rfl, h⟩
        · exact .inr h

structure Inv (s : St) : Prop where
  rng : ∀ r ∈ s.rules, r.1 < s.classes.length
  rrng : ∀ r ∈ s.routing, r < s.classes.length
  rules : ∀ (a : Nat) (c : Class), s.classes[a]? = some c → c.made = true → ∀ y, (a, y) ∈ s.rules ↔ some y ∈ c.connects
  routes : ∀ (a : Nat) (c : Class), s.classes[a]? = some c → c.made = true → (a ∈ s.routing ↔ c.routes = true)
  above : ∀ (a : Nat) (c : Class), s.classes[a]? = some c → ∀ x ∈ c.mro, x ≠ a → ∃ d, s.classes[x]? = some d ∧ d.made = true
  named : ∀ (a : Nat) (c : Class) (n : Str), s.classes[a]? = some c → c.made = true → c.typeName = some n → n ≠ [] → s.registered.get n = some a
  taken : ∀ n a, s.registered.get n = some a → ∃ c, s.classes[a]? = some c ∧ c.typeName = some n

theorem Inv.init : Inv .init := by
  have one : ∀ (a : Nat) (c : Class), St.init.classes[a]? = some c → a = 0 ∧ c = ⟨[0], none, [], false, true⟩ := by
    intro a c h
    match a, h with
    | 0, h => exact ⟨rfl, (Option.some.inj h).symm⟩
    | a + 1, h => simp [St.init] at h
  refine ⟨by simp [St.init], by simp [St.init], ?_, ?_, ?_, ?_, by simp [St.init]⟩
  · intro a c h _ y; obtain ⟨rfl, rfl⟩ := one a c h; simp [St.init]
  · intro a c h _; obtain ⟨rfl, rfl⟩ := one a c h; simp [St.init]
  · intro a c h x hx hn; obtain ⟨rfl, rfl⟩ := one a c h; simp at hx; exact absurd hx hn
  · intro a c n h _ ht; obtain ⟨rfl, rfl⟩ := one a c h; cases ht

theorem get_snoc (l : List Class) (c : Class) (a : Nat) (d : Class) (h : (l ++ [c])[a]? = some d) : l[a]? = some d ∨ (a = l.length ∧ d = c) := by
  rw [List.getElem?_append] at h
  split at h
  · exact .inl h
  · next hn =>
    have h' := List.getElem?_eq_some_iff.1 h
    obtain ⟨hlt, he⟩ := h'
    simp at hlt
    have : a = l.length := by omega
    subst this
    simp at he
    exact .inr ⟨rfl, he.symm⟩

theorem lt_of_get {l : List Class} {a : Nat} {c : Class} (h : l[a]? = some c) : a < l.length := (List.getElem?_eq_some_iff.1 h).1

theorem keep {l : List Class} {a : Nat} {c : Class} (h : l[a]? = some c) (d : Class) : (l ++ [d])[a]? = some c := by
  rw [List.getElem?_append_left (lt_of_get h), h]

/-- What holds after a class was added, whether it is made or not. -/
theorem Inv.add {s : St} (hi : Inv s) (x : Nat) (base : Class) (hb : s.classes[x]? = some base) (hbm : base.made = true) (c : Class) (hm : c.mro = s.classes.length :: base.mro)
    (reg : Dict Str Nat) (rs t : List (Nat × Nat)) (hrs : rs = s.rules ++ t) (ht : ∀ r ∈ t, r.1 = s.classes.length)
    (ro : List Nat) (hro : ∀ r ∈ ro, r ∈ s.routing ∨ r = s.classes.length) (hro' : ∀ r ∈ s.routing, r ∈ ro)
    (hreg : reg = s.registered ∨ ∃ n, n ≠ [] ∧ s.registered.get n = none ∧ c.typeName = some n ∧ reg = s.registered.set n s.classes.length)
    (hmade : c.made = true → (∀ y, (s.classes.length, y) ∈ t ↔ some y ∈ c.connects) ∧ (s.classes.length ∈ ro ↔ c.routes = true) ∧
      ∀ n, c.typeName = some n → n ≠ [] → reg.get n = some s.classes.length) :
    Inv ⟨s.classes ++ [c], reg, rs, ro⟩ := by
  refine ⟨?_, ?_, ?_, ?_, ?_, ?_, ?_⟩
  · intro r hr
    show r.1 < (s.classes ++ [c]).length
    rw [List.length_append]
    rw [hrs] at hr
    rcases List.mem_append.1 hr with hr | hr
    · have := hi.rng r hr; simp; omega
    · rw [ht r hr]; simp
  · intro r hr
    show r < (s.classes ++ [c]).length
    rw [List.length_append]
    rcases hro r hr with hr | hr
    · have := hi.rrng r hr; simp; omega
    · rw [hr]; simp
  · intro a d h hd y
    show (a, y) ∈ rs ↔ _
    rw [hrs, List.mem_append]
    rcases get_snoc _ _ _ _ h with h | ⟨rfl, rfl⟩
    · have hlt := lt_of_get h
      rw [hi.rules a d h hd y]
      constructor
      · rintro (h | h)
        · exact h
        · have := ht _ h; simp at this; omega
      · exact .inl
    · rw [(hmade hd).1 y |>.symm]
      constructor
      · rintro (h | h)
        · have := hi.rng _ h; simp at this
        · exact h
      · exact .inr
  · intro a d h hd
    show a ∈ ro ↔ _
    rcases get_snoc _ _ _ _ h with h | ⟨rfl, rfl⟩
    · have hlt := lt_of_get h
      rw [← hi.routes a d h hd]
      constructor
      · intro h
        rcases hro a h with h | h
        · exact h
        · omega
      · exact hro' a
    · exact (hmade hd).2.1
  · intro a d h z hz hn
    show ∃ e, (s.classes ++ [c])[z]? = some e ∧ _
    rcases get_snoc _ _ _ _ h with h | ⟨rfl, rfl⟩
    · obtain ⟨e, he, hem⟩ := hi.above a d h z hz hn
      exact ⟨e, keep he c, hem⟩
    · rw [hm] at hz
      rcases List.mem_cons.1 hz with rfl | hz
      · exact absurd rfl hn
      · by_cases hzx : z = x
        · subst hzx; exact ⟨base, keep hb d, hbm⟩
        · obtain ⟨e, he, hem⟩ := hi.above x base hb z hz hzx
          exact ⟨e, keep he d, hem⟩
  · intro a d n h hd hdn hne
    show reg.get n = some a
    rcases get_snoc _ _ _ _ h with h | ⟨rfl, rfl⟩
    · have h0 := hi.named a d n h hd hdn hne
      rcases hreg with rfl | ⟨m, _, hmn, _, rfl⟩
      · exact h0
      · have : m ≠ n := fun e => by rw [e, h0] at hmn; cases hmn
        rw [Dict.get_set_ne _ _ this]
        exact h0
    · exact (hmade hd).2.2 n hdn hne
  · intro n a h
    have h : reg.get n = some a := h
    show ∃ e, (s.classes ++ [c])[a]? = some e ∧ _
    have old : s.registered.get n = some a → ∃ e, (s.classes ++ [c])[a]? = some e ∧ e.typeName = some n := fun h => by
      obtain ⟨e, he, hen⟩ := hi.taken n a h
      exact ⟨e, keep he c, hen⟩
    rcases hreg with rfl | ⟨m, _, hmn, hcn, rfl⟩
    · exact old h
    · by_cases hmn' : m = n
      · subst hmn'
        rw [Dict.get_set_self] at h
        cases h
        exact ⟨c, by simp, hcn⟩
      · rw [Dict.get_set_ne _ _ hmn'] at h
        exact old h

theorem Inv.finish {s : St} (hi : Inv s) (x : Nat) (base : Class) (hb : s.classes[x]? = some base) (hbm : base.made = true) (c : Class)
    (hm : c.mro = s.classes.length :: base.mro) (reg : Dict Str Nat)
    (hreg : reg = s.registered ∨ ∃ n, n ≠ [] ∧ s.registered.get n = none ∧ c.typeName = some n ∧ reg = s.registered.set n s.classes.length)
    (hn : ∀ n, c.typeName = some n → n ≠ [] → reg.get n = some s.classes.length) : Inv (Loader.finish s c reg).1 := by
  obtain ⟨t, h1, h2, h3⟩ := addRules_eq s.classes.length c.connects s.rules
  unfold Loader.finish
  cases ha : addRules s.classes.length s.rules c.connects with
  | mk rs raised =>
    rw [ha] at h1 h3
    cases raised with
    | true => exact hi.add x base hb hbm { c with made := false } hm reg rs t h1 h2 s.routing (fun r h => .inl h) (fun _ h => h) hreg (fun h => by cases h)
    | false =>
      dsimp only
      refine hi.add x base hb hbm c hm reg rs t h1 h2 _ ?_ ?_ hreg fun _ => ⟨h3 rfl, ?_, hn⟩
      · intro r hr
        split at hr
        · rcases List.mem_append.1 hr with hr | hr
          · exact .inl hr
          · exact .inr (by simpa using hr)
        · exact .inl hr
      · intro r hr
        split
        · exact List.mem_append_left _ hr
        · exact hr
      · have hnot : s.classes.length ∉ s.routing := fun h => absurd (hi.rrng _ h) (Nat.lt_irrefl _)
        cases hr : c.routes with
        | true => simp [hnot]
        | false => simp [hnot]

theorem Inv.define {s : St} (hi : Inv s) (b : Body) : Inv (Loader.define s b).1 := by
  unfold Loader.define
  cases hb : s.classes[b.base]? with
  | none => exact hi
  | some base =>
    dsimp only
    split
    · next hbm =>
      have hm : (inherit s.classes.length base b).mro = s.classes.length :: base.mro := rfl
      cases hc : (inherit s.classes.length base b).typeName with
      | none => exact hi.finish _ base hb hbm _ hm _ (.inl rfl) fun n h => by rw [hc] at h; cases h
      | some n =>
        dsimp only
        split
        · next hne =>
          refine hi.finish _ base hb hbm _ hm _ (.inl rfl) fun m h hmne => ?_
          rw [hc] at h
          cases h
          exact absurd hne hmne
        · next hne =>
          split
          · rw [← hc]
            exact hi.add _ base hb hbm { inherit s.classes.length base b with made := false } hm s.registered s.rules [] (by simp) (by simp) s.routing (fun r h => .inl h)
                (fun _ h => h) (.inl rfl) (fun h => by cases h)
          · next hnot =>
            have hnone : s.registered.get n = none := by
              cases h : s.registered.get n with
              | none => rfl
              | some v => simp [Dict.has, h] at hnot
            refine hi.finish _ base hb hbm _ hm _ (.inr ⟨n, hne, hnone, hc, rfl⟩) fun m h hmne => ?_
            rw [hc] at h; cases h
            exact Dict.get_set_self ..
    · exact hi

theorem Inv.exec : ∀ (h : List Body) {s : St}, Inv s → Inv (Loader.exec s h)
  | [], _, hi => hi
  | b :: h, _, hi => Inv.exec h (hi.define b)

theorem isInstance_iff (s : St) (a x : Nat) : isInstance s a x = true ↔ Above s x a := by
  unfold isInstance Above
  cases s.classes[a]? <;> simp

/-- A class above a made one is made. -/
theorem Inv.madeAbove {s : St} (hi : Inv s) {a x : Nat} {c : Class} (ha : s.classes[a]? = some c) (hm : c.made = true) (hx : x ∈ c.mro) :
    ∃ d, s.classes[x]? = some d ∧ d.made = true := by
  by_cases h : x = a
  · subst h; exact ⟨c, ha, hm⟩
  · exact hi.above a c ha x hx h

/-- C103. A device may be connected to another one exactly when its class, or a class above it, lists a class of the other one in `CanConnectTo`. -/
theorem C103_permitted_partial (h : List Body) (a b : Nat) (c : Class) (ha : (exec .init h).classes[a]? = some c) (hm : c.made = true) :
    permitted (exec .init h) a b = true ↔ ∃ x d y, x ∈ c.mro ∧ (exec .init h).classes[x]? = some d ∧ some y ∈ d.connects ∧ Above (exec .init h) y b := by
  have hi : Inv (exec .init h) := .exec h .init
  unfold permitted
  rw [List.any_eq_true]
  simp only [Bool.and_eq_true, isInstance_iff]
  constructor
  · rintro ⟨⟨x, y⟩, hr, ⟨c', hc', hx⟩, hy⟩
    rw [ha] at hc'; cases hc'
    obtain ⟨d, hd, hdm⟩ := hi.madeAbove ha hm hx
    exact ⟨x, d, y, hx, hd, (hi.rules x d hd hdm y).1 hr, hy⟩
  · rintro ⟨x, d, y, hx, hd, hy, hab⟩
    obtain ⟨d', hd', hdm⟩ := hi.madeAbove ha hm hx
    rw [hd] at hd'; cases hd'
    exact ⟨(x, y), (hi.rules x d hd hdm y).2 hy, ⟨c, ha, hx⟩, hab⟩

/-- C103. A device may have routes exactly when its class, or a class above it, has `CanRoute`. -/
theorem C103_routes_partial (h : List Body) (a : Nat) (c : Class) (ha : (exec .init h).classes[a]? = some c) (hm : c.made = true) :
    mayRoute (exec .init h) a = true ↔ ∃ x d, x ∈ c.mro ∧ (exec .init h).classes[x]? = some d ∧ d.routes = true := by
  have hi : Inv (exec .init h) := .exec h .init
  unfold mayRoute
  rw [List.any_eq_true]
  simp only [isInstance_iff]
  constructor
  · rintro ⟨x, hr, c', hc', hx⟩
    rw [ha] at hc'; cases hc'
    obtain ⟨d, hd, hdm⟩ := hi.madeAbove ha hm hx
    exact ⟨x, d, hx, hd, (hi.routes x d hd hdm).1 hr⟩
  · rintro ⟨x, d, hx, hd, hr⟩
    obtain ⟨d', hd', hdm⟩ := hi.madeAbove ha hm hx
    rw [hd] at hd'; cases hd'
    exact ⟨x, (hi.routes x d hd hdm).2 hr, c, ha, hx⟩

/-- C103. A type name stands for the class that has it, and two classes of the program never share a name. -/
theorem C103_names (h : List Body) (a : Nat) (c : Class) (n : Str) (ha : (exec .init h).classes[a]? = some c) (hm : c.made = true) (hn : c.typeName = some n) (hne : n ≠ []) :
    (exec .init h).registered.get n = some a ∧ ∀ b d, (exec .init h).classes[b]? = some d → d.made = true → d.typeName = some n → b = a := by
  have hi : Inv (exec .init h) := .exec h .init
  have h1 := hi.named a c n ha hm hn hne
  refine ⟨h1, fun b d hb hbm hdn => ?_⟩
  have h2 := hi.named b d n hb hbm hdn hne
  rw [h1] at h2
  exact (Option.some.inj h2).symm

/-- C103. A class with a new name and rules only for devices is defined, and has what it says. -/
theorem C103_define (h : List Body) (b : Body) (base : Class) (hb : (exec .init h).classes[b.base]? = some base) (hm : base.made = true) (n : Str) (hn : b.typeName = some (some n))
    (hfree : (exec .init h).registered.get n = none) (hc : none ∉ b.connects.getD base.connects) :
    (define (exec .init h) b).2 = none ∧
    (define (exec .init h) b).1.classes[(exec .init h).classes.length]? = some (inherit (exec .init h).classes.length base b) := by
  have key : ∀ (x : Nat) (l : List (Option Nat)) (rs : List (Nat × Nat)), none ∉ l → (addRules x rs l).2 = false := by
    intro x l
    induction l with
    | nil => exact fun _ _ => rfl
    | cons y l ih =>
      intro rs hl
      cases y with
      | none => exact absurd (List.mem_cons_self ..) hl
      | some y => exact ih _ fun h => hl (List.mem_cons_of_mem _ h)
  have hf : ∀ reg, (finish (exec .init h) (inherit (exec .init h).classes.length base b) reg).2 = none ∧
      (finish (exec .init h) (inherit (exec .init h).classes.length base b) reg).1.classes[(exec .init h).classes.length]? = some (inherit (exec .init h).classes.length base b) := by
    intro reg
    unfold finish
    have := key (exec .init h).classes.length (inherit (exec .init h).classes.length base b).connects (exec .init h).rules hc
    cases ha : addRules (exec .init h).classes.length (exec .init h).rules (inherit (exec .init h).classes.length base b).connects with
    | mk rs r =>
      rw [ha] at this
      dsimp only at this
      subst this
      exact ⟨rfl, by simp⟩
  have ht : (inherit (exec .init h).classes.length base b).typeName = some n := by simp [inherit, hn]
  unfold define
  rw [hb]
  dsimp only
  rw [if_pos hm, ht]
  dsimp only
  split
  · exact hf _
  · rw [if_neg (by simp [Dict.has, hfree])]
    exact hf _

/-- C103 is false for overriding: a class that says it connects to nothing and has no routes keeps what the class above it may. -/
theorem C103_false_override (h : List Body) (x a : Nat) (c d : Class) (ha : (exec .init h).classes[a]? = some c) (hm : c.made = true) (hx : x ∈ c.mro)
    (hd : (exec .init h).classes[x]? = some d) : (∀ y b, some y ∈ d.connects → Above (exec .init h) y b → permitted (exec .init h) a b = true) ∧
    (d.routes = true → mayRoute (exec .init h) a = true) :=
  ⟨fun y b hy hb => (C103_permitted_partial h a b c ha hm).2 ⟨x, d, y, hx, hd, hy, hb⟩, fun hr => (C103_routes_partial h a c ha hm).2 ⟨x, d, hx, hd, hr⟩⟩

/-- C103. A class that inherits the name of a registered class cannot be defined: the name has to be set again, if only to None. -/
theorem C103_false_inherited (h : List Body) (b : Body) (base : Class) (n : Str) (hb : (exec .init h).classes[b.base]? = some base) (hm : base.made = true)
    (hn : base.typeName = some n) (hne : n ≠ []) (hi : b.typeName = none) : (define (exec .init h) b).2 = some .duplicate := by
  have h1 := (C103_names h b.base base n hb hm hn hne).1
  have ht : (inherit (exec .init h).classes.length base b).typeName = some n := by simp [inherit, hi, hn]
  unfold define
  rw [hb]
  dsimp only
  rw [if_pos hm, ht]
  dsimp only
  rw [if_neg hne, if_pos (by simp [Dict.has, h1])]

/-! ## The classes of the project -/

/-- NetworkAccessPointDevice, SwitchDevice, UnreliableSwitchDevice, InterfaceDevice, VnicDevice. -/
def project : List Body := [⟨0, none, none, none⟩, ⟨1, some (some "switch".toList), none, none⟩, ⟨1, some (some "unreliable_switch".toList), none, none⟩,
  ⟨0, none, some [some 1], some true⟩, ⟨4, some (some "vnic".toList), none, none⟩]

example : permitted (exec .init project) 5 2 = true ∧ permitted (exec .init project) 5 3 = true ∧ permitted (exec .init project) 5 5 = false ∧
    permitted (exec .init project) 2 5 = false ∧ permitted (exec .init project) 2 3 = false ∧ mayRoute (exec .init project) 5 = true ∧ mayRoute (exec .init project) 2 = false := by decide +kernel
example : (exec .init project).registered = [("switch".toList, 2), ("unreliable_switch".toList, 3), ("vnic".toList, 5)] := by decide +kernel

/-- A quiet VNIC: no connections, no routes; it may have both. -/
example : let s := exec .init (project ++ [⟨5, some (some "quiet".toList), some [], some false⟩])
    (s.classes[6]?).map (·.connects) = some [] ∧ permitted s 6 2 = true ∧ mayRoute s 6 = true := by decide +kernel
example : (define (exec .init project) ⟨5, none, none, none⟩).2 = some .duplicate := by decide +kernel

/-- C103 is false after a mistake: a class statement with a wrong rule raises, and its type name is used up for the class that nobody has. -/
theorem C103_false_retry : ∃ b b' : Body, b'.connects = some [some 1] ∧ b'.typeName = b.typeName ∧ (define (exec .init project) b').2 = none ∧
    (define (exec .init project) b).2 = some .rule ∧ (define (exec .init (project ++ [b])) b').2 = some .duplicate :=
  ⟨⟨0, some (some "x".toList), some [none], none⟩, ⟨0, some (some "x".toList), some [some 1], none⟩, rfl, rfl, by decide +kernel, by decide +kernel, by decide +kernel⟩

end Verif.Loader
