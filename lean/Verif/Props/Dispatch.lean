import Verif.Spec.Dispatch
import Verif.Lemmas.Dict
/-! # C97 The encoder of a field type -/
namespace Verif.Dispatch

/-! ## The loop goes through the classes by their distance -/

def sizes : List Class → Nat
  | [] => 0
  | c :: q => c.size + sizes q

theorem sizes_append : ∀ a b : List Class, sizes (a ++ b) = sizes a + sizes b
  | [], b => by simp [sizes]
  | c :: a, b => by simp [sizes, sizes_append a b]; omega

theorem sizes_toList : ∀ b : Classes, sizes b.toList = b.size
  | .nil => rfl
  | .cons c r => by simp [Classes.toList, sizes, Classes.size, sizes_toList r]

theorem sizes_next (stop : Nat → Bool) (c : Class) : sizes (next stop c) + 1 ≤ c.size := by
  obtain ⟨n, b⟩ := c
  rw [next, Class.size]
  split
  · simp [sizes]
  · have : sizes (Class.mk n b).bases = b.size := sizes_toList b
    omega

theorem sizes_flatMap (stop : Nat → Bool) : ∀ q : List Class, sizes (q.flatMap (next stop)) + q.length ≤ sizes q
  | [] => by simp [sizes]
  | c :: q => by
    have h1 := sizes_next stop c
    have h2 := sizes_flatMap stop q
    rw [List.flatMap_cons, sizes_append, List.length_cons, sizes]
    omega

/-- The classes by their distance, `k` levels. -/
def flat (stop : Nat → Bool) : Nat → List Class → List Nat
  | 0, _ => []
  | k + 1, q => q.map Class.name ++ flat stop k (q.flatMap (next stop))

theorem walk_level (stop : Nat → Bool) (m : Nat) : ∀ q r : List Class,
    walk stop (q.length + m) (q ++ r) = q.map Class.name ++ walk stop m (r ++ q.flatMap (next stop))
  | [], r => by simp
  | c :: q, r => by
    have : (c :: q).length + m = (q.length + m) + 1 := by simp; omega
    rw [this, List.cons_append, walk, List.append_assoc, walk_level stop m q (r ++ next stop c)]
    simp

theorem walk_nil (stop : Nat → Bool) (n : Nat) : walk stop n [] = [] := by cases n <;> rfl

theorem flat_nil (stop : Nat → Bool) : ∀ k, flat stop k [] = []
  | 0 => rfl
  | k + 1 => by simp [flat, flat_nil stop k]

theorem walk_flat (stop : Nat → Bool) : ∀ (k : Nat) (q : List Class) (n : Nat), sizes q ≤ n → sizes q ≤ k → walk stop n q = flat stop k q
  | 0, q, n, _, hk => by
    cases q with
    | nil => rw [walk_nil]; rfl
    | cons c q =>
      have := sizes_next stop c
      simp only [sizes] at hk
      omega
  | k + 1, q, n, hn, hk => by
    cases hq : q with
    | nil => rw [walk_nil, flat_nil]
    | cons c q' =>
      have h1 := sizes_flatMap stop q
      have hl : q.length = q'.length + 1 := by rw [hq]; rfl
      have e : n = q.length + (n - q.length) := by omega
      have := walk_level stop (n - q.length) q []
      rw [← e, List.append_nil, List.nil_append] at this
      rw [← hq, this, flat, walk_flat stop k _ _ (by omega) (by omega)]

theorem ancestors_flat (stop : Nat → Bool) (c : Class) {k : Nat} (hk : c.size ≤ k) : ancestors stop c = flat stop k [c] :=
  walk_flat stop k [c] c.size (by simp [sizes]) (by simpa [sizes] using hk)

theorem Above.succ {stop : Nat → Bool} {c a : Class} {n : Nat} : Above stop c (n + 1) a ↔ ∃ b ∈ next stop c, Above stop b n a := by
  constructor
  · intro h
    cases h with
    | up hs hb h => exact ⟨_, by rw [next, hs]; exact hb, h⟩
  · rintro ⟨b, hb, h⟩
    rw [next] at hb
    split at hb
    · cases hb
    · rename_i hs
      exact .up (by simpa using hs) hb h

/-- The nearest. -/
theorem flat_near {β : Type} (stop : Nat → Bool) (p : Nat → Option β) (e : β) : ∀ (k : Nat) (q : List Class), (flat stop k q).findSome? p = some e →
    ∃ n, ∃ c ∈ q, ∃ a, Above stop c n a ∧ p a.name = some e ∧ ∀ m < n, ∀ c ∈ q, ∀ b, Above stop c m b → p b.name = none
  | 0, q, h => by cases h
  | k + 1, q, h => by
    rw [flat, List.findSome?_append] at h
    cases hq : (q.map Class.name).findSome? p with
    | some e' =>
      rw [hq] at h
      cases h
      obtain ⟨x, hx, hp⟩ := List.exists_of_findSome?_eq_some hq
      obtain ⟨c, hc, rfl⟩ := List.mem_map.1 hx
      exact ⟨0, c, hc, c, .self c, hp, fun m hm => absurd hm (Nat.not_lt_zero m)⟩
    | none =>
      rw [hq] at h
      obtain ⟨n, c, hc, a, ha, hp, hm⟩ := flat_near stop p e k _ h
      obtain ⟨c', hc', hcn⟩ := List.mem_flatMap.1 hc
      refine ⟨n + 1, c', hc', a, Above.succ.2 ⟨c, hcn, ha⟩, hp, fun m hmn x hx b hb => ?_⟩
      cases m with
      | zero =>
        cases hb
        exact List.findSome?_eq_none_iff.1 hq _ (List.mem_map.2 ⟨x, hx, rfl⟩)
      | succ m =>
        obtain ⟨y, hy, hb⟩ := Above.succ.1 hb
        exact hm m (by omega) y (List.mem_flatMap.2 ⟨x, hx, hy⟩) b hb

theorem above_size {stop : Nat → Bool} {c a : Class} {n : Nat} (h : Above stop c n a) : n < c.size := by
  induction h with
  | self c => have := sizes_next stop c; omega
  | @up c b a n hs hb h ih =>
    have h1 := sizes_next stop c
    have : ∀ (l : List Class) (b : Class), b ∈ l → b.size ≤ sizes l := by
      intro l
      induction l with
      | nil => intro b hb; cases hb
      | cons x l ih =>
        intro b hb
        rw [sizes]
        rcases List.mem_cons.1 hb with rfl | hb
        · omega
        · have := ih b hb; omega
    have h2 := this (next stop c) b (by rw [next, hs]; exact hb)
    omega

theorem flat_mem (stop : Nat → Bool) {a : Class} : ∀ (n k : Nat) (q : List Class), n < k → (∃ c ∈ q, Above stop c n a) → a.name ∈ flat stop k q
  | _, 0, _, hk, _ => absurd hk (Nat.not_lt_zero _)
  | 0, k + 1, q, _, ⟨c, hc, h⟩ => by
    cases h
    exact List.mem_append_left _ (List.mem_map.2 ⟨_, hc, rfl⟩)
  | n + 1, k + 1, q, hk, ⟨c, hc, h⟩ => by
    obtain ⟨b, hb, h⟩ := Above.succ.1 h
    exact List.mem_append_right _ (flat_mem stop n k _ (by omega) ⟨b, List.mem_flatMap.2 ⟨c, hc, hb⟩, h⟩)

theorem near {β : Type} {stop : Nat → Bool} {p : Nat → Option β} {c : Class} {e : β} (h : (ancestors stop c).findSome? p = some e) :
    ∃ n a, Above stop c n a ∧ p a.name = some e ∧ ∀ m < n, ∀ b, Above stop c m b → p b.name = none := by
  rw [ancestors_flat stop c (Nat.le_refl _)] at h
  obtain ⟨n, c', hc, a, ha, hp, hm⟩ := flat_near stop p e _ _ h
  cases List.mem_singleton.1 hc
  exact ⟨n, a, ha, hp, fun m hmn b hb => hm m hmn _ hc b hb⟩

theorem mem_ancestors {stop : Nat → Bool} {c a : Class} {n : Nat} (h : Above stop c n a) : a.name ∈ ancestors stop c := by
  rw [ancestors_flat stop c (Nat.le_refl _)]
  exact flat_mem stop n _ _ (above_size h) ⟨c, List.mem_singleton.2 rfl, h⟩

theorem of_flat (stop : Nat → Bool) {x : Nat} : ∀ (k : Nat) (q : List Class), x ∈ flat stop k q → ∃ c ∈ q, ∃ n a, Above stop c n a ∧ a.name = x
  | 0, _, h => by cases h
  | k + 1, q, h => by
    rcases List.mem_append.1 h with h | h
    · obtain ⟨c, hc, rfl⟩ := List.mem_map.1 h
      exact ⟨c, hc, 0, c, .self c, rfl⟩
    · obtain ⟨c, hc, n, a, ha, hx⟩ := of_flat stop k _ h
      obtain ⟨c', hc', hn⟩ := List.mem_flatMap.1 hc
      exact ⟨c', hc', n + 1, a, Above.succ.2 ⟨c, hn, ha⟩, hx⟩

theorem of_ancestors {stop : Nat → Bool} {c : Class} {x : Nat} (h : x ∈ ancestors stop c) : ∃ n a, Above stop c n a ∧ a.name = x := by
  rw [ancestors_flat stop c (Nat.le_refl _)] at h
  obtain ⟨c', hc, n, a, ha, hx⟩ := of_flat stop _ _ h
  cases List.mem_singleton.1 hc
  exact ⟨n, a, ha, hx⟩

/-! ## Lookup -/

theorem lookup_find (t : Dict Key Nat) : ∀ l : List Key, lookup t l = l.findSome? t.get
  | [] => rfl
  | k :: l => by
    rw [lookup, List.findSome?_cons, lookup_find t l]
    cases t.get k <;> rfl

theorem lookup_plain (r : Roots) (t : Dict Key Nat) (c : Class) : lookup t (keys r (.plain c)) = (ancestors r.outer c).findSome? fun x => t.get (.one x) := by
  rw [lookup_find, keys, List.findSome?_map]; rfl

theorem lookup_complex (r : Roots) (t : Dict Key Nat) (c d : Class) : lookup t (keys r (.complex c d)) =
    (ancestors r.outer c).findSome? fun x => (ancestors r.inner d).findSome? fun y => t.get (.two x y) := by
  rw [lookup_find, keys]
  generalize ancestors r.outer c = l
  induction l with
  | nil => rfl
  | cons x l ih =>
    rw [List.flatMap_cons, List.findSome?_append, ih, List.findSome?_cons, List.findSome?_map]
    cases h : List.findSome? (fun y => t.get (Key.two x y)) (ancestors r.inner d) <;>
      simp [Function.comp_def, h]

theorem mem_keys {r : Roots} {x : Typ} {k : Key} : k ∈ keys r x ↔ ∃ n m y, General r x n m y ∧ y.key = k := by
  cases x with
  | plain c =>
    constructor
    · intro h
      obtain ⟨a, ha, rfl⟩ := List.mem_map.1 h
      obtain ⟨n, a', h1, rfl⟩ := of_ancestors ha
      exact ⟨n, 0, .plain a', .plain h1, rfl⟩
    · rintro ⟨n, m, y, h, rfl⟩
      cases h with
      | plain h => exact List.mem_map.2 ⟨_, mem_ancestors h, rfl⟩
  | complex c d =>
    constructor
    · intro h
      obtain ⟨a, ha, h⟩ := List.mem_flatMap.1 h
      obtain ⟨b, hb, rfl⟩ := List.mem_map.1 h
      obtain ⟨n, a', h1, rfl⟩ := of_ancestors ha
      obtain ⟨m, b', h2, rfl⟩ := of_ancestors hb
      exact ⟨n, m, .complex a' b', .complex h1 h2, rfl⟩
    · rintro ⟨n, m, y, h, rfl⟩
      cases h with
      | complex h h' => exact List.mem_flatMap.2 ⟨_, mem_ancestors h, List.mem_map.2 ⟨_, mem_ancestors h', rfl⟩⟩

/-- C97. The encoder that is found was registered for a type that generalizes the given one, and no registered one is nearer: none has a nearer class of the field
type, and none with the same class of the field type has a nearer class of the data. -/
theorem C97_nearest (r : Roots) (t : Dict Key Nat) (x : Typ) (e : Nat) (h : get r t x = some (some e)) :
    ∃ n m y, General r x n m y ∧ t.get y.key = some e ∧
      ∀ n' m' y', General r x n' m' y' → t.get y'.key ≠ none → n ≤ n' ∧ (y'.outer.name = y.outer.name → m ≤ m') := by
  rw [get] at h
  split at h
  · have h : lookup t (keys r x) = some e := by injection h
    cases x with
    | plain c =>
      rw [lookup_plain] at h
      obtain ⟨n, a, ha, hp, hm⟩ := near h
      refine ⟨n, 0, .plain a, .plain ha, hp, fun n' m' y' hy hn => ⟨?_, fun _ => Nat.zero_le _⟩⟩
      cases hy with
      | plain hb =>
        rcases Nat.lt_or_ge n' n with hlt | hge
        · exact absurd (hm n' hlt _ hb) hn
        · exact hge
    | complex c d =>
      rw [lookup_complex] at h
      obtain ⟨n, a, ha, hp, hm⟩ := near h
      obtain ⟨m, b, hb, hq, hm'⟩ := near hp
      refine ⟨n, m, .complex a b, .complex ha hb, hq, fun n' m' y' hy hn => ?_⟩
      cases hy with
      | @complex _ a' _ b' _ _ h1 h2 =>
        refine ⟨?_, fun he => ?_⟩
        · rcases Nat.lt_or_ge n' n with hlt | hge
          · exact absurd (List.findSome?_eq_none_iff.1 (hm n' hlt _ h1) _ (mem_ancestors h2)) hn
          · exact hge
        · rcases Nat.lt_or_ge m' m with hlt | hge
          · have he : a'.name = a.name := he
            have := hm' m' hlt _ h2
            rw [← he] at this
            exact absurd this hn
          · exact hge
  · cases h

/-- C97. No encoder is found exactly if none is registered for a type that generalizes the given one. -/
theorem C97_none (r : Roots) (t : Dict Key Nat) (x : Typ) :
    get r t x = some none ↔ x.outer.sub r.field = true ∧ ∀ n m y, General r x n m y → t.get y.key = none := by
  rw [get, lookup_find]
  split
  · rename_i hs
    constructor
    · intro h
      have h : (keys r x).findSome? t.get = none := by injection h
      exact ⟨hs, fun n m y hy => List.findSome?_eq_none_iff.1 h _ (mem_keys.2 ⟨n, m, y, hy, rfl⟩)⟩
    · rintro ⟨_, h⟩
      congr 1
      refine List.findSome?_eq_none_iff.2 fun k hk => ?_
      obtain ⟨n, m, y, hy, rfl⟩ := mem_keys.1 hk
      exact h n m y hy
  · rename_i hs
    exact ⟨(fun h => nomatch h), fun h => absurd h.1 hs⟩

theorem size_pos (c : Class) : ∃ k, c.size = k + 1 := by
  obtain ⟨n, b⟩ := c
  exact ⟨b.size, rfl⟩

theorem ancestors_head (stop : Nat → Bool) (c : Class) : ∃ l, ancestors stop c = c.name :: l := by
  obtain ⟨k, hk⟩ := size_pos c
  exact ⟨_, by rw [ancestors, hk, walk]⟩

theorem keys_head (r : Roots) (x : Typ) : ∃ l, keys r x = x.key :: l := by
  cases x with
  | plain c =>
    obtain ⟨l, h⟩ := ancestors_head r.outer c
    exact ⟨l.map .one, by rw [keys, h]; rfl⟩
  | complex c d =>
    obtain ⟨l, h⟩ := ancestors_head r.outer c
    obtain ⟨l', h'⟩ := ancestors_head r.inner d
    exact ⟨_, by rw [keys, h, h', List.flatMap_cons, List.map_cons, List.cons_append]; rfl⟩

/-- C97. A registration: it is refused exactly for what is no field type; afterwards the type has this encoder; what is not derived from the type keeps the one it had. -/
theorem C97_register (r : Roots) (t : Dict Key Nat) (x : Typ) (e : Nat) :
    (x.outer.sub r.field = false → register r t x e = none) ∧
    (x.outer.sub r.field = true → ∃ t', register r t x e = some t' ∧ get r t' x = some (some e) ∧
      ∀ y, (∀ n m z, General r y n m z → z.key ≠ x.key) → get r t' y = get r t y) := by
  constructor
  · intro h; rw [register, h]; rfl
  · intro h
    obtain ⟨l, hl⟩ := keys_head r x
    refine ⟨t.set x.key e, by rw [register, h, hl]; rfl, ?_, fun y hy => ?_⟩
    · rw [get, h, if_pos rfl, hl, lookup, Dict.get_set_self]
    · rw [get, get]
      split
      · congr 1
        rw [lookup_find, lookup_find]
        have : ∀ l : List Key, (∀ k ∈ l, k ≠ x.key) → l.findSome? (t.set x.key e).get = l.findSome? t.get := by
          intro l
          induction l with
          | nil => intro _; rfl
          | cons k l ih =>
            intro hk
            rw [List.findSome?_cons, List.findSome?_cons, Dict.get_set_ne t e (Ne.symm (hk k (List.mem_cons_self ..))), ih fun k' h => hk k' (List.mem_cons_of_mem _ h)]
        refine this _ fun k hk => ?_
        obtain ⟨n, m, z, hz, rfl⟩ := mem_keys.1 hk
        exact hy n m z hz
      · rfl

/-! ## Derived classes -/

/-- Nothing is registered for a class and what is above it. -/
def Silent {β : Type} (stop : Nat → Bool) (p : Nat → Option β) (c : Class) : Prop := ∀ n a, Above stop c n a → p a.name = none

/-- `b` is `a` without some silent classes. -/
inductive Trim (S : Class → Prop) : List Class → List Class → Prop where
  | nil : Trim S [] []
  | keep (c : Class) {a b} (h : Trim S a b) : Trim S (c :: a) (c :: b)
  | drop {c : Class} {a b} (hc : S c) (h : Trim S a b) : Trim S (c :: a) b

theorem Trim.refl (S : Class → Prop) : ∀ a, Trim S a a
  | [] => .nil
  | c :: a => .keep c (Trim.refl S a)

theorem Trim.append {S : Class → Prop} {a b a' b' : List Class} (h : Trim S a b) (h' : Trim S a' b') : Trim S (a ++ a') (b ++ b') := by
  induction h with
  | nil => exact h'
  | keep c _ ih => exact .keep c ih
  | drop hc _ ih => exact .drop hc ih

theorem Trim.all {S : Class → Prop} : ∀ a : List Class, (∀ c ∈ a, S c) → Trim S a []
  | [], _ => .nil
  | c :: a, h => .drop (h c (List.mem_cons_self ..)) (Trim.all a fun c' hc => h c' (List.mem_cons_of_mem _ hc))

theorem flat_trim {β : Type} (stop : Nat → Bool) (p : Nat → Option β) : ∀ (k : Nat) (a b : List Class), Trim (Silent stop p) a b →
    (flat stop k a).findSome? p = (flat stop k b).findSome? p
  | 0, _, _, _ => rfl
  | k + 1, a, b, h => by
    rw [flat, flat, List.findSome?_append, List.findSome?_append]
    have h1 : (a.map Class.name).findSome? p = (b.map Class.name).findSome? p := by
      induction h with
      | nil => rfl
      | keep c _ ih => rw [List.map_cons, List.map_cons, List.findSome?_cons, List.findSome?_cons, ih]
      | drop hc _ ih => rw [List.map_cons, List.findSome?_cons, hc 0 _ (.self _), ih]
    have h2 : Trim (Silent stop p) (a.flatMap (next stop)) (b.flatMap (next stop)) := by
      clear h1
      induction h with
      | nil => exact .nil
      | keep c _ ih => rw [List.flatMap_cons, List.flatMap_cons]; exact (Trim.refl _ _).append ih
      | drop hc _ ih =>
        rw [List.flatMap_cons, ← List.nil_append (List.flatMap _ _)]
        exact (Trim.all _ fun c' hc' n x hx => hc (n + 1) x (Above.succ.2 ⟨c', hc', hx⟩)).append ih
    rw [h1, flat_trim stop p k _ _ h2]

/-- A class for which nothing is registered, of whose bases all but one are silent, gets what this one gets. -/
theorem find_derived {β : Type} {stop : Nat → Bool} {p : Nat → Option β} {c b : Class} (hn : p c.name = none) (hs : stop c.name = false)
    (ht : Trim (Silent stop p) c.bases [b]) : (ancestors stop c).findSome? p = (ancestors stop b).findSome? p := by
  rw [ancestors_flat stop c (k := c.size + b.size + 1) (by omega), ancestors_flat stop b (k := c.size + b.size) (by omega), flat]
  rw [List.findSome?_append, List.map_cons, List.map_nil, List.findSome?_cons, hn, List.findSome?_nil, Option.none_or]
  have : [c].flatMap (next stop) = c.bases := by rw [List.flatMap_singleton, next, hs]; rfl
  rw [this]
  exact flat_trim stop p _ _ _ ht

/-- C97. A field type derived from another, with nothing registered for itself, is encoded like that. -/
theorem C97_derived (r : Roots) (t : Dict Key Nat) (nm : Nat) (b : Class) (hr : r.outer nm = false) (hn : t.get (.one nm) = none) :
    get r t (.plain (derive nm b)) = get r t (.plain b) := by
  have hsub : (derive nm b).sub r.field = b.sub r.field := by
    have : (nm == r.field) = false := by rw [Roots.outer] at hr; revert hr; cases (nm == r.field) <;> simp
    simp [derive, Class.sub, Classes.sub, this]
  rw [get, get, lookup_plain, lookup_plain]
  show (if (derive nm b).sub r.field then _ else _) = (if b.sub r.field then _ else _)
  rw [hsub, find_derived (p := fun x => t.get (.one x)) (c := derive nm b) (b := b) hn hr (Trim.refl _ _)]

theorem complex_congr (r : Roots) (t : Dict Key Nat) (c d d' : Class)
    (h : ∀ x, (ancestors r.inner d).findSome? (fun y => t.get (.two x y)) = (ancestors r.inner d').findSome? fun y => t.get (.two x y)) :
    get r t (.complex c d) = get r t (.complex c d') := by
  rw [get, get, lookup_complex, lookup_complex]
  simp only [h]
  rfl

/-- C97. A field with data of a class derived from another is encoded like a field of that; other bases play no role if nothing is registered for them and what is
above them. -/
theorem C97_data (r : Roots) (t : Dict Key Nat) (nm : Nat) (c b : Class) (hr : r.inner nm = false) (hn : ∀ x, t.get (.two x nm) = none) :
    get r t (.complex c (derive nm b)) = get r t (.complex c b) ∧
    ∀ m, (∀ x n a, Above r.inner m n a → t.get (.two x a.name) = none) →
      get r t (.complex c (derive2 nm m b)) = get r t (.complex c b) ∧ get r t (.complex c (derive2 nm b m)) = get r t (.complex c b) := by
  refine ⟨complex_congr r t c _ _ fun x => find_derived (p := fun y => t.get (.two x y)) (hn x) hr (Trim.refl _ _), fun m hm => ⟨?_, ?_⟩⟩
  · exact complex_congr r t c _ _ fun x => find_derived (p := fun y => t.get (.two x y)) (hn x) hr (.drop (hm x) (Trim.refl _ _))
  · exact complex_congr r t c _ _ fun x => find_derived (p := fun y => t.get (.two x y)) (hn x) hr (.keep b (.drop (hm x) .nil))

/-! ## The library's own types -/

/-- The registrations of the library are all accepted, and its simple types have their encoders. -/
theorem C97_builtin : registerAll roots [] registrations = some builtin ∧
    get roots builtin (.plain float) = some (some 0) ∧ get roots builtin (.plain uint) = some (some 1) ∧ get roots builtin (.plain int) = some (some 2) ∧
    get roots builtin (.plain bool) = some (some 3) ∧ get roots builtin (.plain string) = some (some 4) ∧ get roots builtin (.plain buffer) = some (some 5) ∧
    get roots builtin (.complex complexType packetFields) = some (some 6) ∧ get roots builtin (.complex complexType packetType) = some (some 8) ∧
    get roots builtin (.plain fieldType) = some none := by decide +kernel

theorem builtin_eq : builtin = [(.one 9, 0), (.one 4, 1), (.one 5, 2), (.one 6, 3), (.one 7, 4), (.one 8, 5), (.two 2 10, 6), (.two 3 1, 7), (.two 2 11, 8)] := by
  decide +kernel

/-- C97. A list of any type that is a field type is encoded as a list. -/
theorem C97_lists (d : Class) (n : Nat) (a : Class) (hd : Above roots.inner d n a) (ha : a.name = 1) :
    get roots builtin (.complex listType d) = some (some 7) := by
  have h1 : (Typ.complex listType d).outer.sub roots.field = true := by show listType.sub roots.field = true; decide +kernel
  have h2 : ancestors roots.outer listType = [3, 2] := by decide +kernel
  have hf : ∀ y, builtin.get (.two 3 y) = if y = 1 then some 7 else none := by
    intro y
    rw [builtin_eq]
    simp [Dict.get, eq_comm]
  have h3 : ∀ l : List Nat, 1 ∈ l → l.findSome? (fun y => builtin.get (.two 3 y)) = some 7 := by
    intro l
    induction l with
    | nil => intro h; cases h
    | cons y l ih =>
      intro h
      rw [List.findSome?_cons, hf]
      by_cases hy : y = 1
      · rw [if_pos hy]
      · rw [if_neg hy]
        exact ih ((List.mem_cons.1 h).resolve_left (Ne.symm hy))
  rw [get, h1, if_pos rfl, lookup_complex, h2, List.findSome?_cons, h3 _ (ha ▸ mem_ancestors hd)]

theorem builtin_two {x y : Nat} (hy : y = 0 ∨ 13 ≤ y) : builtin.get (.two x y) = none := by
  have h1 : ¬ (2 = x ∧ 10 = y) := by omega
  have h2 : ¬ (3 = x ∧ 1 = y) := by omega
  have h3 : ¬ (2 = x ∧ 11 = y) := by omega
  rw [builtin_eq]
  simp [Dict.get, h1, h2, h3]

/-- C97. Fields with data of a class that the user derived from a packet class or a struct, also with foreign classes as further bases, are encoded as what they were
derived from. -/
theorem C97_classes (b d c : Class) (h : Derived b d) : get roots builtin (.complex c d) = get roots builtin (.complex c b) := by
  induction h with
  | self => rfl
  | step nm hn _ ih =>
    rw [← ih]
    exact (C97_data roots builtin nm c _ (by simp [Roots.inner, roots]; omega) (fun x => builtin_two (.inr hn))).1
  | @left nm hn d m hm _ ih =>
    rw [← ih]
    exact ((C97_data roots builtin nm c _ (by simp [Roots.inner, roots]; omega) (fun x => builtin_two (.inr hn))).2 m fun x n a ha => builtin_two (hm n a ha)).1
  | @right nm hn d m hm _ ih =>
    rw [← ih]
    exact ((C97_data roots builtin nm c _ (by simp [Roots.inner, roots]; omega) (fun x => builtin_two (.inr hn))).2 m fun x n a ha => builtin_two (hm n a ha)).2

/-- C97. Packet classes are encoded as packets and structs as structs. -/
theorem C97_packets_partial (d : Class) : (Derived packetType d → get roots builtin (.complex complexType d) = some (some 8)) ∧
    (Derived packetFields d → get roots builtin (.complex complexType d) = some (some 6)) := by
  refine ⟨fun h => ?_, fun h => ?_⟩
  · rw [C97_classes _ _ _ h]; exact C97_builtin.2.2.2.2.2.2.2.2.1
  · rw [C97_classes _ _ _ h]; exact C97_builtin.2.2.2.2.2.2.2.1

/-- C97. Simple field types that the user derived are encoded as what they were derived from. -/
theorem C97_simple (b d : Class) (h : Only b d) : get roots builtin (.plain d) = get roots builtin (.plain b) := by
  induction h with
  | self => rfl
  | step nm hn _ ih =>
    rw [← ih]
    refine C97_derived roots builtin nm _ (by simp [Roots.outer, roots]; omega) ?_
    have h1 : ¬ 9 = nm ∧ ¬ 4 = nm ∧ ¬ 5 = nm ∧ ¬ 6 = nm ∧ ¬ 7 = nm ∧ ¬ 8 = nm := by omega
    rw [builtin_eq]
    simp [Dict.get, h1]

/-- C97 is false for lists whose elements are given as a packet class itself and not as a field type of it: they are handed to the encoder of packets. -/
theorem C97_false_list (d : Class) (h : Derived packetType d) : get roots builtin (.complex listType d) = some (some 8) := by
  rw [C97_classes _ _ _ h]
  decide +kernel

/-- C97 is false with more bases: a packet class that takes its first base from a struct is a subclass of `NamedPacketType`, which is a subclass of `PacketFields`, and yet a
field of it is encoded as a struct, without its identifier; with the bases the other way round it is encoded as a packet. -/
theorem C97_false_mixed (nm s : Nat) (h : 13 ≤ nm) (h' : 13 ≤ s) :
    let p := derive2 nm (derive s packetFields) packetType
    let q := derive2 nm packetType (derive s packetFields)
    p.sub namedPacket.name = true ∧ namedPacket.sub packetFields.name = true ∧ get roots builtin (.complex complexType p) = some (some 6) ∧
      get roots builtin (.complex complexType q) = some (some 8) := by
  have e1 : (ancestors roots.inner (derive2 nm (derive s packetFields) packetType)) = [nm, s, 12, 10, 11, 0, 10, 0] := by
    have : (nm == 1) = false := by simp; omega
    have : (s == 1) = false := by simp; omega
    simp [ancestors, walk, derive2, derive, Class.size, Classes.size, next, Class.bases, Classes.toList, Class.name, Roots.inner, roots, packetFields, packetType, namedPacket, object, *]
  have e2 : (ancestors roots.inner (derive2 nm packetType (derive s packetFields))) = [nm, 12, s, 11, 10, 10, 0, 0] := by
    have : (nm == 1) = false := by simp; omega
    have : (s == 1) = false := by simp; omega
    simp [ancestors, walk, derive2, derive, Class.size, Classes.size, next, Class.bases, Classes.toList, Class.name, Roots.inner, roots, packetFields, packetType, namedPacket, object, *]
  have e3 : ancestors roots.outer complexType = [2] := by decide +kernel
  have e4 : ∀ d, (Typ.complex complexType d).outer.sub roots.field = true := by intro d; show complexType.sub roots.field = true; decide +kernel
  have h1 : ∀ y, 13 ≤ y → builtin.get (.two 2 y) = none := fun y hy => builtin_two (.inr hy)
  have h2 : builtin.get (.two 2 12) = none ∧ builtin.get (.two 2 10) = some 6 ∧ builtin.get (.two 2 11) = some 8 := by decide +kernel
  refine ⟨?_, by decide +kernel, ?_, ?_⟩
  · simp [derive2, derive, Class.sub, Classes.sub, packetType, namedPacket, packetFields, object, Class.name]
  · rw [get, e4, if_pos rfl, lookup_complex, e3, e1]
    simp [List.findSome?_cons, h1 _ h, h1 _ h', h2]
  · rw [get, e4, if_pos rfl, lookup_complex, e3, e2]
    simp [List.findSome?_cons, h1 _ h, h1 _ h', h2]

/-! ## Cases -/

/-- A user's packet class with a mixin. -/
def mine : Class := derive2 20 (.mk 21 (.cons object .nil)) (derive 22 packetType)

example : Derived packetType mine := by
  refine .left 20 (by decide) ?_ (.step 22 (by decide) .self)
  intro n a h
  cases h with
  | self => right; decide
  | up _ hb h =>
    cases List.mem_singleton.1 hb
    cases h with
    | self => left; rfl
    | up _ hb _ => cases hb

example : get roots builtin (.complex listType mine) = some (some 8) := by decide +kernel
example : get roots builtin (.complex listType (derive 30 uint)) = some (some 7) := by decide +kernel
example : Above roots.inner (derive 30 uint) 2 fieldType := .up rfl (List.mem_singleton.2 rfl) (.up rfl (List.mem_singleton.2 rfl) (.self _))
example : Only uint (derive 30 uint) := .step 30 (by decide) .self
example : get roots builtin (.plain (derive 30 uint)) = some (some 1) := by decide +kernel
/-- A user's encoder for an own type is used for it and what is derived from it, not for others. -/
example : (register roots builtin (.plain (derive 30 uint)) 99).bind (fun t => get roots t (.plain (derive 31 (derive 30 uint)))) = some (some 99) ∧
    (register roots builtin (.plain (derive 30 uint)) 99).bind (fun t => get roots t (.plain uint)) = some (some 1) ∧
    register roots builtin (.plain (.mk 40 .nil)) 99 = none := by decide +kernel

end Verif.Dispatch
