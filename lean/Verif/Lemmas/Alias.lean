import Verif.Spec.Alias
namespace Verif.Alias
variable {K A : Type}

/-- The field is of the type. -/
def Fits (W : World K A) (h : Heap K A) : Kind K → Slot A → Prop
  | .atom k, .atom d => Held W k d
  | .obj c, .obj d => ∀ i, d = some i → i < h.nObj ∧ W.isSub (h.obj i).cls c = true
  | .list t, .list l => l < h.nLst ∧ (h.lst l).elem = t
  | _, _ => False

structure Inv (W : World K A) (S : Ref → Prop) (h : Heap K A) : Prop where
  len : ∀ o, o < h.nObj → (h.obj o).slots.length = (W.fields (h.obj o).cls).length
  objs : ∀ o, o < h.nObj → ∀ (i : Nat) (t : Kind K) (s : Slot A), (W.fields (h.obj o).cls)[i]? = some t → (h.obj o).slots[i]? = some s → Fits W h t s
  lsts : ∀ l, l < h.nLst → ∀ (i : Nat) (s : Slot A), (h.lst l).items[i]? = some s → Fits W h (h.lst l).elem s
  own : ∀ P Q l, h.slotAt P = some (.list l) → h.slotAt Q = some (.list l) → P = Q
  clo : ∀ r, h.has r = true → S r → ∀ x ∈ h.next r, S x
  new : ∀ l, h.nLst ≤ l → S (.lst l)

/-- Only the list of field `s` changes. -/
structure Frame (h h' : Heap K A) (s : Slot A) : Prop where
  obj : h'.obj = h.obj
  nObj : h'.nObj = h.nObj
  nLst : h.nLst ≤ h'.nLst
  elem : ∀ l, l < h.nLst → (h'.lst l).elem = (h.lst l).elem
  lst : ∀ l, l < h.nLst → s ≠ .list l → h'.lst l = h.lst l

def Good (S : Ref → Prop) (h : Heap K A) (v : Py A) : Prop := ∀ r ∈ v.refs, h.has r = true ∧ (S r ∨ h.flatList r)

theorem Frame.rfl' {h : Heap K A} {s : Slot A} : Frame h h s := ⟨rfl, rfl, Nat.le_refl _, fun _ _ => rfl, fun _ _ _ => rfl⟩

theorem Frame.trans {h h1 h2 : Heap K A} {s s1 : Slot A} (a : Frame h h1 s) (b : Frame h1 h2 s1) (hs : ∀ l, s1 = .list l → l < h.nLst → s = .list l) : Frame h h2 s where
  obj := b.obj.trans a.obj
  nObj := b.nObj.trans a.nObj
  nLst := Nat.le_trans a.nLst b.nLst
  elem l hl := (b.elem l (by have := a.nLst; omega)).trans (a.elem l hl)
  lst l hl hne := (b.lst l (by have := a.nLst; omega) fun he => hne (hs l he hl)).trans (a.lst l hl hne)

theorem Fits.mono {W : World K A} {h h' : Heap K A} (a : h'.nObj = h.nObj) (b : h.nLst ≤ h'.nLst) (c : ∀ l, l < h.nLst → (h'.lst l).elem = (h.lst l).elem)
    (d : ∀ o, (h'.obj o).cls = (h.obj o).cls) {t : Kind K} {s : Slot A} (f : Fits W h t s) : Fits W h' t s := by
  cases t <;> cases s <;> simp only [Fits] at f ⊢
  · exact f
  · intro i hi; rw [a, d]; exact f i hi
  · exact ⟨by omega, by rw [c _ f.1]; exact f.2⟩

theorem Fits.frame {W : World K A} {h h' : Heap K A} {s' : Slot A} (a : Frame h h' s') {t : Kind K} {s : Slot A} (f : Fits W h t s) : Fits W h' t s := f.mono a.nObj a.nLst a.elem (fun _ => by rw [a.obj])

theorem Frame.has {h h' : Heap K A} {s : Slot A} (a : Frame h h' s) {r : Ref} (hr : h.has r = true) : h'.has r = true := by
  cases r <;> simp only [Heap.has, decide_eq_true_eq] at hr ⊢
  · rw [a.nObj]; exact hr
  · have := a.nLst; omega

theorem Frame.flatList {h h' : Heap K A} {s : Slot A} (a : Frame h h' s) {r : Ref} (hr : h.has r = true) (hf : h.flatList r) : h'.flatList r := by
  cases r with
  | obj i => exact hf
  | lst l =>
    simp only [Heap.has, decide_eq_true_eq] at hr
    simp only [Heap.flatList] at hf ⊢
    rw [a.elem l hr]; exact hf

theorem Good.frame {S : Ref → Prop} {h h' : Heap K A} {s : Slot A} (a : Frame h h' s) {v : Py A} (g : Good S h v) : Good S h' v := fun r hr =>
  ⟨a.has (g r hr).1, (g r hr).2.imp id (a.flatList (g r hr).1)⟩

theorem slotAt_item {h : Heap K A} {l i : Nat} {s : Slot A} : h.slotAt (.item l i) = some s ↔ l < h.nLst ∧ (h.lst l).items[i]? = some s := by
  simp only [Heap.slotAt]; split <;> simp_all <;> omega

theorem slotAt_field {h : Heap K A} {l i : Nat} {s : Slot A} : h.slotAt (.field l i) = some s ↔ l < h.nObj ∧ (h.obj l).slots[i]? = some s := by
  simp only [Heap.slotAt]; split <;> simp_all <;> omega

theorem Inv.fits {W : World K A} {S : Ref → Prop} {h : Heap K A} (I : Inv W S h) {P : Place} {s : Slot A} (hp : h.slotAt P = some s) : ∃ t, Fits W h t s := by
  cases P with
  | field o f =>
    rw [slotAt_field] at hp
    obtain ⟨t, ht⟩ : ∃ t, (W.fields (h.obj o).cls)[f]? = some t := by
      have : f < (h.obj o).slots.length := (List.getElem?_eq_some_iff.mp hp.2).1
      rw [I.len o hp.1] at this
      exact ⟨_, List.getElem?_eq_getElem this⟩
    exact ⟨t, I.objs o hp.1 f t s ht hp.2⟩
  | item l i =>
    rw [slotAt_item] at hp
    exact ⟨_, I.lsts l hp.1 i s hp.2⟩

theorem Inv.listOld {W : World K A} {S : Ref → Prop} {h : Heap K A} (I : Inv W S h) {P : Place} {l : Nat} (hp : h.slotAt P = some (.list l)) : l < h.nLst := by
  obtain ⟨t, ht⟩ := I.fits hp
  cases t <;> simp only [Fits] at ht
  exact ht.1

/-- A list is replaced. -/
theorem Inv.put {W : World K A} {S : Ref → Prop} {h : Heap K A} (I : Inv W S h) {l : Nat} (hl : l < h.nLst) (x : Lst K A) (he : x.elem = (h.lst l).elem)
    (hf : ∀ (i : Nat) (s : Slot A), x.items[i]? = some s → Fits W h x.elem s)
    (ho : ∀ (i m : Nat), x.items[i]? = some (.list m) → (∃ j : Nat, (h.lst l).items[j]? = some (.list m)) ∨ ∀ P, h.slotAt P ≠ some (.list m))
    (hu : ∀ (i j m : Nat), x.items[i]? = some (.list m) → x.items[j]? = some (.list m) → i = j)
    (hc : S (.lst l) → ∀ s ∈ x.items, ∀ r ∈ s.refs, S r) : Inv W S (h.putLst l x) := by
  have hel : ∀ m, ((h.putLst l x).lst m).elem = (h.lst m).elem := by
    intro m; simp only [Heap.putLst]; split
    · subst m; exact he
    · rfl
  have hfit : ∀ {t s}, Fits W h t s → Fits W (h.putLst l x) t s := fun f => Fits.mono (h := h) (h' := h.putLst l x) rfl (Nat.le_refl h.nLst) (fun m _ => hel m) (fun _ => rfl) f
  have hat : ∀ P m, (h.putLst l x).slotAt P = some (.list m) → (∃ i : Nat, P = .item l i ∧ x.items[i]? = some (.list m)) ∨ ((∀ i, P ≠ .item l i) ∧ h.slotAt P = some (.list m)) := by
    intro P m hp
    cases P with
    | field o f => exact .inr ⟨by simp, hp⟩
    | item k i =>
      rw [slotAt_item] at hp
      by_cases hk : k = l
      · subst k; simp only [Heap.putLst, if_true] at hp; exact .inl ⟨i, rfl, hp.2⟩
      · simp only [Heap.putLst, hk, if_false] at hp; exact .inr ⟨by simp [hk], slotAt_item.mpr hp⟩
  refine ⟨I.len, fun o ho i t s a b => hfit (I.objs o ho i t s a b), ?_, ?_, ?_, I.new⟩
  · intro m hm i s hs
    rw [hel]
    by_cases hml : m = l
    · subst m; simp only [Heap.putLst, if_true] at hs; rw [← he]; exact hfit (hf i s hs)
    · simp only [Heap.putLst, hml, if_false] at hs; exact hfit (I.lsts m hm i s hs)
  · intro P Q m hp hq
    rcases hat P m hp with ⟨i, rfl, hi⟩ | ⟨n1, hi⟩ <;> rcases hat Q m hq with ⟨j, rfl, hj⟩ | ⟨n2, hj⟩
    · rw [hu i j m hi hj]
    · rcases ho i m hi with ⟨k, hk⟩ | hno
      · exact absurd (I.own _ _ m hj (slotAt_item.mpr ⟨hl, hk⟩)) (n2 k)
      · exact absurd hj (hno Q)
    · rcases ho j m hj with ⟨k, hk⟩ | hno
      · exact absurd (I.own _ _ m hi (slotAt_item.mpr ⟨hl, hk⟩)) (n1 k)
      · exact absurd hi (hno P)
    · exact I.own P Q m hi hj
  · intro r hr hs y hy
    cases r with
    | obj i => exact I.clo (.obj i) hr hs y hy
    | lst m =>
      by_cases hml : m = l
      · subst m
        simp only [Heap.next, Heap.putLst, if_true, List.mem_flatMap] at hy
        obtain ⟨s, h1, h2⟩ := hy
        exact hc hs s h1 y h2
      · simp only [Heap.next, Heap.putLst, hml, if_false] at hy
        exact I.clo (.lst m) hr hs y hy

theorem Frame.put (h : Heap K A) (l : Nat) (x : Lst K A) (he : x.elem = (h.lst l).elem) : Frame h (h.putLst l x) (.list l) := by
  refine ⟨rfl, rfl, Nat.le_refl _, ?_, ?_⟩
  · intro m _; simp only [Heap.putLst]; split
    · subst m; exact he
    · rfl
  · intro m _ hne; simp only [Heap.putLst]; rw [if_neg]; intro h; subst h; exact hne rfl

/-- The items remain the same. -/
theorem Inv.flag {W : World K A} {S : Ref → Prop} {h : Heap K A} (I : Inv W S h) {l : Nat} (hl : l < h.nLst) (b : Bool) : Inv W S (h.putLst l { h.lst l with isSet := b }) :=
  I.put hl _ rfl (fun i s hs => I.lsts l hl i s hs) (fun i m hi => .inl ⟨i, hi⟩)
    (fun i j m hi hj => by
      have := I.own (.item l i) (.item l j) m (slotAt_item.mpr ⟨hl, hi⟩) (slotAt_item.mpr ⟨hl, hj⟩)
      simpa using this)
    (fun hs s h1 r h2 => I.clo (.lst l) (by simpa [Heap.has] using hl) hs r (by simp only [Heap.next, List.mem_flatMap]; exact ⟨s, h1, h2⟩))

theorem replace_length (s : Slot A) (n : Nat) (xs : List (Slot A)) : (replace s n xs).length = xs.length := by
  induction xs generalizing n with
  | nil => cases n <;> rfl
  | cons x xs ih => cases n <;> simp [replace, ih]

theorem getElem?_replace (s : Slot A) (n : Nat) (xs : List (Slot A)) (i : Nat) : (replace s n xs)[i]? = if i = n ∧ i < xs.length then some s else xs[i]? := by
  induction xs generalizing n i with
  | nil => cases n <;> simp [replace]
  | cons x xs ih => cases n <;> cases i <;> simp [replace, ih]

theorem mem_replace {s x : Slot A} {n : Nat} {xs : List (Slot A)} (hx : x ∈ replace s n xs) : x = s ∨ x ∈ xs := by
  obtain ⟨i, hi⟩ := List.mem_iff_getElem?.mp hx
  rw [getElem?_replace] at hi
  split at hi
  · simp at hi; exact .inl hi.symm
  · exact .inr (List.mem_iff_getElem?.mpr ⟨i, hi⟩)

theorem refs_list {s : Slot A} {m : Nat} : Ref.lst m ∈ s.refs ↔ s = .list m := by
  cases s with
  | atom d => simp [Slot.refs]
  | obj d => cases d <;> simp [Slot.refs]
  | list l => simp only [Slot.refs, List.mem_singleton, Ref.lst.injEq, Slot.list.injEq]; exact eq_comm

theorem refs_obj {s : Slot A} {m : Nat} : Ref.obj m ∈ s.refs ↔ s = .obj (some m) := by
  cases s with
  | atom d => simp [Slot.refs]
  | obj d => cases d <;> simp [Slot.refs]; exact eq_comm
  | list l => simp [Slot.refs]

/-- An item is replaced by one that has the same list, if any. -/
theorem Inv.putItem {W : World K A} {S : Ref → Prop} {h : Heap K A} (I : Inv W S h) {l i : Nat} (hl : l < h.nLst) {s s' : Slot A} (hs : (h.lst l).items[i]? = some s)
    (hf : Fits W h (h.lst l).elem s') (hsame : ∀ m, s' = .list m ↔ s = .list m) (hc : S (.lst l) → ∀ j, s' = .obj (some j) → S (.obj j)) :
    Inv W S (h.putItem l i s') := by
  have hold : S (.lst l) → ∀ y ∈ (h.lst l).items, ∀ r ∈ y.refs, S r := fun hsl y hy r hr =>
    I.clo (.lst l) (by simpa [Heap.has] using hl) hsl r (by simp only [Heap.next, List.mem_flatMap]; exact ⟨y, hy, hr⟩)
  have hconv : ∀ (j m : Nat), (replace s' i (h.lst l).items)[j]? = some (.list m) → (h.lst l).items[j]? = some (.list m) := by
    intro j m hj
    rw [getElem?_replace] at hj
    split at hj
    · next hh => rw [hh.1, hs, (hsame m).mp (by simpa using hj)]
    · exact hj
  refine I.put hl _ rfl ?_ (fun j m hj => .inl ⟨j, hconv j m hj⟩) ?_ ?_
  · intro j y hy
    simp only [getElem?_replace] at hy
    split at hy
    · simp at hy; subst hy; exact hf
    · exact I.lsts l hl j y hy
  · intro j k m hj hk
    have := I.own (.item l j) (.item l k) m (slotAt_item.mpr ⟨hl, hconv j m hj⟩) (slotAt_item.mpr ⟨hl, hconv k m hk⟩)
    simpa using this
  · intro hsl y hy r hr
    rcases mem_replace hy with rfl | hy
    · cases r with
      | obj j => exact hc hsl j (refs_obj.mp hr)
      | lst m => exact hold hsl s (List.mem_iff_getElem?.mpr ⟨i, hs⟩) _ (refs_list.mpr ((hsame m).mp (refs_list.mp hr)))
    · exact hold hsl y hy r hr

/-- A new field. -/
theorem fresh_ok {W : World K A} {S : Ref → Prop} {h : Heap K A} (I : Inv W S h) (t : Kind K) :
    Inv W S (fresh t h).1 ∧ (∀ s, Frame h (fresh t h).1 s) ∧ Fits W (fresh t h).1 t (fresh t h).2 ∧
    (∀ l, (fresh t h).2 = .list l → l = h.nLst ∧ (fresh t h).1.nLst = h.nLst + 1 ∧ ∀ P, (fresh t h).1.slotAt P ≠ some (.list l)) ∧ (∀ j, (fresh t h).2 ≠ .obj (some j)) := by
  cases t with
  | atom k => exact ⟨I, fun _ => .rfl', Held.unset, by simp [fresh], by simp [fresh]⟩
  | obj c => exact ⟨I, fun _ => .rfl', by simp [fresh, Fits], by simp [fresh], by simp [fresh]⟩
  | list t =>
    have hne : ∀ l, l < h.nLst → l ≠ h.nLst := fun l hl => by omega
    have hfr : ∀ s, Frame h (fresh (.list t) h).1 s := fun s => by
      refine ⟨rfl, rfl, ?_, ?_, ?_⟩
      · simp [fresh]
      · intro l hl; simp [fresh, Heap.putLst, hne l hl]
      · intro l hl _; simp [fresh, Heap.putLst, hne l hl]
    have hfit : ∀ {t' s}, Fits W h t' s → Fits W (fresh (.list t) h).1 t' s := fun f => f.frame (hfr (.atom none))
    have hat : ∀ P s, (fresh (.list t) h).1.slotAt P = some s → h.slotAt P = some s := by
      intro P s hp
      cases P with
      | field o f => exact hp
      | item l i =>
        rw [slotAt_item] at hp ⊢
        have hlt : l < h.nLst + 1 := hp.1
        by_cases hl : l = h.nLst
        · subst l; simp [fresh, Heap.putLst] at hp
        · refine ⟨by omega, ?_⟩
          have := hp.2
          simpa [fresh, Heap.putLst, hl] using this
    refine ⟨⟨I.len, fun o ho i t' s a b => hfit (I.objs o ho i t' s a b), ?_, fun P Q l a b => I.own P Q l (hat P _ a) (hat Q _ b), ?_, ?_⟩, hfr, ?_, ?_, by simp [fresh]⟩
    · intro l hl i s hs
      have hat' := hat (.item l i) s (slotAt_item.mpr ⟨hl, hs⟩)
      rw [slotAt_item] at hat'
      rw [(hfr (.atom none)).elem l hat'.1]
      exact hfit (I.lsts l hat'.1 i s hat'.2)
    · intro r hr hs x hx
      cases r with
      | obj o => exact I.clo (.obj o) hr hs x hx
      | lst l =>
        simp only [Heap.next, List.mem_flatMap] at hx
        obtain ⟨s, h1, h2⟩ := hx
        obtain ⟨i, hi⟩ := List.mem_iff_getElem?.mp h1
        have hlt : l < (fresh (.list t) h).1.nLst := by simpa [Heap.has] using hr
        have hat' := hat (.item l i) s (slotAt_item.mpr ⟨hlt, hi⟩)
        rw [slotAt_item] at hat'
        exact I.clo (.lst l) (by simpa [Heap.has] using hat'.1) hs x (by simp only [Heap.next, List.mem_flatMap]; exact ⟨s, List.mem_iff_getElem?.mpr ⟨i, hat'.2⟩, h2⟩)
    · intro l hl; exact I.new l (by have : h.nLst + 1 ≤ l := hl; omega)
    · simp [fresh, Fits, Heap.putLst]
    · intro l hl
      simp only [fresh, Slot.list.injEq] at hl
      subst hl
      refine ⟨rfl, rfl, fun P hp => ?_⟩
      have := I.listOld (hat P _ hp)
      omega

/-- What `setData` of a field guarantees. -/
structure Ok (W : World K A) (S : Ref → Prop) (h : Heap K A) (t : Kind K) (s : Slot A) (r : Res K A) : Prop where
  inv : Inv W S r.heap
  fits : Fits W r.heap t r.slot
  same : ∀ l, r.slot = .list l ↔ s = .list l
  frame : Frame h r.heap s
  obj : ∀ i, r.slot = .obj (some i) → S (.obj i) ∨ s = .obj (some i)

def Sets (W : World K A) (S : Ref → Prop) (t : Kind K) (set : Heap K A → Slot A → Py A → Res K A) : Prop :=
  ∀ h s v, Inv W S h → Fits W h t s → Good S h v → Ok W S h t s (set h s v)

/-- A new field at the end of a list. -/
theorem push_ok {W : World K A} {S : Ref → Prop} {t : Kind K} {h : Heap K A} (I : Inv W S h)
    {l : Nat} (hl : l < h.nLst) (he : (h.lst l).elem = t) :
    Inv W S ((fresh t h).1.putLst l { (fresh t h).1.lst l with items := ((fresh t h).1.lst l).items ++ [(fresh t h).2] }) := by
  obtain ⟨If, hfr, hfit, hlist, hobj⟩ := fresh_ok I t
  generalize hF : fresh t h = F at *
  have hlF : l < F.1.nLst := by have := (hfr (.atom none)).nLst; omega
  have hitems : F.1.lst l = h.lst l := (hfr (.atom none)).lst l hl (by simp)
  have heF : (F.1.lst l).elem = t := by rw [hitems]; exact he
  have hSlot : ∀ m, F.2 = .list m → S (.lst m) := fun m hm => I.new m (by have := (hlist m hm).1; omega)
  have hget : ∀ (i : Nat) (s : Slot A), ((F.1.lst l).items ++ [F.2])[i]? = some s → (F.1.lst l).items[i]? = some s ∨ (i = (F.1.lst l).items.length ∧ s = F.2) := by
    intro i s hi
    rw [List.getElem?_append] at hi
    split at hi
    · exact .inl hi
    · next hge =>
      have hi' := List.getElem?_eq_some_iff.mp hi
      obtain ⟨hlt, hv⟩ := hi'
      simp at hlt
      refine .inr ⟨by omega, ?_⟩
      have h0 : i - (F.1.lst l).items.length = 0 := by omega
      rw [h0] at hi
      simpa using hi.symm
  refine If.put hlF _ rfl ?_ ?_ ?_ ?_
  · intro i s hi
    rcases hget i s hi with hi | ⟨_, rfl⟩
    · exact If.lsts l hlF i s hi
    · show Fits W F.1 (F.1.lst l).elem F.2
      rw [heF]; exact hfit
  · intro i m hi
    rcases hget i _ hi with hi | ⟨_, hi⟩
    · exact .inl ⟨i, hi⟩
    · exact .inr (hlist m hi.symm).2.2
  · intro i j m hi hj
    rcases hget i _ hi with hi | ⟨hi, hi'⟩ <;> rcases hget j _ hj with hj | ⟨hj, hj'⟩
    · have := If.own (.item l i) (.item l j) m (slotAt_item.mpr ⟨hlF, hi⟩) (slotAt_item.mpr ⟨hlF, hj⟩)
      simpa using this
    · exact absurd (slotAt_item.mpr ⟨hlF, hi⟩) ((hlist m hj'.symm).2.2 _)
    · exact absurd (slotAt_item.mpr ⟨hlF, hj⟩) ((hlist m hi'.symm).2.2 _)
    · omega
  · intro hs y hy r hr
    rcases List.mem_append.mp hy with hy | hy
    · exact If.clo (.lst l) (by simpa [Heap.has] using hlF) hs r (by simp only [Heap.next, List.mem_flatMap]; exact ⟨y, hy, hr⟩)
    · simp at hy; subst hy
      cases r with
      | obj j => exact absurd (refs_obj.mp hr) (hobj j)
      | lst m => exact hSlot m (refs_list.mp hr)

theorem append_ok {W : World K A} {S : Ref → Prop} {t : Kind K} {set : Heap K A → Slot A → Py A → Res K A} (hset : Sets W S t set) {h : Heap K A} (I : Inv W S h)
    {l : Nat} (hl : l < h.nLst) (he : (h.lst l).elem = t) {v : Py A} (g : Good S h v) :
    Inv W S (append set t l h v).2 ∧ Frame h (append set t l h v).2 (.list l) := by
  obtain ⟨If, hfr, hfit, hlist, hobj⟩ := fresh_ok I t
  generalize hF : fresh t h = F at *
  have hlF : l < F.1.nLst := by have := (hfr (.atom none)).nLst; omega
  have hitems : F.1.lst l = h.lst l := (hfr (.atom none)).lst l hl (by simp)
  have heF : (F.1.lst l).elem = t := by rw [hitems]; exact he
  have hSlot : ∀ m, F.2 = .list m → S (.lst m) := fun m hm => I.new m (by have := (hlist m hm).1; omega)
  have I1 := push_ok I hl he
  rw [hF] at I1
  have f1 : Frame h (F.1.putLst l { F.1.lst l with items := (F.1.lst l).items ++ [F.2] }) (.list l) :=
    (hfr (.list l)).trans (Frame.put F.1 l _ rfl) (fun _ hm _ => hm)
  have fit1 : Fits W (F.1.putLst l { F.1.lst l with items := (F.1.lst l).items ++ [F.2] }) t F.2 :=
    hfit.frame (Frame.put F.1 l { F.1.lst l with items := (F.1.lst l).items ++ [F.2] } rfl)
  have ok := hset _ F.2 v I1 fit1 (g.frame f1)
  unfold append
  dsimp only
  simp only [hF]
  generalize hH1 : F.1.putLst l { F.1.lst l with items := (F.1.lst l).items ++ [F.2] } = H1 at *
  have hl1 : l < H1.nLst := by rw [← hH1]; exact hlF
  have hne : F.2 ≠ .list l := fun hh => by have := (hlist l hh).1; omega
  have hit1 : H1.lst l = { h.lst l with items := (h.lst l).items ++ [F.2] } := by rw [← hH1]; simp only [Heap.putLst, if_true, hitems]
  have hit2 : (set H1 F.2 v).heap.lst l = { h.lst l with items := (h.lst l).items ++ [F.2] } := by rw [ok.frame.lst l hl1 hne, hit1]
  have hl2 : l < (set H1 F.2 v).heap.nLst := by have := ok.frame.nLst; omega
  have I2 : Inv W S ((set H1 F.2 v).heap.putItem l (h.lst l).items.length (set H1 F.2 v).slot) := by
    refine ok.inv.putItem hl2 (s := F.2) (by rw [hit2]; simp) ?_ ok.same ?_
    · rw [hit2]; show Fits W _ (h.lst l).elem _; rw [he]; exact ok.fits
    · intro _ j hj
      exact (ok.obj j hj).resolve_right (hobj j)
  have f2 : Frame h ((set H1 F.2 v).heap.putItem l (h.lst l).items.length (set H1 F.2 v).slot) (.list l) := by
    refine (f1.trans ok.frame fun m hm hlt => ?_).trans (Frame.put _ l _ rfl) fun _ hm _ => hm
    have := (hlist m hm).1; omega
  split
  · exact ⟨I2, f2⟩
  · have hl3 : l < ((set H1 F.2 v).heap.putItem l (h.lst l).items.length (set H1 F.2 v).slot).nLst := hl2
    exact ⟨I2.flag hl3 true, f2.trans (Frame.put _ l _ rfl) fun _ hm _ => hm⟩

def Src.Good (S : Ref → Prop) (h : Heap K A) : Src A → Prop
  | .slot s => ∀ r ∈ s.refs, h.has r = true ∧ (S r ∨ h.flatList r)
  | .val v => Alias.Good S h v

theorem Src.Good.frame {S : Ref → Prop} {h h' : Heap K A} {s : Slot A} (a : Frame h h' s) {x : Src A} (g : x.Good S h) : x.Good S h' := by
  cases x with
  | slot y => exact fun r hr => ⟨a.has (g r hr).1, (g r hr).2.imp id (a.flatList (g r hr).1)⟩
  | val v => exact Alias.Good.frame a g

theorem Src.Good.now {S : Ref → Prop} {h : Heap K A} {x : Src A} (g : x.Good S h) : Alias.Good S h (x.now h) := by
  cases x with
  | val v => exact g
  | slot s =>
    intro r hr
    refine g r ?_
    cases s with
    | atom d => cases d <;> simp [Src.now, read, Py.refs] at hr
    | obj d => cases d <;> simp [Src.now, read, Py.refs, Slot.refs] at hr ⊢; exact hr
    | list l =>
      simp only [Src.now, read] at hr
      split at hr
      · simpa [Py.refs, Slot.refs] using hr
      · simp [Py.refs] at hr

theorem appendAll_ok {W : World K A} {S : Ref → Prop} {t : Kind K} {set : Heap K A → Slot A → Py A → Res K A} (hset : Sets W S t set) {l : Nat}
    (xs : List (Src A)) : ∀ {h : Heap K A}, Inv W S h → l < h.nLst → (h.lst l).elem = t → (∀ x ∈ xs, x.Good S h) →
    Inv W S (appendAll set t l h xs).2 ∧ Frame h (appendAll set t l h xs).2 (.list l) := by
  induction xs with
  | nil => intro h I _ _ _; exact ⟨I, .rfl'⟩
  | cons x xs ih =>
    intro h I hl he g
    have a := append_ok hset I hl he (g x (by simp)).now
    unfold appendAll
    generalize hR : append set t l h (x.now h) = R at *
    obtain ⟨b, h'⟩ := R
    cases b with
    | true => exact a
    | false =>
      have hl' : l < h'.nLst := by have := a.2.nLst; dsimp only at this; omega
      have b := ih a.1 hl' (by rw [a.2.elem l hl]; exact he) fun y hy => (g y (by simp [hy])).frame a.2
      exact ⟨b.1, a.2.trans b.2 fun _ hm _ => hm⟩

theorem refill_ok {W : World K A} {S : Ref → Prop} {t : Kind K} {set : Heap K A → Slot A → Py A → Res K A} (hset : Sets W S t set) {l : Nat}
    (src : Heap K A → List (Src A)) {h : Heap K A} (I : Inv W S h) (hl : l < h.nLst) (he : (h.lst l).elem = t)
    (g : ∀ h1, Inv W S h1 → Frame h h1 (.list l) → ∀ x ∈ src h1, x.Good S h1) :
    Inv W S (refill set t l h src).2 ∧ Frame h (refill set t l h src).2 (.list l) := by
  have I1 : Inv W S (h.putLst l { h.lst l with items := [] }) := I.put hl _ rfl (by simp) (by simp) (by simp) (by simp)
  have f1 : Frame h (h.putLst l { h.lst l with items := [] }) (.list l) := Frame.put h l _ rfl
  have hl1 : l < (h.putLst l { h.lst l with items := [] }).nLst := hl
  have a := appendAll_ok hset (src (h.putLst l { h.lst l with items := [] })) I1 hl1 (by rw [f1.elem l hl]; exact he) (g _ I1 f1)
  unfold refill
  dsimp only
  generalize hH : h.putLst l { h.lst l with items := [] } = H1 at *
  generalize hR : appendAll set t l H1 (src H1) = R at *
  obtain ⟨b, h'⟩ := R
  cases b with
  | true => exact ⟨a.1, f1.trans a.2 fun _ hm _ => hm⟩
  | false =>
    have hl' : l < h'.nLst := by have := a.2.nLst; have := f1.nLst; dsimp only at *; omega
    refine ⟨a.1.flag hl' true, (f1.trans a.2 fun _ hm _ => hm).trans (Frame.put _ l _ rfl) fun _ hm _ => hm⟩

theorem plain_good {S : Ref → Prop} {h : Heap K A} {vs : List (Py A)} (g : Good S h (.plain vs)) : ∀ v ∈ vs, Good S h v := by
  intro v hv r hr
  refine g r ?_
  simp only [Py.refs]
  induction vs with
  | nil => simp at hv
  | cons w ws ih =>
    simp only [Py.refs.go, List.mem_append]
    rcases List.mem_cons.mp hv with rfl | hv
    · exact .inl hr
    · exact .inr (ih (fun r hr => g r (by simp only [Py.refs, Py.refs.go, List.mem_append] at hr ⊢; exact .inr hr)) hv)

theorem fits_flat {W : World K A} {h : Heap K A} {t : Kind K} {s : Slot A} (f : Fits W h t s) (ht : t.flat = true) : ∀ r ∈ s.refs, h.has r = true ∧ h.flatList r := by
  intro r hr
  cases t with
  | obj c => simp [Kind.flat] at ht
  | atom k => cases s <;> simp only [Fits] at f <;> simp [Slot.refs] at hr
  | list t =>
    cases s <;> simp only [Fits] at f
    simp only [Slot.refs, List.mem_singleton] at hr
    subst hr
    refine ⟨by simpa [Heap.has] using f.1, ?_⟩
    simp only [Heap.flatList, f.2]
    simpa [Kind.flat] using ht

theorem setData_ok (W : World K A) (S : Ref → Prop) (t : Kind K) : Sets W S t (setData W t) := by
  induction t with
  | atom k =>
    intro h s v I f g
    cases s with
    | atom d =>
      cases v with
      | unset => exact ⟨I, .unset, by simp [setData], .rfl', by simp [setData]⟩
      | atom a => exact ⟨I, .store a f, by simp [setData], .rfl', by simp [setData]⟩
      | _ => exact ⟨I, f, by simp [setData], .rfl', by simp [setData]⟩
    | obj d => exact absurd f (by simp [Fits])
    | list l => exact absurd f (by simp [Fits])
  | obj c =>
    intro h s v I f g
    cases s with
    | atom d => exact absurd f (by simp [Fits])
    | list d => exact absurd f (by simp [Fits])
    | obj d =>
      cases v with
      | obj i =>
        simp only [setData]
        have hi := g (.obj i) (by simp [Py.refs])
        split
        · exact ⟨I, (by intro j hj; cases hj; exact ⟨by simpa [Heap.has] using hi.1, by assumption⟩), by simp, .rfl', fun j hj => .inl (by simp only [Slot.obj.injEq, Option.some.injEq] at hj; subst hj; simpa [Heap.flatList] using hi.2)⟩
        · exact ⟨I, f, by simp, .rfl', fun _ hj => .inr hj⟩
      | unset => exact ⟨I, by simp [setData, Fits], by simp [setData], .rfl', by simp [setData]⟩
      | _ => exact ⟨I, f, by simp [setData], .rfl', fun _ hj => .inr hj⟩
  | list t ih =>
    intro h s v I f g
    cases s with
    | atom d => exact absurd f (by simp [Fits])
    | obj d => exact absurd f (by simp [Fits])
    | list l =>
      have hflag : ∀ b, Ok W S h (.list t) (.list l) ⟨false, h.putLst l { h.lst l with isSet := b }, .list l⟩ := fun b =>
        ⟨I.flag f.1 b, f.frame (Frame.put h l { h.lst l with isSet := b } rfl), by simp, Frame.put h l _ rfl, by simp⟩
      have hfill : ∀ src, (∀ h1, Inv W S h1 → Frame h h1 (.list l) → ∀ x ∈ src h1, x.Good S h1) →
          Ok W S h (.list t) (.list l) ⟨(refill (setData W t) t l h src).1, (refill (setData W t) t l h src).2, .list l⟩ := fun src hg => by
        have a := refill_ok ih src I f.1 f.2 hg
        exact ⟨a.1, f.frame a.2, by simp, a.2, by simp⟩
      have hno : Ok W S h (.list t) (.list l) ⟨true, h, .list l⟩ := ⟨I, f, by simp, .rfl', by simp⟩
      cases v with
      | unset => simp only [setData]; exact hflag false
      | atom a => simp only [setData]; exact hno
      | obj i => simp only [setData]; exact hno
      | plain vs =>
        simp only [setData]
        refine hfill _ fun h1 _ fr x hx => ?_
        simp only [List.mem_map] at hx
        obtain ⟨v, hv, rfl⟩ := hx
        exact (plain_good g v hv).frame fr
      | list m =>
        simp only [setData]
        split
        · split
          · exact hno
          · exact hflag true
          · refine hfill _ fun h1 I1 fr x hx => ?_
            simp only [List.mem_map] at hx
            obtain ⟨y, hy, rfl⟩ := hx
            obtain ⟨i, hi⟩ := List.mem_iff_getElem?.mp hy
            obtain ⟨hm, hm'⟩ := (g.frame fr) (.lst m) (by simp [Py.refs])
            have hmlt : m < h1.nLst := by simpa [Heap.has] using hm
            have hfit := I1.lsts m hmlt i y hi
            rcases hm' with hm' | hm'
            · intro r hr
              refine ⟨?_, .inl (I1.clo (.lst m) hm hm' r (by simp only [Heap.next, List.mem_flatMap]; exact ⟨y, hy, hr⟩))⟩
              generalize (h1.lst m).elem = e at hfit
              cases r with
              | obj j =>
                rw [refs_obj] at hr; subst hr
                cases e <;> simp only [Fits] at hfit
                simpa [Heap.has] using (hfit j rfl).1
              | lst j =>
                rw [refs_list] at hr; subst hr
                cases e <;> simp only [Fits] at hfit
                simpa [Heap.has] using hfit.1
            · exact fun r hr => ⟨(fits_flat hfit hm' r hr).1, .inr (fits_flat hfit hm' r hr).2⟩
        · exact hflag false

/-! ## Operations -/

theorem freshAll_old (ts : List (Kind K)) : ∀ (h : Heap K A) (m : Nat), m < h.nLst → (freshAll ts h).1.lst m = h.lst m := by
  induction ts with
  | nil => intro h m _; rfl
  | cons t ts ih =>
    intro h m hm
    simp only [freshAll]
    have h1 : (fresh t h).1.lst m = h.lst m ∧ m < (fresh t h).1.nLst := by
      cases t with
      | atom k => exact ⟨rfl, hm⟩
      | obj k => exact ⟨rfl, hm⟩
      | list t =>
        have : m ≠ h.nLst := by omega
        simp only [fresh, Heap.putLst, this, if_false, true_and]
        omega
    rw [ih _ m h1.2, h1.1]

theorem freshAll_unset (ts : List (Kind K)) : ∀ (h : Heap K A) (i : Nat) (s : Slot A), (freshAll ts h).2[i]? = some s → read (freshAll ts h).1 s = .unset := by
  induction ts with
  | nil => intro h i s hs; simp [freshAll] at hs
  | cons t ts ih =>
    intro h i s hs
    simp only [freshAll] at hs ⊢
    cases i with
    | succ i => exact ih _ i s (by simpa using hs)
    | zero =>
      simp only [List.getElem?_cons_zero, Option.some.injEq] at hs
      subst hs
      cases t with
      | atom k => rfl
      | obj k => rfl
      | list t =>
        have h1 : ((freshAll ts (fresh (.list t) h).1).1.lst h.nLst).isSet = false := by
          rw [freshAll_old ts _ _ (by simp [fresh])]
          simp [fresh, Heap.putLst]
        show read _ (.list h.nLst) = .unset
        simp only [read, h1]
        rfl

theorem freshAll_empty (ts : List (Kind K)) : ∀ (h : Heap K A) (m i : Nat) (s : Slot A), h.nLst ≤ m → m < (freshAll ts h).1.nLst → ((freshAll ts h).1.lst m).items[i]? ≠ some s := by
  induction ts with
  | nil => intro h m i s h1 h2; simp [freshAll] at h2; omega
  | cons t ts ih =>
    intro h m i s h1 h2
    simp only [freshAll] at h2 ⊢
    by_cases hm : (fresh t h).1.nLst ≤ m
    · exact ih (fresh t h).1 m i s hm h2
    · cases t with
      | atom k => exact absurd h1 hm
      | obj k => exact absurd h1 hm
      | list t =>
        have : m = h.nLst := by have : ¬ h.nLst + 1 ≤ m := hm; omega
        subst this
        rw [freshAll_old ts _ _ (by simp [fresh])]
        simp [fresh, Heap.putLst]

theorem freshAll_ok {W : World K A} {S : Ref → Prop} (ts : List (Kind K)) : ∀ {h : Heap K A}, Inv W S h →
    Inv W S (freshAll ts h).1 ∧ (∀ s, Frame h (freshAll ts h).1 s) ∧ (freshAll ts h).2.length = ts.length ∧
    (∀ (i : Nat) (t : Kind K) (s : Slot A), ts[i]? = some t → (freshAll ts h).2[i]? = some s → Fits W (freshAll ts h).1 t s) ∧
    (∀ (i l : Nat), (freshAll ts h).2[i]? = some (.list l) → h.nLst ≤ l ∧ ∀ P, (freshAll ts h).1.slotAt P ≠ some (.list l)) ∧
    (∀ (i j l : Nat), (freshAll ts h).2[i]? = some (.list l) → (freshAll ts h).2[j]? = some (.list l) → i = j) ∧
    (∀ (i j : Nat), (freshAll ts h).2[i]? ≠ some (.obj (some j))) := by
  induction ts with
  | nil => intro h I; exact ⟨I, fun _ => .rfl', rfl, by simp [freshAll], by simp [freshAll], by simp [freshAll], by simp [freshAll]⟩
  | cons t ts ih =>
    intro h I
    obtain ⟨If, hfr, hfit, hlist, hobj⟩ := fresh_ok I t
    simp only [freshAll]
    generalize fresh t h = F at *
    obtain ⟨I2, fr2, len2, fit2, lst2, uni2, obj2⟩ := ih If
    have hno : ∀ l, F.2 = .list l → ∀ P, (freshAll ts F.1).1.slotAt P ≠ some (.list l) := by
      intro l hl P hp
      have hll := hlist l hl
      cases P with
      | field o f =>
        rw [slotAt_field, (fr2 (.atom none)).nObj, (fr2 (.atom none)).obj] at hp
        exact hll.2.2 (.field o f) (slotAt_field.mpr hp)
      | item m i =>
        rw [slotAt_item] at hp
        by_cases hm : m < F.1.nLst
        · rw [(fr2 (.atom none)).lst m hm (by simp)] at hp
          exact hll.2.2 (.item m i) (slotAt_item.mpr ⟨hm, hp.2⟩)
        · exact freshAll_empty ts F.1 m i _ (by omega) hp.1 hp.2
    refine ⟨I2, fun s => (hfr s).trans (fr2 s) fun _ hm _ => hm, by simp [len2], ?_, ?_, ?_, ?_⟩
    · intro i t' s h1 h2
      cases i with
      | zero => simp at h1 h2; subst h1 h2; exact hfit.frame (fr2 (.atom none))
      | succ i => exact fit2 i t' s (by simpa using h1) (by simpa using h2)
    · intro i l h1
      cases i with
      | zero => simp at h1; exact ⟨by have := (hlist l h1).1; omega, hno l h1⟩
      | succ i =>
        have := lst2 i l (by simpa using h1)
        exact ⟨by have := (hfr (.atom none)).nLst; omega, this.2⟩
    · intro i j l h1 h2
      cases i with
      | zero =>
        cases j with
        | zero => rfl
        | succ j =>
          simp at h1 h2
          have := lst2 j l h2
          have := hlist l h1
          omega
      | succ i =>
        cases j with
        | zero =>
          simp at h1 h2
          have := lst2 i l h1
          have := hlist l h2
          omega
        | succ j => exact congrArg (· + 1) (uni2 i j l (by simpa using h1) (by simpa using h2))
    · intro i j
      cases i with
      | zero => simpa using hobj j
      | succ i => simpa using obj2 i j

/-- What an operation does to the objects that exist. -/
structure Local (h h' : Heap K A) (tgt : Option Ref) : Prop where
  nObj : h.nObj ≤ h'.nObj
  nLst : h.nLst ≤ h'.nLst
  elem : ∀ l, l < h.nLst → (h'.lst l).elem = (h.lst l).elem
  cls : ∀ o, o < h.nObj → (h'.obj o).cls = (h.obj o).cls
  obj : ∀ o, o < h.nObj → tgt ≠ some (.obj o) → h'.obj o = h.obj o
  lst : ∀ l, l < h.nLst → tgt ≠ some (.lst l) → h'.lst l = h.lst l

theorem Local.same {h : Heap K A} {tgt : Option Ref} : Local h h tgt :=
  ⟨Nat.le_refl _, Nat.le_refl _, fun _ _ => rfl, fun _ _ => rfl, fun _ _ _ => rfl, fun _ _ _ => rfl⟩

theorem Frame.local {h h' : Heap K A} {l : Nat} (f : Frame h h' (.list l)) : Local h h' (some (.lst l)) :=
  ⟨Nat.le_of_eq f.nObj.symm, f.nLst, f.elem, fun o _ => by rw [f.obj], fun o _ _ => by rw [f.obj], fun m hm hne => f.lst m hm fun hh => by
    simp only [Slot.list.injEq] at hh; subst hh; exact hne rfl⟩

/-- The slots of an object are replaced, one by one that has the same list, if any. -/
theorem Inv.putSlot {W : World K A} {S : Ref → Prop} {h : Heap K A} (I : Inv W S h) {o f : Nat} (ho : o < h.nObj) {t : Kind K} {s s' : Slot A}
    (ht : (W.fields (h.obj o).cls)[f]? = some t) (hs : (h.obj o).slots[f]? = some s)
    (hf : Fits W h t s') (hsame : ∀ m, s' = .list m ↔ s = .list m) (hc : S (.obj o) → ∀ j, s' = .obj (some j) → S (.obj j)) :
    Inv W S (h.putObj o { h.obj o with slots := replace s' f (h.obj o).slots }) := by
  have hold : S (.obj o) → ∀ y ∈ (h.obj o).slots, ∀ r ∈ y.refs, S r := fun hsl y hy r hr =>
    I.clo (.obj o) (by simpa [Heap.has] using ho) hsl r (by simp only [Heap.next, List.mem_flatMap]; exact ⟨y, hy, hr⟩)
  have hfit : ∀ {t s}, Fits W h t s → Fits W (h.putObj o { h.obj o with slots := replace s' f (h.obj o).slots }) t s :=
    fun g => Fits.mono (h := h) (h' := h.putObj o { h.obj o with slots := replace s' f (h.obj o).slots }) rfl (Nat.le_refl h.nLst) (fun _ _ => rfl)
      (fun j => by simp only [Heap.putObj]; split <;> simp_all) g
  have hat : ∀ P m, (h.putObj o { h.obj o with slots := replace s' f (h.obj o).slots }).slotAt P = some (.list m) → h.slotAt P = some (.list m) := by
    intro P m hp
    cases P with
    | item k i => exact hp
    | field k i =>
      rw [slotAt_field] at hp ⊢
      refine ⟨hp.1, ?_⟩
      by_cases hk : k = o
      · subst k
        have h2 := hp.2
        simp only [Heap.putObj, if_true, getElem?_replace] at h2
        split at h2
        · next hh => rw [hh.1, hs, (hsame m).mp (by simpa using h2)]
        · exact h2
      · have h2 := hp.2
        simpa only [Heap.putObj, hk, if_false] using h2
  refine ⟨?_, ?_, fun l hl i y hy => hfit (I.lsts l hl i y hy), fun P Q m a b => I.own P Q m (hat P m a) (hat Q m b), ?_, I.new⟩
  · intro k hk
    by_cases hko : k = o
    · subst k; simp only [Heap.putObj, if_true, replace_length]; exact I.len o ho
    · simp only [Heap.putObj, hko, if_false]; exact I.len k hk
  · intro k hk i t' y h1 h2
    by_cases hko : k = o
    · subst k
      simp only [Heap.putObj, if_true, getElem?_replace] at h1 h2
      split at h2
      · next hh =>
        simp only [Option.some.injEq] at h2
        subst h2
        rw [hh.1, ht] at h1
        simp only [Option.some.injEq] at h1
        subst h1
        exact hfit hf
      · exact hfit (I.objs o ho i t' y h1 h2)
    · simp only [Heap.putObj, hko, if_false] at h1 h2
      exact hfit (I.objs k hk i t' y h1 h2)
  · intro r hr hsr x hx
    cases r with
    | lst l => exact I.clo (.lst l) hr hsr x hx
    | obj k =>
      by_cases hko : k = o
      · subst k
        simp only [Heap.next, Heap.putObj, if_true, List.mem_flatMap] at hx
        obtain ⟨y, hy, hxy⟩ := hx
        rcases mem_replace hy with rfl | hy
        · cases x with
          | obj j => exact hc hsr j (refs_obj.mp hxy)
          | lst m => exact hold hsr s (List.mem_iff_getElem?.mpr ⟨f, hs⟩) _ (refs_list.mpr ((hsame m).mp (refs_list.mp hxy)))
        · exact hold hsr y hy x hxy
      · simp only [Heap.next, Heap.putObj, hko, if_false] at hx
        exact I.clo (.obj k) hr hsr x hx

theorem replace_same {s : Slot A} {n : Nat} {xs : List (Slot A)} (h : xs[n]? = some s) : replace s n xs = xs := by
  apply List.ext_getElem?
  intro i
  rw [getElem?_replace]
  split
  · next hh => rw [hh.1, h]
  · rfl

theorem putObj_same (h : Heap K A) (o : Nat) : h.putObj o (h.obj o) = h := by
  unfold Heap.putObj
  have : (fun j => if j = o then h.obj o else h.obj j) = h.obj := by
    funext j; split
    · subst j; rfl
    · rfl
  rw [this]

theorem putLst_same (h : Heap K A) (o : Nat) : h.putLst o (h.lst o) = h := by
  unfold Heap.putLst
  have : (fun j => if j = o then h.lst o else h.lst j) = h.lst := by
    funext j; split
    · subst j; rfl
    · rfl
  rw [this]

theorem setAttr_ok {W : World K A} {S : Ref → Prop} {h : Heap K A} (I : Inv W S h) {o f : Nat} (ho : o < h.nObj) {v : Py A} (g : Good S h v) :
    Inv W S (setAttr W h o f v).2 ∧ Local h (setAttr W h o f v).2 ((Op.set o f v).target h) := by
  unfold setAttr
  split
  · next t s ht hs =>
    dsimp only
    have ok := setData_ok W S t h s v I (I.objs o ho f t s ht hs) g
    generalize setData W t h s v = R at *
    have hob : R.heap.obj = h.obj := ok.frame.obj
    have ho' : o < R.heap.nObj := by rw [ok.frame.nObj]; exact ho
    have I' : Inv W S (R.heap.putObj o { R.heap.obj o with slots := replace R.slot f (R.heap.obj o).slots }) := by
      refine ok.inv.putSlot ho' (t := t) (s := s) (by rw [hob]; exact ht) (by rw [hob]; exact hs) ok.fits ok.same ?_
      intro hso j hj
      rcases ok.obj j hj with h1 | h1
      · exact h1
      · exact I.clo (.obj o) (by simpa [Heap.has] using ho) hso (.obj j)
          (by simp only [Heap.next, List.mem_flatMap]; exact ⟨s, List.mem_iff_getElem?.mpr ⟨f, hs⟩, refs_obj.mpr h1⟩)
    refine ⟨I', ?_⟩
    cases s with
    | list l =>
      have hsl : R.slot = .list l := (ok.same l).mpr rfl
      have : R.heap.putObj o { R.heap.obj o with slots := replace R.slot f (R.heap.obj o).slots } = R.heap := by
        rw [hsl, replace_same (by rw [hob]; exact hs)]
        exact putObj_same R.heap o
      rw [this]
      simp only [Op.target, hs]
      exact ok.frame.local
    | atom d =>
      simp only [Op.target, hs]
      have fr := ok.frame
      refine ⟨Nat.le_of_eq fr.nObj.symm, fr.nLst, fr.elem, ?_, ?_, fun l hl _ => fr.lst l hl (by simp)⟩
      · intro k _; simp only [Heap.putObj, hob]; split
        · next hh => rw [hh]
        · rfl
      · intro k _ hne; simp only [Heap.putObj, hob]; rw [if_neg]; intro hh; subst hh; exact hne rfl
    | obj d =>
      simp only [Op.target, hs]
      have fr := ok.frame
      refine ⟨Nat.le_of_eq fr.nObj.symm, fr.nLst, fr.elem, ?_, ?_, fun l hl _ => fr.lst l hl (by simp)⟩
      · intro k _; simp only [Heap.putObj, hob]; split
        · next hh => rw [hh]
        · rfl
      · intro k _ hne; simp only [Heap.putObj, hob]; rw [if_neg]; intro hh; subst hh; exact hne rfl
  · exact ⟨I, .same⟩

theorem setItem_ok {W : World K A} {S : Ref → Prop} {h : Heap K A} (I : Inv W S h) {l i : Nat} (hl : l < h.nLst) {v : Py A} (g : Good S h v) :
    Inv W S (setItem W h l i v).2 ∧ Local h (setItem W h l i v).2 ((Op.item l i v).target h) := by
  unfold setItem
  split
  · next s hs =>
    dsimp only
    have ok := setData_ok W S (h.lst l).elem h s v I (I.lsts l hl i s hs) g
    generalize setData W (h.lst l).elem h s v = R at *
    have hl' : l < R.heap.nLst := by have := ok.frame.nLst; omega
    by_cases hsl : s = .list l
    · -- the list itself is not one of its items
      subst hsl
      have := I.lsts l hl i _ hs
      generalize he : (h.lst l).elem = e at this
      cases e with
      | list t =>
        have h2 := this.2
        rw [he] at h2
        exact absurd h2 (by intro h3; have := congrArg sizeOf h3; simp at this)
      | atom k => exact absurd this (by simp [Fits])
      | obj k => exact absurd this (by simp [Fits])
    · have hlst : R.heap.lst l = h.lst l := ok.frame.lst l hl hsl
      have I' : Inv W S (R.heap.putItem l i R.slot) := by
        refine ok.inv.putItem hl' (s := s) (by rw [hlst]; exact hs) (by rw [hlst]; exact ok.fits) ok.same ?_
        intro hso j hj
        rcases ok.obj j hj with h1 | h1
        · exact h1
        · exact I.clo (.lst l) (by simpa [Heap.has] using hl) hso (.obj j)
            (by simp only [Heap.next, List.mem_flatMap]; exact ⟨s, List.mem_iff_getElem?.mpr ⟨i, hs⟩, refs_obj.mpr h1⟩)
      refine ⟨I', ?_⟩
      have hput : Frame R.heap (R.heap.putItem l i R.slot) (.list l) := Frame.put _ l _ rfl
      cases s with
      | list m =>
        have hsm : R.slot = .list m := (ok.same m).mpr rfl
        have : R.heap.putItem l i R.slot = R.heap := by
          unfold Heap.putItem
          rw [hsm, replace_same (by rw [hlst]; exact hs)]
          exact putLst_same R.heap l
        rw [this]
        simp only [Op.target, hs]
        exact ok.frame.local
      | atom d =>
        simp only [Op.target, hs]
        exact (Frame.trans (s := .list l) ⟨ok.frame.obj, ok.frame.nObj, ok.frame.nLst, ok.frame.elem, fun m hm _ => ok.frame.lst m hm (by simp)⟩ hput fun _ hm _ => hm).local
      | obj d =>
        simp only [Op.target, hs]
        exact (Frame.trans (s := .list l) ⟨ok.frame.obj, ok.frame.nObj, ok.frame.nLst, ok.frame.elem, fun m hm _ => ok.frame.lst m hm (by simp)⟩ hput fun _ hm _ => hm).local
  · exact ⟨I, .same⟩

theorem pop_ok {W : World K A} {S : Ref → Prop} {h : Heap K A} (I : Inv W S h) {l : Nat} (hl : l < h.nLst) (i : Nat) :
    Inv W S (pop h l i).2 ∧ Local h (pop h l i).2 (some (.lst l)) := by
  unfold pop
  split
  · dsimp only
    refine ⟨I.put hl _ rfl ?_ ?_ ?_ ?_, (Frame.put h l { h.lst l with items := (h.lst l).items.eraseIdx i } rfl).local⟩
    · intro j s hs
      simp only [List.getElem?_eraseIdx] at hs
      split at hs
      · exact I.lsts l hl _ s hs
      · exact I.lsts l hl _ s hs
    · intro j m hs
      simp only [List.getElem?_eraseIdx] at hs
      split at hs
      · exact .inl ⟨_, hs⟩
      · exact .inl ⟨_, hs⟩
    · intro j k m hj hk
      simp only [List.getElem?_eraseIdx] at hj hk
      split at hj <;> split at hk
      all_goals
        have := I.own (.item l _) (.item l _) m (slotAt_item.mpr ⟨hl, hj⟩) (slotAt_item.mpr ⟨hl, hk⟩)
        simp only [Place.item.injEq] at this
        omega
    · intro hs y hy r hr
      exact I.clo (.lst l) (by simpa [Heap.has] using hl) hs r (by simp only [Heap.next, List.mem_flatMap]; exact ⟨y, List.mem_of_mem_eraseIdx hy, hr⟩)
  · exact ⟨I, .same⟩

theorem make_ok {W : World K A} {S : Ref → Prop} {h : Heap K A} (I : Inv W S h) (c : Cls) : Inv W S (make W h c) ∧ Local h (make W h c) none := by
  obtain ⟨I2, fr, len, fit, lst, uni, nobj⟩ := freshAll_ok (W := W) (S := S) (W.fields c) I
  unfold make
  generalize freshAll (W.fields c) h = F at *
  have fr := fr (.atom none)
  have hob := fr.obj
  have hn := fr.nObj
  have hfit : ∀ {t s}, Fits W F.1 t s → Fits W { F.1.putObj h.nObj ⟨c, F.2⟩ with nObj := h.nObj + 1 } t s := by
    intro t s g
    cases t <;> cases s <;> simp only [Fits] at g ⊢
    · exact g
    · intro i hi; have := g i hi; have hx : i < h.nObj := by omega
      refine ⟨by omega, ?_⟩
      have e : ({ F.1.putObj h.nObj ⟨c, F.2⟩ with nObj := h.nObj + 1 } : Heap K A).obj i = F.1.obj i := by simp only [Heap.putObj]; rw [if_neg (by omega)]
      rw [e]; exact this.2
    · exact g
  have hat : ∀ P m, Heap.slotAt { F.1.putObj h.nObj ⟨c, F.2⟩ with nObj := h.nObj + 1 } P = some (.list m) →
      (∃ i : Nat, P = .field h.nObj i ∧ F.2[i]? = some (.list m)) ∨ F.1.slotAt P = some (.list m) := by
    intro P m hp
    cases P with
    | item l i => exact .inr hp
    | field o i =>
      rw [slotAt_field] at hp
      have h1 : o < h.nObj + 1 := hp.1
      by_cases hoo : o = h.nObj
      · subst hoo
        have h2 := hp.2
        simp only [Heap.putObj, if_true] at h2
        exact .inl ⟨i, rfl, h2⟩
      · have h2 := hp.2
        simp only [Heap.putObj, hoo, if_false] at h2
        exact .inr (slotAt_field.mpr ⟨by omega, h2⟩)
  constructor
  · refine ⟨?_, ?_, fun l hl i s hs => hfit (I2.lsts l hl i s hs), ?_, ?_, I2.new⟩
    · intro o ho
      have h1 : o < h.nObj + 1 := ho
      by_cases hoo : o = h.nObj
      · simp only [Heap.putObj, hoo, if_true]; exact len
      · simp only [Heap.putObj, hoo, if_false]; exact I2.len o (by omega)
    · intro o ho i t s a b
      have h1 : o < h.nObj + 1 := ho
      by_cases hoo : o = h.nObj
      · simp only [Heap.putObj, hoo, if_true] at a b; exact hfit (fit i t s a b)
      · simp only [Heap.putObj, hoo, if_false] at a b; exact hfit (I2.objs o (by omega) i t s a b)
    · intro P Q m hp hq
      rcases hat P m hp with ⟨i, rfl, hi⟩ | hi <;> rcases hat Q m hq with ⟨j, rfl, hj⟩ | hj
      · rw [uni i j m hi hj]
      · exact absurd hj ((lst i m hi).2 Q)
      · exact absurd hi ((lst j m hj).2 P)
      · exact I2.own P Q m hi hj
    · intro r hr hs x hx
      cases r with
      | lst l => exact I2.clo (.lst l) hr hs x hx
      | obj o =>
        have h1 : o < h.nObj + 1 := by simpa [Heap.has] using hr
        by_cases hoo : o = h.nObj
        · simp only [Heap.next, Heap.putObj, hoo, if_true, List.mem_flatMap] at hx
          obtain ⟨y, hy, hxy⟩ := hx
          obtain ⟨i, hi⟩ := List.mem_iff_getElem?.mp hy
          cases x with
          | obj j => rw [refs_obj] at hxy; subst hxy; exact absurd hi (nobj i j)
          | lst m => rw [refs_list] at hxy; subst hxy; exact I.new m (lst i m hi).1
        · simp only [Heap.next, Heap.putObj, hoo, if_false] at hx
          exact I2.clo (.obj o) (by simp only [Heap.has, decide_eq_true_eq]; omega) hs x hx
  · refine ⟨Nat.le_succ _, fr.nLst, fr.elem, ?_, ?_, fun l hl _ => fr.lst l hl (by simp)⟩
    · intro o ho
      have : o ≠ h.nObj := by omega
      simp only [Heap.putObj, this, if_false, hob]
    · intro o ho _
      have : o ≠ h.nObj := by omega
      simp only [Heap.putObj, this, if_false, hob]

theorem step_ok {W : World K A} {S : Ref → Prop} {h : Heap K A} (I : Inv W S h) (op : Op A) (g : ∀ r ∈ op.given, S r ∨ h.flatList r) : Inv W S (step W h op).2 ∧ Local h (step W h op).2 (op.target h) := by
  unfold step
  split
  · next hr =>
    rw [List.all_eq_true] at hr
    cases op with
    | new c => exact make_ok I c
    | set o f v =>
      exact setAttr_ok I (by simpa [Heap.has] using hr (.obj o) (by simp [Op.refs])) (fun r h1 => ⟨hr r (by simp [Op.refs, h1]), g r h1⟩)
    | append l v =>
      have hl : l < h.nLst := by simpa [Heap.has] using hr (.lst l) (by simp [Op.refs])
      have a := append_ok (setData_ok W S (h.lst l).elem) I hl rfl (v := v) (fun r h1 => ⟨hr r (by simp [Op.refs, h1]), g r h1⟩)
      exact ⟨a.1, a.2.local⟩
    | pop l i => exact pop_ok I (by simpa [Heap.has] using hr (.lst l) (by simp [Op.refs])) i
    | item l i v =>
      exact setItem_ok I (by simpa [Heap.has] using hr (.lst l) (by simp [Op.refs])) (fun r h1 => ⟨hr r (by simp [Op.refs, h1]), g r h1⟩)
  · exact ⟨I, .same⟩

/-! ## Parts and values -/

variable {B : Type} {f : A → B}

theorem Inv.weaken {W : World K A} {S : Ref → Prop} {h : Heap K A} (I : Inv W S h) : Inv W (fun _ => True) h :=
  ⟨I.len, I.objs, I.lsts, I.own, fun _ _ _ _ _ => trivial, fun _ _ => trivial⟩

theorem Inv.region {W : World K A} {S S' : Ref → Prop} {h : Heap K A} (I : Inv W S h) (c : ∀ r, h.has r = true → S' r → ∀ x ∈ h.next r, S' x)
    (n : ∀ l, h.nLst ≤ l → S' (.lst l)) : Inv W S' h := ⟨I.len, I.objs, I.lsts, I.own, c, n⟩

theorem Fits.has {W : World K A} {h : Heap K A} {t : Kind K} {s : Slot A} (f : Fits W h t s) : ∀ r ∈ s.refs, h.has r = true := by
  intro r hr
  cases r with
  | obj j =>
    rw [refs_obj] at hr; subst hr
    cases t <;> simp only [Fits] at f
    simpa [Heap.has] using (f j rfl).1
  | lst j =>
    rw [refs_list] at hr; subst hr
    cases t <;> simp only [Fits] at f
    simpa [Heap.has] using f.1

theorem Inv.hasNext {W : World K A} {S : Ref → Prop} {h : Heap K A} (I : Inv W S h) {r x : Ref} (hr : h.has r = true) (hx : x ∈ h.next r) : h.has x = true := by
  cases r with
  | obj o =>
    simp only [Heap.next, List.mem_flatMap] at hx
    obtain ⟨s, h1, h2⟩ := hx
    obtain ⟨i, hi⟩ := List.mem_iff_getElem?.mp h1
    obtain ⟨t, ht⟩ := I.fits (P := .field o i) (slotAt_field.mpr ⟨by simpa [Heap.has] using hr, hi⟩)
    exact ht.has x h2
  | lst l =>
    simp only [Heap.next, List.mem_flatMap] at hx
    obtain ⟨s, h1, h2⟩ := hx
    obtain ⟨i, hi⟩ := List.mem_iff_getElem?.mp h1
    exact (I.lsts l (by simpa [Heap.has] using hr) i s hi).has x h2

theorem Inv.hasPart {W : World K A} {S : Ref → Prop} {h : Heap K A} (I : Inv W S h) {r x : Ref} (hr : h.has r = true) (p : Part h r x) : h.has x = true := by
  induction p with
  | self => exact hr
  | next _ hy ih => exact I.hasNext ih hy

theorem Part.trans {h : Heap K A} {r x y : Ref} (a : Part h r x) (b : Part h x y) : Part h r y := by
  induction b with
  | self => exact a
  | next _ hy ih => exact .next ih hy

theorem Local.next {h h' : Heap K A} {tgt : Option Ref} (L : Local h h' tgt) {r : Ref} (hr : h.has r = true) (hne : tgt ≠ some r) : h'.next r = h.next r := by
  cases r with
  | obj o => simp only [Heap.next]; rw [L.obj o (by simpa [Heap.has] using hr) hne]
  | lst l => simp only [Heap.next]; rw [L.lst l (by simpa [Heap.has] using hr) hne]

theorem Local.has {h h' : Heap K A} {tgt : Option Ref} (L : Local h h' tgt) {r : Ref} (hr : h.has r = true) : h'.has r = true := by
  cases r <;> simp only [Heap.has, decide_eq_true_eq] at hr ⊢
  · have := L.nObj; omega
  · have := L.nLst; omega

/-- The parts remain the same, if none of them is changed. -/
theorem Local.part {W : World K A} {S : Ref → Prop} {h h' : Heap K A} {tgt : Option Ref} (I : Inv W S h) (L : Local h h' tgt) {r : Ref} (hr : h.has r = true)
    (hne : ∀ x, tgt = some x → ¬ Part h r x) (x : Ref) : Part h' r x ↔ Part h r x := by
  constructor
  · intro p
    induction p with
    | self => exact .self
    | next _ hy ih =>
      rw [L.next (I.hasPart hr ih) fun hh => hne _ hh ih] at hy
      exact .next ih hy
  · intro p
    induction p with
    | self => exact .self
    | next p hy ih =>
      rw [← L.next (I.hasPart hr p) fun hh => hne _ hh p] at hy
      exact .next ih hy

/-- Values in a region that is not changed remain the same. -/
theorem Local.value {W : World K A} {S : Ref → Prop} {h h' : Heap K A} {tgt : Option Ref} (I : Inv W S h) (L : Local h h' tgt) (hne : ∀ x, tgt = some x → ¬ S x) (n : Nat) :
    ∀ (r : Ref), h.has r = true → S r → Alias.value f h' n r.py = Alias.value f h n r.py := by
  induction n with
  | zero => intro r _ _; cases r <;> rfl
  | succ n ih =>
    intro r hr hs
    have hslot : ∀ s : Slot A, (∀ x ∈ s.refs, h.has x = true ∧ S x) → Alias.value f h' n (read h' s) = Alias.value f h n (read h s) := by
      intro s hx
      cases s with
      | atom d => cases d <;> simp only [read, Alias.value]
      | obj d =>
        cases d with
        | none => simp only [read, Alias.value]
        | some i => exact ih (.obj i) (hx _ (by simp [Slot.refs])).1 (hx _ (by simp [Slot.refs])).2
      | list l =>
        have hl := hx (.lst l) (by simp [Slot.refs])
        simp only [read]
        rw [L.lst l (by simpa [Heap.has] using hl.1) fun hh => hne _ hh hl.2]
        split
        · exact ih (.lst l) hl.1 hl.2
        · simp only [Alias.value]
    cases r with
    | obj o =>
      have ho := L.obj o (by simpa [Heap.has] using hr) fun hh => hne _ hh hs
      simp only [Ref.py, Alias.value, ho]
      congr 1
      apply List.map_congr_left
      intro s hsm
      refine hslot s fun x hx => ?_
      have : x ∈ h.next (.obj o) := by simp only [Heap.next, List.mem_flatMap]; exact ⟨s, hsm, hx⟩
      exact ⟨I.hasNext hr this, I.clo _ hr hs x this⟩
    | lst l =>
      have ho := L.lst l (by simpa [Heap.has] using hr) fun hh => hne _ hh hs
      simp only [Ref.py, Alias.value, ho]
      congr 1
      apply List.map_congr_left
      intro s hsm
      refine hslot s fun x hx => ?_
      have : x ∈ h.next (.lst l) := by simp only [Heap.next, List.mem_flatMap]; exact ⟨s, hsm, hx⟩
      exact ⟨I.hasNext hr this, I.clo _ hr hs x this⟩

/-- The same for a field. -/
theorem Local.slot {W : World K A} {S : Ref → Prop} {h h' : Heap K A} {tgt : Option Ref} (I : Inv W S h) (L : Local h h' tgt) (hne : ∀ x, tgt = some x → ¬ S x) (n : Nat)
    (s : Slot A) (hx : ∀ x ∈ s.refs, h.has x = true ∧ S x) : Alias.value f h' n (read h' s) = Alias.value f h n (read h s) := by
  cases s with
  | atom d => cases d <;> simp only [read, Alias.value]
  | obj d =>
    cases d with
    | none => simp only [read, Alias.value]
    | some i => exact L.value I hne n (.obj i) (hx _ (by simp [Slot.refs])).1 (hx _ (by simp [Slot.refs])).2
  | list l =>
    have hl := hx (.lst l) (by simp [Slot.refs])
    simp only [read]
    rw [L.lst l (by simpa [Heap.has] using hl.1) fun hh => hne _ hh hl.2]
    split
    · exact L.value I hne n (.lst l) hl.1 hl.2
    · simp only [Alias.value]

theorem empty_inv [Inhabited K] (W : World K A) : Inv W (fun _ => True) Heap.empty := by
  refine ⟨?_, ?_, ?_, ?_, fun _ _ _ _ _ => trivial, fun _ _ => trivial⟩
  · intro o ho; exact absurd ho (Nat.not_lt_zero _)
  · intro o ho; exact absurd ho (Nat.not_lt_zero _)
  · intro o ho; exact absurd ho (Nat.not_lt_zero _)
  · intro P Q l hp
    cases P with
    | field o f => rw [slotAt_field] at hp; exact absurd hp.1 (Nat.not_lt_zero _)
    | item o f => rw [slotAt_item] at hp; exact absurd hp.1 (Nat.not_lt_zero _)

theorem run_inv {W : World K A} (ops : List (Op A)) : ∀ {h : Heap K A}, Inv W (fun _ => True) h → Inv W (fun _ => True) (run W h ops) := by
  induction ops with
  | nil => intro h I; exact I
  | cons op ops ih => intro h I; exact ih (step_ok I op fun _ _ => .inl trivial).1

/-- Nothing that is changed away from `q` comes to have a part in common with it. -/
theorem away_step {W : World K A} {h : Heap K A} (I : Inv W (fun _ => True) h) {p q : Ref} (hp : h.has p = true) (hq : h.has q = true) {op : Op A} (ha : Away h q op)
    (hpq : Apart h p q) : Apart (step W h op).2 p q := by
  have I' : Inv W (fun r => h.has r = true → Apart h r q) h := by
    refine I.region ?_ ?_
    · intro r hr hs x hx _ y hy
      exact hs hr y (Part.trans (.next .self hx) hy)
    · intro l hl hh; simp only [Heap.has, decide_eq_true_eq] at hh; omega
  have st := step_ok I' op fun r hr => (ha.2 r hr).elim .inr fun h1 => .inl fun _ => h1
  have hpart := fun x => st.2.part I hq (fun t ht hh => ha.1 t ht t .self hh) x
  intro x hx hqx
  have hS : (h.has x = true → Apart h x q) := by
    have : (step W h op).2.has x = true ∧ (h.has x = true → Apart h x q) := by
      clear hqx
      induction hx with
      | self => exact ⟨st.2.has hp, fun _ => hpq⟩
      | next _ hy ih => exact ⟨st.1.hasNext ih.1 hy, st.1.clo _ ih.1 ih.2 _ hy⟩
    exact this.2
  have hqx' := (hpart x).mp hqx
  exact hS (I.hasPart hq hqx') x .self hqx'

/-! ## Copies -/

theorem eqAll_true {g : Slot A → Slot A → Option Bool} : ∀ {xs ys : List (Slot A)}, xs.length = ys.length → eqAll g xs ys = some true →
    ∀ (i : Nat) (x y : Slot A), xs[i]? = some x → ys[i]? = some y → g x y = some true
  | [], [], _, _ => by simp
  | [], _ :: _, h, _ => by simp at h
  | _ :: _, [], h, _ => by simp at h
  | a :: xs, b :: ys, hl, h => by
    intro i x y hx hy
    simp only [eqAll] at h
    split at h
    · simp at h
    · simp at h
    · next hab =>
      cases i with
      | zero => simp at hx hy; subst hx hy; exact hab
      | succ i => exact eqAll_true (by simpa using hl) h i x y (by simpa using hx) (by simpa using hy)

theorem map_eq_of {α : Type} {u g : Slot A → α} {xs ys : List (Slot A)} (hl : xs.length = ys.length)
    (h : ∀ (i : Nat) (x y : Slot A), xs[i]? = some x → ys[i]? = some y → u x = g y) : xs.map u = ys.map g := by
  apply List.ext_getElem?
  intro i
  simp only [List.getElem?_map]
  by_cases hi : i < xs.length
  · rw [List.getElem?_eq_getElem hi, List.getElem?_eq_getElem (by omega)]
    simp only [Option.map_some, Option.some.injEq]
    exact h i _ _ (List.getElem?_eq_getElem hi) (List.getElem?_eq_getElem (by omega))
  · rw [List.getElem?_eq_none (by omega), List.getElem?_eq_none (by omega)]; rfl

/-- What is equal has the same value, if this is so for basic values. -/
theorem eq_value {W : World K A} (hW : ∀ a b, W.same a b = true → f a = f b) {h : Heap K A} {S : Ref → Prop} (I : Inv W S h) (k : Nat) :
    ∀ v w, (∀ r ∈ v.refs, h.has r = true) → (∀ r ∈ w.refs, h.has r = true) → eq W h k v w = some true → ∀ n, value f h n v = value f h n w := by
  have hread : ∀ s : Slot A, ∀ r ∈ (read h s).refs, r ∈ s.refs := by
    intro s r hr
    cases s with
    | atom d => cases d <;> simp [read, Py.refs] at hr
    | obj d => cases d <;> simp [read, Py.refs, Slot.refs] at hr ⊢; exact hr
    | list l =>
      simp only [read] at hr
      split at hr
      · simpa [Py.refs, Slot.refs] using hr
      · simp [Py.refs] at hr
  induction k with
  | zero =>
    intro v w _ _ he n
    cases v <;> cases w <;> simp only [eq, Option.some.injEq] at he <;> try (first | rfl | (exfalso; revert he; simp; done))
    next => simp only [value, hW _ _ he]
  | succ k ih =>
    intro v w hv hw he n
    cases v <;> cases w <;> simp only [eq, Option.some.injEq] at he <;> try (first | rfl | (exfalso; revert he; simp; done))
    next => simp only [value, hW _ _ he]
    next i j =>
      split at he
      · simp at he
      next hc =>
      have hc : (h.obj i).cls = (h.obj j).cls := Decidable.not_not.mp hc
      have hi : i < h.nObj := by simpa [Heap.has] using hv (.obj i) (by simp [Py.refs])
      have hj : j < h.nObj := by simpa [Heap.has] using hw (.obj j) (by simp [Py.refs])
      have hlen : (h.obj i).slots.length = (h.obj j).slots.length := by rw [I.len i hi, I.len j hj, hc]
      cases n with
      | zero => rfl
      | succ n =>
        simp only [value, hc]
        congr 1
        refine map_eq_of hlen fun m x y hx hy => ?_
        refine ih _ _ (fun r hr => ?_) (fun r hr => ?_) (eqAll_true hlen he m x y hx hy) n
        · exact I.hasNext (r := .obj i) (by simpa [Heap.has] using hi) (by simp only [Heap.next, List.mem_flatMap]; exact ⟨x, List.mem_iff_getElem?.mpr ⟨m, hx⟩, hread x r hr⟩)
        · exact I.hasNext (r := .obj j) (by simpa [Heap.has] using hj) (by simp only [Heap.next, List.mem_flatMap]; exact ⟨y, List.mem_iff_getElem?.mpr ⟨m, hy⟩, hread y r hr⟩)
    next i j =>
      split at he
      · simp at he
      next hc =>
      have hlen : (h.lst i).items.length = (h.lst j).items.length := Decidable.not_not.mp hc
      have hi : i < h.nLst := by simpa [Heap.has] using hv (.lst i) (by simp [Py.refs])
      have hj : j < h.nLst := by simpa [Heap.has] using hw (.lst j) (by simp [Py.refs])
      cases n with
      | zero => rfl
      | succ n =>
        simp only [value]
        congr 1
        refine map_eq_of hlen fun m x y hx hy => ?_
        refine ih _ _ (fun r hr => ?_) (fun r hr => ?_) (eqAll_true hlen he m x y hx hy) n
        · exact I.hasNext (r := .lst i) (by simpa [Heap.has] using hi) (by simp only [Heap.next, List.mem_flatMap]; exact ⟨x, List.mem_iff_getElem?.mpr ⟨m, hx⟩, hread x r hr⟩)
        · exact I.hasNext (r := .lst j) (by simpa [Heap.has] using hj) (by simp only [Heap.next, List.mem_flatMap]; exact ⟨y, List.mem_iff_getElem?.mpr ⟨m, hy⟩, hread y r hr⟩)

/-- A field does not have the list as a part. -/
def Free (h : Heap K A) (l : Nat) (y : Slot A) : Prop := ∀ r ∈ y.refs, ¬ Part h r (.lst l)

/-- Outside of a list. -/
def Out (h : Heap K A) (l : Nat) (r : Ref) : Prop := h.has r = true → ¬ Part h r (.lst l)

theorem Inv.out {W : World K A} {S : Ref → Prop} {h : Heap K A} (I : Inv W S h) (l : Nat) : Inv W (Out h l) h :=
  I.region (fun _ hr hs _ hx _ hp => hs hr (Part.trans (.next .self hx) hp)) fun m hm hh => by simp only [Heap.has, decide_eq_true_eq] at hh; omega

/-- `setData` with what another field of the type contains makes a copy. -/
def Copier (f : A → B) (W : World K A) (t : Kind K) (set : Heap K A → Slot A → Py A → Res K A) : Prop :=
  ∀ h s y, Inv W (fun _ => True) h → Fits W h t s → Fits W h t y → (∀ l, s = .list l → Free h l y ∧ ∀ z ∈ (h.lst l).items, Free h l z) →
    (set h s (read h y)).raised = false → ∀ n, value f (set h s (read h y)).heap n (read (set h s (read h y)).heap (set h s (read h y)).slot) = value f h n (read h y)

theorem read_put {h : Heap K A} {l : Nat} {x : Lst K A} {y : Slot A} (hy : y ≠ .list l) : read (h.putLst l x) y = read h y := by
  cases y with
  | atom d => cases d <;> rfl
  | obj d => cases d <;> rfl
  | list m =>
    have : m ≠ l := fun hh => hy (by rw [hh])
    simp only [read, Heap.putLst, this, if_false]

theorem read_frame {h h' : Heap K A} {s y : Slot A} (f : Frame h h' s) (hs : s ≠ y) (hy : ∀ r ∈ y.refs, h.has r = true) : read h' y = read h y := by
  cases y with
  | atom d => cases d <;> rfl
  | obj d => cases d <;> rfl
  | list m =>
    have : m < h.nLst := by simpa [Heap.has] using hy (.lst m) (by simp [Slot.refs])
    simp only [read, f.lst m this hs]

/-- One `append` of what the field `y` contains. -/
theorem append_copy {W : World K A} {S : Ref → Prop} {t : Kind K} {set : Heap K A → Slot A → Py A → Res K A} (hset : ∀ S, Sets W S t set) (hcopy : Copier f W t set)
    {h : Heap K A} (I : Inv W S h) {l : Nat} (hl : l < h.nLst) (he : (h.lst l).elem = t) (hS : ¬ S (.lst l)) {y : Slot A} (fy : Fits W h t y) (sy : ∀ r ∈ y.refs, S r)
    (hr : (append set t l h (read h y)).1 = false) :
    ∃ x, (append set t l h (read h y)).2.lst l = ⟨t, true, (h.lst l).items ++ [x]⟩ ∧ (∀ r ∈ x.refs, S r) ∧
      ∀ n, value f (append set t l h (read h y)).2 n (read (append set t l h (read h y)).2 x) = value f h n (read h y) := by
  have hgood : Good S h (read h y) := fun r hr' => by
    have : r ∈ y.refs := by
      cases y with
      | atom d => cases d <;> simp [read, Py.refs] at hr'
      | obj d => cases d <;> simp [read, Py.refs, Slot.refs] at hr' ⊢; exact hr'
      | list l =>
        simp only [read] at hr'
        split at hr'
        · simpa [Py.refs, Slot.refs] using hr'
        · simp [Py.refs] at hr'
    exact ⟨fy.has r this, .inl (sy r this)⟩
  obtain ⟨Ia, fa⟩ := append_ok (hset S) I hl he hgood
  obtain ⟨If, hfr, hfit, hlist, hobj⟩ := fresh_ok I t
  have hylist : y ≠ .list l := fun hh => hS (sy _ (by rw [hh]; simp [Slot.refs]))
  unfold append at hr Ia fa ⊢
  dsimp only at hr Ia fa ⊢
  have hempty : ∀ m, (fresh t h).2 = .list m → ((fresh t h).1.lst m).items = [] := by
    intro m hm
    cases t with
    | atom k => simp [fresh] at hm
    | obj k => simp [fresh] at hm
    | list t => simp only [fresh, Slot.list.injEq] at hm; subst hm; simp [fresh, Heap.putLst]
  generalize hF : fresh t h = F at *
  have hlF : l < F.1.nLst := by have := (hfr (.atom none)).nLst; omega
  have hitems : F.1.lst l = h.lst l := (hfr (.atom none)).lst l hl (by simp)
  have f1 : Frame h (F.1.putLst l { F.1.lst l with items := (F.1.lst l).items ++ [F.2] }) (.list l) :=
    (hfr (.list l)).trans (Frame.put F.1 l _ rfl) (fun _ hm _ => hm)
  have hI1 := push_ok I hl he
  rw [hF] at hI1
  generalize hH1 : F.1.putLst l { F.1.lst l with items := (F.1.lst l).items ++ [F.2] } = H1 at *
  have hy1 : read H1 y = read h y := read_frame f1 (fun hh => hylist hh.symm) fy.has
  have hl1 : l < H1.nLst := by rw [← hH1]; exact hlF
  have hne : F.2 ≠ .list l := fun hh => by have := (hlist l hh).1; omega
  have hit1 : H1.lst l = { h.lst l with items := (h.lst l).items ++ [F.2] } := by rw [← hH1]; simp only [Heap.putLst, if_true, hitems]
  have fit1 : Fits W H1 t F.2 := by rw [← hH1]; exact hfit.frame (Frame.put F.1 l { F.1.lst l with items := (F.1.lst l).items ++ [F.2] } rfl)
  have fy1 : Fits W H1 t y := fy.frame f1
  have hSl : ∀ x, (some (Ref.lst l)) = some x → ¬ S x := by intro x hx; simp only [Option.some.injEq] at hx; subst hx; exact hS
  have hsy : ∀ x ∈ y.refs, h.has x = true ∧ S x := fun x hx => ⟨fy.has x hx, sy x hx⟩
  -- the new list is not a part of y
  have hfree : ∀ m, F.2 = .list m → Free H1 m y ∧ ∀ z ∈ (H1.lst m).items, Free H1 m z := by
    intro m hm
    have hmn := (hlist m hm).1
    refine ⟨fun r hr hp => ?_, ?_⟩
    · have hnp : ∀ x, some (Ref.lst l) = some x → ¬ Part h r x := by
        intro x hx hpx
        simp only [Option.some.injEq] at hx
        subst hx
        have : S (.lst l) := by
          have hsr := sy r hr
          have hh := fy.has r hr
          clear hp hr
          have : h.has (.lst l) = true ∧ S (.lst l) := by
            generalize Ref.lst l = z at hpx
            induction hpx with
            | self => exact ⟨hh, hsr⟩
            | next _ hy ih => exact ⟨I.hasNext ih.1 hy, I.clo _ ih.1 ih.2 _ hy⟩
          exact this.2
        exact hS this
      have := (f1.local.part I (fy.has r hr) hnp (.lst m)).mp hp
      have := I.hasPart (fy.has r hr) this
      simp only [Heap.has, decide_eq_true_eq] at this
      omega
    · have : H1.lst m = F.1.lst m := by
        rw [← hH1]
        have : m ≠ l := by omega
        simp only [Heap.putLst, this, if_false]
      rw [this, hempty m hm]
      simp
  have ok := hset S _ F.2 (read h y) hI1 fit1 (hgood.frame f1)
  have hcp := hcopy H1 F.2 y hI1.weaken fit1 fy1 hfree
  rw [hy1] at hcp
  generalize set H1 F.2 (read h y) = R at *
  have hraise : R.raised = false := by
    cases hb : R.raised with
    | false => rfl
    | true => simp [hb] at hr
  rw [hraise] at hr Ia fa ⊢
  simp only [Bool.false_eq_true, if_false] at hr Ia fa ⊢
  have hit2 : R.heap.lst l = { h.lst l with items := (h.lst l).items ++ [F.2] } := by rw [ok.frame.lst l hl1 hne, hit1]
  have hsx : ∀ r ∈ R.slot.refs, S r := by
    intro r hr'
    cases r with
    | obj j => exact (ok.obj j (refs_obj.mp hr')).resolve_right (hobj j)
    | lst m =>
      have := (ok.same m).mp (refs_list.mp hr')
      exact I.new m (by have := (hlist m this).1; omega)
  have hlast : ∀ (xs : List (Slot A)) (a b : Slot A), replace b xs.length (xs ++ [a]) = xs ++ [b] := by
    intro xs a b
    induction xs with
    | nil => rfl
    | cons x xs ih => simp only [List.length_cons, List.cons_append, replace, ih]
  refine ⟨R.slot, ?_, hsx, fun n => ?_⟩
  · simp only [Heap.mark, Heap.putItem, Heap.putLst, if_true, hit2, he, hlast]
  · have hxx : ∀ x ∈ R.slot.refs, R.heap.has x = true ∧ S x := fun x hx => ⟨ok.fits.has x hx, hsx x hx⟩
    have fpm : Frame R.heap ((R.heap.putItem l (h.lst l).items.length R.slot).mark l) (.list l) :=
      (Frame.put R.heap l _ rfl : Frame R.heap (R.heap.putItem l (h.lst l).items.length R.slot) (.list l)).trans (Frame.put _ l _ rfl) fun _ hm _ => hm
    rw [fpm.local.slot ok.inv hSl n R.slot hxx, hcp hraise n]
    have := f1.local.slot (f := f) I hSl n y hsy
    rw [hy1] at this
    exact this

theorem appendAll_copy {W : World K A} {S : Ref → Prop} {t : Kind K} {set : Heap K A → Slot A → Py A → Res K A} (hset : ∀ S, Sets W S t set) (hcopy : Copier f W t set)
    {l : Nat} (hS : ¬ S (.lst l)) (ys : List (Slot A)) : ∀ {h : Heap K A}, Inv W S h → l < h.nLst → (h.lst l).elem = t →
    (∀ y ∈ ys, Fits W h t y ∧ ∀ r ∈ y.refs, S r) → (appendAll set t l h (ys.map .slot)).1 = false →
    Inv W S (appendAll set t l h (ys.map .slot)).2 ∧ Frame h (appendAll set t l h (ys.map .slot)).2 (.list l) ∧
    ∃ xs, ((appendAll set t l h (ys.map .slot)).2.lst l).items = (h.lst l).items ++ xs ∧ xs.length = ys.length ∧ (∀ x ∈ xs, ∀ r ∈ x.refs, S r) ∧
      ∀ (i : Nat) (x y : Slot A), xs[i]? = some x → ys[i]? = some y → ∀ n,
        value f (appendAll set t l h (ys.map .slot)).2 n (read (appendAll set t l h (ys.map .slot)).2 x) = value f h n (read h y) := by
  have hSl : ∀ x, (some (Ref.lst l)) = some x → ¬ S x := by intro x hx; simp only [Option.some.injEq] at hx; subst hx; exact hS
  induction ys with
  | nil => intro h I _ _ _ _; exact ⟨I, .rfl', [], by simp [appendAll], rfl, by simp, by simp⟩
  | cons y ys ih =>
    intro h I hl he hys hr
    have hy := hys y (by simp)
    have hgood : Good S h (read h y) := Src.Good.now (x := .slot y) fun r hr => ⟨hy.1.has r hr, .inl (hy.2 r hr)⟩
    obtain ⟨I1, f1⟩ := append_ok (hset S) I hl he hgood
    have hap := append_copy hset hcopy I hl he hS hy.1 hy.2
    simp only [List.map_cons, appendAll, Src.now] at hr ⊢
    generalize append set t l h (read h y) = R at *
    obtain ⟨b, h'⟩ := R
    cases b with
    | true => simp at hr
    | false =>
      dsimp only at hr I1 f1 hap ⊢
      obtain ⟨x, hx1, hx2, hx3⟩ := hap rfl
      have hl' : l < h'.nLst := by have := f1.nLst; omega
      obtain ⟨I2, f2, xs, hxs, hlen, hxr, hval⟩ := ih I1 hl' (by rw [hx1]) (fun z hz => ⟨(hys z (by simp [hz])).1.frame f1, (hys z (by simp [hz])).2⟩) hr
      have hfitx : ∀ r ∈ x.refs, h'.has r = true := by
        have : (h'.lst l).items[(h.lst l).items.length]? = some x := by rw [hx1]; simp
        exact (I1.lsts l hl' _ x this).has
      refine ⟨I2, f1.trans f2 fun _ hm _ => hm, x :: xs, by rw [hxs, hx1]; simp, by simp [hlen], ?_, ?_⟩
      · intro z hz
        rcases List.mem_cons.mp hz with rfl | hz
        · exact hx2
        · exact hxr z hz
      · intro i z w hz hw n
        cases i with
        | zero =>
          simp at hz hw; subst hz hw
          rw [f2.local.slot I1 hSl n x fun r hr => ⟨hfitx r hr, hx2 r hr⟩]
          exact hx3 n
        | succ i =>
          have hw' : ys[i]? = some w := by simpa using hw
          have hwm := hys w (by simp [List.mem_iff_getElem?.mpr ⟨i, hw'⟩])
          rw [hval i z w (by simpa using hz) hw' n]
          exact f1.local.slot I hSl n w fun r hr => ⟨hwm.1.has r hr, hwm.2 r hr⟩

theorem setData_copy {W : World K A} (hW : ∀ a b, W.same a b = true → f a = f b) (hK : Keeps W) (t : Kind K) : Copier f W t (setData W t) := by
  induction t with
  | atom k =>
    intro h s y I fs fy hfr hr n
    clear hfr
    cases s <;> simp only [Fits] at fs
    cases y <;> simp only [Fits] at fy
    next d e =>
    cases e with
    | none => simp [setData, read]
    | some a =>
      simp only [read, setData] at hr ⊢
      rw [hK k a fy d hr]
  | obj c =>
    intro h s y I fs fy hfr hr n
    clear hfr
    cases s <;> simp only [Fits] at fs
    cases y <;> simp only [Fits] at fy
    next d e =>
    cases e with
    | none => simp [setData, read]
    | some a =>
      simp only [read, setData] at hr ⊢
      split at hr
      · next hh => simp only [hh, if_true]
      · simp at hr
  | list t ih =>
    intro h s y I fs fy hfree hr n
    cases s <;> simp only [Fits] at fs
    cases y <;> simp only [Fits] at fy
    next l m =>
    obtain ⟨hf1, hf2⟩ := hfree l rfl
    have hf1 : ¬ Part h (.lst m) (.lst l) := hf1 (.lst m) (by simp [Slot.refs])
    have hml : m ≠ l := fun hh => hf1 (by rw [hh]; exact .self)
    have Io : Inv W (Out h l) h := I.out l
    have hS : ¬ Out h l (.lst l) := fun hh => hh (by simpa [Heap.has] using fs.1) .self
    have hSl : ∀ x, (some (Ref.lst l)) = some x → ¬ Out h l x := by intro x hx; simp only [Option.some.injEq] at hx; subst hx; exact hS
    have hrd : ∀ (H : Heap K A), (H.lst l).isSet = true → read H (.list l) = .list l := fun H hH => by simp only [read, hH, if_true]
    by_cases hm : (h.lst m).isSet = true
    case neg =>
      have h1 : read h (.list m) = .unset := by simp only [read, hm]; rfl
      rw [h1]
      have h2 : setData W (.list t) h (.list l) .unset = ⟨false, h.putLst l { h.lst l with isSet := false }, .list l⟩ := by simp only [setData]
      rw [h2]
      have h3 : read (h.putLst l { h.lst l with isSet := false }) (.list l) = .unset := by simp [read, Heap.putLst]
      rw [h3]
      cases n <;> rfl
    case pos =>
      have h1 : read h (.list m) = .list m := by simp only [read, hm, if_true]
      rw [h1] at hr ⊢
      have hset : ∀ H : Heap K A, ((H.mark l).lst l).isSet = true := fun H => by simp [Heap.mark, Heap.putLst]
      rcases heq : eq W h W.depth (.list l) (.list m) with _ | b
      · simp only [setData, hm, if_true, heq] at hr
        simp at hr
      cases b
      case true =>
        have h2 : setData W (.list t) h (.list l) (.list m) = ⟨false, h.mark l, .list l⟩ := by simp only [setData, hm, if_true, heq]
        rw [h2]
        dsimp only
        rw [hrd _ (hset h)]
        have hv := eq_value hW I W.depth (.list l) (.list m) (by simpa [Py.refs, Heap.has] using fs.1) (by simpa [Py.refs, Heap.has] using fy.1) heq n
        rw [← hv]
        cases n with
        | zero => rfl
        | succ n =>
          have hi : ((h.mark l).lst l).items = (h.lst l).items := by simp [Heap.mark, Heap.putLst]
          simp only [value, hi]
          congr 1
          apply List.map_congr_left
          intro z hz
          obtain ⟨i, hi'⟩ := List.mem_iff_getElem?.mp hz
          exact (Frame.put h l _ rfl : Frame h (h.mark l) (.list l)).local.slot Io hSl n z fun r hr' =>
            ⟨(I.lsts l fs.1 i z hi').has r hr', fun _ => hf2 z hz r hr'⟩
      case false =>
        have h2 : setData W (.list t) h (.list l) (.list m) = ⟨(refill (setData W t) t l h fun h1 => (h1.lst m).items.map .slot).1,
            (refill (setData W t) t l h fun h1 => (h1.lst m).items.map .slot).2, .list l⟩ := by simp only [setData, hm, if_true, heq]
        rw [h2] at hr ⊢
        dsimp only at hr ⊢
        -- the list is emptied and filled
        have I1 : Inv W (Out h l) (h.putLst l { h.lst l with items := [] }) := Io.put fs.1 _ rfl (by simp) (by simp) (by simp) (by simp)
        have f1 : Frame h (h.putLst l { h.lst l with items := [] }) (.list l) := Frame.put h l _ rfl
        have hitm : (h.putLst l { h.lst l with items := [] }).lst m = h.lst m := by simp [Heap.putLst, hml]
        have hitl : ((h.putLst l { h.lst l with items := [] }).lst l).items = [] := by simp [Heap.putLst]
        have hell : ((h.putLst l { h.lst l with items := [] }).lst l).elem = t := by rw [f1.elem l fs.1]; exact fs.2
        have hl1 : l < (h.putLst l { h.lst l with items := [] }).nLst := fs.1
        have hys : ∀ y ∈ (h.lst m).items, (∀ r ∈ y.refs, h.has r = true ∧ Out h l r) ∧ Fits W h t y := by
          intro y hy
          obtain ⟨i, hi⟩ := List.mem_iff_getElem?.mp hy
          have hfy := I.lsts m fy.1 i y hi
          rw [fy.2] at hfy
          refine ⟨fun r hr' => ⟨hfy.has r hr', fun _ hp => hf1 (Part.trans (.next .self ?_) hp)⟩, hfy⟩
          simp only [Heap.next, List.mem_flatMap]; exact ⟨y, hy, hr'⟩
        have hcp := appendAll_copy (fun S => setData_ok W S t) ih hS (h.lst m).items I1 hl1 hell (fun y hy => ⟨(hys y hy).2.frame f1, fun r hr' => ((hys y hy).1 r hr').2⟩)
        unfold refill at hr ⊢
        dsimp only at hr ⊢
        rw [hitm] at hr ⊢
        generalize hH1 : h.putLst l { h.lst l with items := [] } = H1 at *
        generalize appendAll (setData W t) t l H1 ((h.lst m).items.map .slot) = R at *
        obtain ⟨b, h'⟩ := R
        cases b with
        | true => simp at hr
        | false =>
          dsimp only at hcp ⊢
          obtain ⟨I2, f2, xs, hxs, hlen, hxr, hval⟩ := hcp rfl
          rw [hitl, List.nil_append] at hxs
          have hl2 : l < h'.nLst := by have := f2.nLst; omega
          rw [hrd _ (hset h')]
          cases n with
          | zero => rfl
          | succ n =>
            have hi : ((h'.mark l).lst l).items = xs := by simp [Heap.mark, Heap.putLst, hxs]
            simp only [value, hi]
            congr 1
            refine map_eq_of hlen fun i x y hx hy => ?_
            have hxm : x ∈ xs := List.mem_iff_getElem?.mpr ⟨i, hx⟩
            have hym : y ∈ (h.lst m).items := List.mem_iff_getElem?.mpr ⟨i, hy⟩
            have fmk : Frame h' (h'.mark l) (.list l) := Frame.put h' l _ rfl
            rw [fmk.local.slot I2 hSl n x fun r hr' =>
              ⟨(I2.lsts l hl2 i x (by rw [hxs]; exact hx)).has r hr', hxr x hxm r hr'⟩, hval i x y hx hy n]
            exact f1.local.slot Io hSl n y (hys y hym).1

/-- Nothing differs from itself, if this is so for basic values. -/
theorem eq_self {W : World K A} (hW : ∀ a, W.same a a = true) (h : Heap K A) (k : Nat) : ∀ v, (∀ vs, v ≠ .plain vs) → eq W h k v v ≠ some false := by
  have hall : ∀ (g : Slot A → Slot A → Option Bool), (∀ x, g x x ≠ some false) → ∀ xs : List (Slot A), eqAll g xs xs ≠ some false := by
    intro g hg xs
    induction xs with
    | nil => simp [eqAll]
    | cons x xs ih =>
      simp only [eqAll]
      split
      · simp
      · next hh => exact absurd hh (hg x)
      · exact ih
  have hread : ∀ s : Slot A, ∀ vs, read h s ≠ .plain vs := by
    intro s vs
    cases s with
    | atom d => cases d <;> simp [read]
    | obj d => cases d <;> simp [read]
    | list l => simp only [read]; split <;> simp
  induction k with
  | zero =>
    intro v hv
    cases v with
    | plain vs => exact absurd rfl (hv vs)
    | atom a => simp [eq, hW]
    | _ => simp [eq]
  | succ k ih =>
    intro v hv
    cases v with
    | plain vs => exact absurd rfl (hv vs)
    | atom a => simp [eq, hW]
    | unset => simp [eq]
    | obj i => simp only [eq, ne_eq, not_true_eq_false, if_false]; exact hall _ (fun x => ih _ (hread x)) _
    | list l => simp only [eq, ne_eq, not_true_eq_false, if_false]; exact hall _ (fun x => ih _ (hread x)) _

/-- The parts of a list of basic values are such lists. -/
theorem flat_part {W : World K A} {S : Ref → Prop} {h : Heap K A} (I : Inv W S h) {r x : Ref} (hr : h.has r = true) (hf : h.flatList r) (p : Part h r x) :
    h.has x = true ∧ h.flatList x := by
  induction p with
  | self => exact ⟨hr, hf⟩
  | @next y z p hz ih =>
    cases y with
    | obj o => exact absurd ih.2 (by simp [Heap.flatList])
    | lst l =>
      simp only [Heap.next, List.mem_flatMap] at hz
      obtain ⟨s, h1, h2⟩ := hz
      obtain ⟨i, hi⟩ := List.mem_iff_getElem?.mp h1
      exact fits_flat (I.lsts l (by simpa [Heap.has] using ih.1) i s hi) ih.2 z h2

/-- A list of basic values that is a part of another one, but not this list itself, is an item. -/
theorem flat_owner {W : World K A} {S : Ref → Prop} {h : Heap K A} (I : Inv W S h) {r x : Ref} (hr : h.has r = true) (hf : h.flatList r) (p : Part h r x) :
    x = r ∨ ∃ l i m, x = .lst m ∧ Part h r (.lst l) ∧ h.slotAt (.item l i) = some (.list m) := by
  cases p with
  | self => exact .inl rfl
  | @next y _ p hz =>
    have hy := flat_part I hr hf p
    cases y with
    | obj o => exact absurd hy.2 (by simp [Heap.flatList])
    | lst l =>
      simp only [Heap.next, List.mem_flatMap] at hz
      obtain ⟨s, h1, h2⟩ := hz
      obtain ⟨i, hi⟩ := List.mem_iff_getElem?.mp h1
      have hl : l < h.nLst := by simpa [Heap.has] using hy.1
      have hfl := (fits_flat (I.lsts l hl i s hi) hy.2 x h2).2
      cases x with
      | obj o => exact absurd hfl (by simp [Heap.flatList])
      | lst m => exact .inr ⟨l, i, m, rfl, p, slotAt_item.mpr ⟨hl, by rw [hi, refs_list.mp h2]⟩⟩

theorem flat_apart {W : World K A} {S : Ref → Prop} {h : Heap K A} (I : Inv W S h) {P Q : Place} {l m : Nat} (hP : h.slotAt P = some (.list l)) (hQ : h.slotAt Q = some (.list m))
    (hp : ∀ k i, P ≠ .item k i) (hq : ∀ k i, Q ≠ .item k i) (hne : P ≠ Q) (hl : h.flatList (.lst l)) (hm : h.flatList (.lst m)) : Apart h (.lst l) (.lst m) := by
  have hl' : h.has (.lst l) = true := by simpa [Heap.has] using I.listOld hP
  have hm' : h.has (.lst m) = true := by simpa [Heap.has] using I.listOld hQ
  have key : ∀ r x, Part h r x → r = .lst l → ¬ Part h (.lst m) x := by
    intro r x pl
    induction pl with
    | self =>
      intro hr pm
      subst hr
      rcases flat_owner I hm' hm pm with h1 | ⟨k, i, j, h1, _, h2⟩
      · simp only [Ref.lst.injEq] at h1
        subst h1
        exact hne (I.own P Q l hP hQ)
      · simp only [Ref.lst.injEq] at h1
        subst h1
        exact hp k i (I.own P _ l hP h2)
    | @next y z p hz ih =>
      intro hr pm
      subst hr
      have hy := flat_part I hl' hl p
      cases y with
      | obj o => exact absurd hy.2 (by simp [Heap.flatList])
      | lst a =>
        have hz' := hz
        simp only [Heap.next, List.mem_flatMap] at hz
        obtain ⟨s, h1, h2⟩ := hz
        obtain ⟨i, hi⟩ := List.mem_iff_getElem?.mp h1
        have ha : a < h.nLst := by simpa [Heap.has] using hy.1
        have hfl := (fits_flat (I.lsts a ha i s hi) hy.2 z h2).2
        cases z with
        | obj o => exact absurd hfl (by simp [Heap.flatList])
        | lst b =>
          have hat : h.slotAt (.item a i) = some (.list b) := slotAt_item.mpr ⟨ha, by rw [hi, refs_list.mp h2]⟩
          rcases flat_owner I hm' hm pm with h3 | ⟨k, j, c, h3, h4, h5⟩
          · simp only [Ref.lst.injEq] at h3
            subst h3
            exact hq a i (I.own Q _ b hQ hat)
          · simp only [Ref.lst.injEq] at h3
            subst h3
            have := I.own _ _ b hat h5
            simp only [Place.item.injEq] at this
            rw [← this.1] at h4
            exact ih rfl h4
  exact fun x a b => key _ x a rfl b

end Verif.Alias
