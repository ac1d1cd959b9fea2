import Verif.Lemmas.Alias
/-! # C84 Changing one packet does not change another

Packets, structs and list fields are objects. `run W .empty ops` are the objects after any operations of a program that starts with none. -/
namespace Verif.Alias
variable {K A B : Type} [Inhabited K]

theorem reach (W : World K A) (ops : List (Op A)) : Inv W (fun _ => True) (run W .empty ops) := run_inv ops (empty_inv W)

/-- A list field belongs to one field or item: whatever a program assigns or appends, no two fields have the same list object. -/
theorem C84_lists_belong (W : World K A) (ops : List (Op A)) (P Q : Place) (l : Nat) (hP : (run W .empty ops).slotAt P = some (.list l))
    (hQ : (run W .empty ops).slotAt Q = some (.list l)) : P = Q := (reach W ops).own P Q l hP hQ

/-- What a field of a packet class holds is an instance of this class, or of one derived from it; the same for the elements of a list of packets. -/
theorem C84_typed (W : World K A) (ops : List (Op A)) (c : Cls) (j : Nat) :
    (∀ o f : Nat, o < (run W .empty ops).nObj → (W.fields ((run W .empty ops).obj o).cls)[f]? = some (.obj c) → ((run W .empty ops).obj o).slots[f]? = some (.obj (some j)) →
      W.isSub ((run W .empty ops).obj j).cls c = true) ∧
    (∀ l i : Nat, l < (run W .empty ops).nLst → ((run W .empty ops).lst l).elem = .obj c → ((run W .empty ops).lst l).items[i]? = some (.obj (some j)) →
      W.isSub ((run W .empty ops).obj j).cls c = true) := by
  have I := reach W ops
  refine ⟨fun o f ho ht hs => (I.objs o ho f _ _ ht hs j rfl).2, fun l i hl ht hs => ?_⟩
  have := I.lsts l hl i _ hs
  rw [ht] at this
  exact (this j rfl).2

/-- Assigning a packet to a field of a packet class succeeds exactly when it is an instance of the class or of one derived from it; then the field holds this very packet, and otherwise
what it has held. -/
theorem C84_struct (W : World K A) (ops : List (Op A)) {o f j : Nat} {c : Cls} {d : Option Nat} (ho : o < (run W .empty ops).nObj) (hj : j < (run W .empty ops).nObj)
    (ht : (W.fields ((run W .empty ops).obj o).cls)[f]? = some (.obj c)) (hs : ((run W .empty ops).obj o).slots[f]? = some (.obj d)) :
    (W.isSub ((run W .empty ops).obj j).cls c = true ∧ (step W (run W .empty ops) (.set o f (.obj j))).1 = false ∧
      ((step W (run W .empty ops) (.set o f (.obj j))).2.obj o).slots[f]? = some (.obj (some j))) ∨
    (W.isSub ((run W .empty ops).obj j).cls c = false ∧ (step W (run W .empty ops) (.set o f (.obj j))).1 = true ∧
      ((step W (run W .empty ops) (.set o f (.obj j))).2.obj o).slots[f]? = some (.obj d)) := by
  generalize run W .empty ops = h at *
  have hok : (Op.set o f (.obj j) : Op A).refs.all h.has = true := by simp [Op.refs, Py.refs, Heap.has, ho, hj]
  have hlt := (List.getElem?_eq_some_iff.mp hs).1
  have e : step W h (.set o f (.obj j)) = setAttr W h o f (.obj j) := by rw [step, if_pos hok]
  rw [e, setAttr, ht, hs]
  simp only [setData]
  cases hsub : W.isSub (h.obj j).cls c with
  | true => exact .inl ⟨rfl, by simp, by simp [Heap.putObj, getElem?_replace, hlt]⟩
  | false => exact .inr ⟨rfl, by simp, by simp [Heap.putObj, getElem?_replace, hlt]⟩

/-- An operation changes what a packet or list shows only if it writes to a part of it. -/
theorem C84_local (f : A → B) (W : World K A) (ops : List (Op A)) (op : Op A) (p : Ref) (hp : (run W .empty ops).has p = true)
    (ht : ∀ t, op.target (run W .empty ops) = some t → ¬ Part (run W .empty ops) p t) (n : Nat) :
    value f (step W (run W .empty ops) op).2 n p.py = value f (run W .empty ops) n p.py := by
  have I := reach W ops
  generalize run W .empty ops = h at *
  have st := (step_ok I op fun _ _ => .inl trivial).2
  have I' : Inv W (fun r => h.has r = true → Part h p r) h := I.region (fun r hr hs x hx _ => .next (hs hr) hx)
    fun l hl hh => by simp only [Heap.has, decide_eq_true_eq] at hh; omega
  by_cases htt : ∃ t, op.target h = some t ∧ h.has t = true
  · obtain ⟨t, h1, h2⟩ := htt
    refine st.value I' ?_ n p hp (fun _ => .self)
    intro x hx hs
    rw [h1] at hx
    simp only [Option.some.injEq] at hx
    subst hx
    exact ht t h1 (hs h2)
  · -- the operation uses an object that does not exist
    have hst : Local h (step W h op).2 none := by
      refine ⟨st.nObj, st.nLst, st.elem, st.cls, fun o ho _ => st.obj o ho fun hh => htt ⟨_, hh, by simpa [Heap.has] using ho⟩,
        fun l hl _ => st.lst l hl fun hh => htt ⟨_, hh, by simpa [Heap.has] using hl⟩⟩
    exact hst.value I' (by simp) n p hp (fun _ => .self)

/-- What is done away from `q` does not change it, and does not give it a part in common with a packet that had none. -/
theorem C84_apart (f : A → B) (W : World K A) (ops : List (Op A)) (op : Op A) (p q : Ref) (hp : (run W .empty ops).has p = true) (hq : (run W .empty ops).has q = true)
    (ha : Away (run W .empty ops) q op) (hpq : Apart (run W .empty ops) p q) :
    Apart (step W (run W .empty ops) op).2 p q ∧ ∀ n, value f (step W (run W .empty ops) op).2 n q.py = value f (run W .empty ops) n q.py :=
  ⟨away_step (reach W ops) hp hq ha hpq, C84_local f W ops op q hq fun t ht hh => ha.1 t ht t .self hh⟩

/-- Each operation has nothing to do with `p`, or nothing with `q`. -/
def Separate (W : World K A) (p q : Ref) : Heap K A → List (Op A) → Prop
  | _, [] => True
  | h, op :: ops => (Away h p op ∨ Away h q op) ∧ Separate W p q (step W h op).2 ops

theorem Apart.symm {h : Heap K A} {p q : Ref} (a : Apart h p q) : Apart h q p := fun x h1 h2 => a x h2 h1

theorem run_append (W : World K A) (h : Heap K A) (a b : List (Op A)) : run W h (a ++ b) = run W (run W h a) b := by
  induction a generalizing h with
  | nil => rfl
  | cons op a ih => exact ih _

/-- Two packets that have no part in common keep having none, if no operation brings them together; copying lists of basic values from one to the other does not. -/
theorem C84_history (W : World K A) (ops more : List (Op A)) (p q : Ref) (hp : (run W .empty ops).has p = true) (hq : (run W .empty ops).has q = true)
    (hpq : Apart (run W .empty ops) p q) (hs : Separate W p q (run W .empty ops) more) : Apart (run W .empty (ops ++ more)) p q := by
  rw [run_append]
  have I := reach W ops
  generalize run W .empty ops = h at *
  induction more generalizing h with
  | nil => exact hpq
  | cons op more ih =>
    have st := step_ok I op fun _ _ => .inl trivial
    refine ih _ (st.2.has hp) (st.2.has hq) ?_ hs.2 st.1
    rcases hs.1 with ha | ha
    · exact (away_step I hq hp ha hpq.symm).symm
    · exact away_step I hp hq ha hpq

/-- A new packet has no part in common with what there was before; its fields are unset. -/
theorem C84_new (f : A → B) (W : World K A) (ops : List (Op A)) (c : Cls) (q : Ref) (hq : (run W .empty ops).has q = true) :
    Apart (step W (run W .empty ops) (.new c)).2 (.obj (run W .empty ops).nObj) q ∧ (step W (run W .empty ops) (.new c)).2.has (.obj (run W .empty ops).nObj) = true ∧
    ∀ n, value f (step W (run W .empty ops) (.new c)).2 (n + 1) (.obj (run W .empty ops).nObj) = .obj c ((W.fields c).map fun _ => .unset) := by
  have I := reach W ops
  generalize run W .empty ops = h at *
  have hst : (step W h (.new c)).2 = make W h c := by simp [step, Op.refs]
  rw [hst]
  have hob : (make W h c).obj h.nObj = ⟨c, (freshAll (W.fields c) h).2⟩ := by simp [make, Heap.putObj]
  refine ⟨?_, ?_, ?_⟩
  · -- the parts of the new packet are new
    have I' : Inv W (fun r => h.has r = false) h := I.region (fun r hr hs => by rw [hs] at hr; simp at hr)
      fun l hl => by simp only [Heap.has, decide_eq_false_iff_not]; omega
    have mk := make_ok I' c
    have hpart : ∀ x, Part (make W h c) (.obj h.nObj) x → h.has x = false := by
      intro x hx
      have : (make W h c).has x = true ∧ h.has x = false := by
        induction hx with
        | self => simp [Heap.has, make]
        | next _ hy ih => exact ⟨mk.1.hasNext ih.1 hy, mk.1.clo _ ih.1 ih.2 _ hy⟩
      exact this.2
    intro x hx hqx
    have := I.hasPart hq ((mk.2.part I hq (by simp) x).mp hqx)
    rw [hpart x hx] at this
    simp at this
  · simp [Heap.has, make]
  · intro n
    simp only [value, hob]
    congr 1
    have hfa := freshAll_ok (W := W) (S := fun _ => True) (W.fields c) I
    apply List.ext_getElem?
    intro i
    simp only [List.getElem?_map]
    by_cases hi : i < (W.fields c).length
    · have hi' : i < (freshAll (W.fields c) h).2.length := by rw [hfa.2.2.1]; exact hi
      rw [List.getElem?_eq_getElem hi', List.getElem?_eq_getElem hi]
      simp only [Option.map_some, Option.some.injEq]
      have hun : read (make W h c) (freshAll (W.fields c) h).2[i] = .unset := by
        have := freshAll_unset (W.fields c) h i _ (List.getElem?_eq_getElem hi')
        generalize (freshAll (W.fields c) h).2[i] = s at this
        rw [← this]
        cases s with
        | atom d => cases d <;> rfl
        | obj d => cases d <;> rfl
        | list l => rfl
      rw [hun]
      simp only [value]
    · rw [List.getElem?_eq_none (by rw [hfa.2.2.1]; omega), List.getElem?_eq_none (by omega)]
      rfl

/-- Assigning a list field to a list field of the same type copies the list: afterwards it has the value that the other one has (as far as `==` distinguishes basic
values). The list must not be a part of what is copied, nor of its own items. -/
theorem C84_copy (f : A → B) (W : World K A) (hf : ∀ a b, W.same a b = true → f a = f b) (hW : Keeps W) (ops : List (Op A)) (o i l m : Nat)
    (ho : (run W .empty ops).has (.obj o) = true) (hl : ((run W .empty ops).obj o).slots[i]? = some (.list l)) (hm : (run W .empty ops).has (.lst m) = true)
    (hset : ((run W .empty ops).lst m).isSet = true) (htype : ((run W .empty ops).lst m).elem = ((run W .empty ops).lst l).elem)
    (hml : ¬ Part (run W .empty ops) (.lst m) (.lst l)) (hll : ∀ r ∈ (run W .empty ops).next (.lst l), ¬ Part (run W .empty ops) r (.lst l))
    (hr : (step W (run W .empty ops) (.set o i (.list m))).1 = false) (n : Nat) :
    ((step W (run W .empty ops) (.set o i (.list m))).2.obj o).slots[i]? = some (.list l) ∧
    value f (step W (run W .empty ops) (.set o i (.list m))).2 n (read (step W (run W .empty ops) (.set o i (.list m))).2 (.list l)) = value f (run W .empty ops) n (.list m) ∧
    value f (step W (run W .empty ops) (.set o i (.list m))).2 n (.list m) = value f (run W .empty ops) n (.list m) := by
  have hloc := C84_local f W ops (.set o i (.list m)) (.lst m) hm (by
    intro t ht
    simp only [Op.target, hl, Option.some.injEq] at ht
    subst ht; exact hml) n
  have I := reach W ops
  generalize run W .empty ops = h at *
  have ho' : o < h.nObj := by simpa [Heap.has] using ho
  have hm' : m < h.nLst := by simpa [Heap.has] using hm
  refine ⟨?_, ?_, hloc⟩ <;> clear hloc
  · have hlen := I.len o ho'
    have hi := (List.getElem?_eq_some_iff.mp hl).1
    have ht : (W.fields (h.obj o).cls)[i]? = some ((W.fields (h.obj o).cls)[i]'(by omega)) := List.getElem?_eq_getElem _
    have hfit := I.objs o ho' i _ _ ht hl
    have ok := setData_ok W (fun _ => True) _ h (.list l) (.list m) I hfit (by intro r hr'; simp [Py.refs] at hr'; subst hr'; exact ⟨hm, .inl trivial⟩)
    simp only [step, Op.refs, Py.refs, List.all_cons, List.all_nil, ho, hm, Bool.and_self, if_true, setAttr, hl, ht]
    simp only [Heap.putObj, if_true, getElem?_replace, ok.frame.obj, hi, and_self, if_true]
    rw [(ok.same l).mpr rfl]
  · have hlen := I.len o ho'
    have hi := (List.getElem?_eq_some_iff.mp hl).1
    have ht : (W.fields (h.obj o).cls)[i]? = some ((W.fields (h.obj o).cls)[i]'(by omega)) := List.getElem?_eq_getElem _
    have hfit := I.objs o ho' i _ _ ht hl
    generalize (W.fields (h.obj o).cls)[i]'(by omega) = k at ht hfit
    cases k with
    | atom k => exact absurd hfit (by simp [Fits])
    | obj k => exact absurd hfit (by simp [Fits])
    | list t =>
      have hm2 : Fits W h (.list t) (.list m) := ⟨hm', htype.trans hfit.2⟩
      have hrd : read h (.list m) = .list m := by simp only [read, hset, if_true]
      have hcp := setData_copy hf hW (.list t) h (.list l) (.list m) I hfit hm2 (fun k hk => by
        simp only [Slot.list.injEq] at hk
        subst hk
        refine ⟨fun r hr' => ?_, fun z hz r hr' => hll r ?_⟩
        · simp only [Slot.refs, List.mem_singleton] at hr'; subst hr'; exact hml
        · simp only [Heap.next, List.mem_flatMap]; exact ⟨z, hz, hr'⟩)
      have ok := setData_ok W (fun _ => True) (.list t) h (.list l) (.list m) I hfit (by intro r hr'; simp [Py.refs] at hr'; subst hr'; exact ⟨hm, .inl trivial⟩)
      rw [hrd] at hcp
      simp only [step, Op.refs, Py.refs, List.all_cons, List.all_nil, ho, hm, Bool.and_self, if_true, setAttr, hl, ht] at hr ⊢
      have hsl := (ok.same l).mpr rfl
      have hput : (setData W (.list t) h (.list l) (.list m)).heap.putObj o { (setData W (.list t) h (.list l) (.list m)).heap.obj o with
          slots := (replace (setData W (.list t) h (.list l) (.list m)).slot i ((setData W (.list t) h (.list l) (.list m)).heap.obj o).slots) } =
          (setData W (.list t) h (.list l) (.list m)).heap := by
        rw [hsl, replace_same (by rw [ok.frame.obj]; exact hl)]
        exact putObj_same _ o
      rw [hput]
      have := hcp hr n
      rw [hsl] at this
      exact this

/-- List fields of two fields of packets, of basic values (or lists of such): they have nothing in common. -/
theorem C84_fields_apart (W : World K A) (ops : List (Op A)) (o i p j l m : Nat) (hne : (o, i) ≠ (p, j))
    (ho : (run W .empty ops).slotAt (.field o i) = some (.list l)) (hp : (run W .empty ops).slotAt (.field p j) = some (.list m))
    (hl : ((run W .empty ops).lst l).elem.flat = true) (hm : ((run W .empty ops).lst m).elem.flat = true) : Apart (run W .empty ops) (.lst l) (.lst m) :=
  flat_apart (reach W ops) ho hp (by simp) (by simp) (by simpa using hne) hl hm

/-- Assigning a list field to itself changes nothing at all, if every basic value is equal to itself. -/
theorem C84_self (W : World K A) (hW : ∀ a, W.same a a = true) (ops : List (Op A)) (o i l : Nat) (ho : (run W .empty ops).slotAt (.field o i) = some (.list l))
    (hset : ((run W .empty ops).lst l).isSet = true) : (step W (run W .empty ops) (.set o i (.list l))).2 = run W .empty ops := by
  have I := reach W ops
  generalize run W .empty ops = h at *
  rw [slotAt_field] at ho
  obtain ⟨ho', hl⟩ := ho
  have hlen := I.len o ho'
  have hi := (List.getElem?_eq_some_iff.mp hl).1
  have ht : (W.fields (h.obj o).cls)[i]? = some ((W.fields (h.obj o).cls)[i]'(by omega)) := List.getElem?_eq_getElem _
  have hfit := I.objs o ho' i _ _ ht hl
  have hll := hfit
  generalize (W.fields (h.obj o).cls)[i]'(by omega) = k at ht hfit hll
  cases k with
  | atom k => exact absurd hfit (by simp [Fits])
  | obj k => exact absurd hfit (by simp [Fits])
  | list t =>
    have hmark : h.mark l = h := by
      unfold Heap.mark
      have : ({ h.lst l with isSet := true } : Lst K A) = h.lst l := by
        cases hh : h.lst l with
        | mk e b its => rw [hh] at hset; simp only at hset; subst hset; rfl
      rw [this]; exact putLst_same h l
    have hsd : (setData W (.list t) h (.list l) (.list l)).heap = h ∧ (setData W (.list t) h (.list l) (.list l)).slot = .list l := by
      have hne := eq_self hW h W.depth (.list l) (by simp)
      simp only [setData, hset, if_true]
      split
      · exact ⟨rfl, rfl⟩
      · exact ⟨hmark, rfl⟩
      · next hh => exact absurd hh hne
    unfold step
    split
    · simp only [setAttr, hl, ht, hsd.1, hsd.2]
      rw [replace_same hl]
      exact putObj_same h o
    · rfl

/-! ## Playground's basic types -/

/-- What a field of the type may contain. -/
def Basic.holds : Basic → Atom → Prop
  | .num _ _, .int _ => True
  | .float _, .float _ => True
  | .bool, .bool _ => True
  | .str, .str _ => True
  | .buf, .bytes _ => True
  | _, _ => False

theorem held_holds {env : Env} {conv : Conv} {fields : Cls → List (Kind Basic)} {depth : Nat} {k : Basic} {d : Option Atom} (hd : Held (std env conv fields depth) k d) :
    ∀ a, d = some a → k.holds a := by
  induction hd with
  | unset => simp
  | @store d x hd ih =>
    intro a ha
    have hback : ∀ b, d = some b → Atom.ofVal (Atom.val k b) = some b := by
      intro b hb
      have := ih b hb
      cases k <;> cases b <;> simp only [Basic.holds] at this <;> rfl
    have hold : (d.map (Atom.val k)).bind Atom.ofVal = some a → k.holds a := by
      intro h
      cases d with
      | none => simp at h
      | some b =>
        simp only [Option.map_some, Option.bind_some, hback b rfl, Option.some.injEq] at h
        exact h ▸ ih b rfl
    simp only [std] at ha
    cases k with
    | num sg at' =>
      have key : (setField env conv (.num sg at') (d.map (Atom.val (.num sg at'))) x.py).data = d.map (Atom.val (.num sg at')) ∨
          ∃ i, (setField env conv (.num sg at') (d.map (Atom.val (.num sg at'))) x.py).data = some (.num i) := by
        cases x <;> simp only [Atom.py, setField] <;> repeat' split
        all_goals first | exact .inl rfl | exact .inr ⟨_, rfl⟩
      simp only [Basic.type] at ha
      rcases key with h | ⟨i, h⟩
      · rw [h] at ha; exact hold ha
      · rw [h] at ha; simp [Atom.ofVal] at ha; subst ha; trivial
    | float at' =>
      have key : (setField env conv (.float at') (d.map (Atom.val (.float at'))) x.py).data = d.map (Atom.val (.float at')) ∨
          ∃ i, (setField env conv (.float at') (d.map (Atom.val (.float at'))) x.py).data = some (.float at'.single i) := by
        cases x <;> simp only [Atom.py, setField] <;> split <;> first | exact .inl rfl | exact .inr ⟨_, rfl⟩
      simp only [Basic.type] at ha
      rcases key with h | ⟨i, h⟩
      · rw [h] at ha; exact hold ha
      · rw [h] at ha; simp [Atom.ofVal] at ha; subst ha; trivial
    | bool => cases x <;> simp [Basic.type, Atom.py, setField, Atom.ofVal] at ha <;> subst ha <;> trivial
    | str => cases x <;> simp [Basic.type, Atom.py, setField, Atom.ofVal] at ha <;> subst ha <;> trivial
    | buf =>
      cases x with
      | bytes b => simp [Basic.type, Atom.py, setField, Atom.ofVal] at ha; subst ha; trivial
      | _ => exact hold (by simpa only [Basic.type, Atom.py, setField] using ha)

/-- They keep what they have (`str` of a string is this string). -/
theorem std_keeps (env : Env) (conv : Conv) (hconv : ∀ s, conv.str (.str s) = s) (fields : Cls → List (Kind Basic)) (depth : Nat) : Keeps (std env conv fields depth) := by
  intro k a ha d hr
  have := held_holds ha a rfl
  simp only [std] at hr ⊢
  cases k <;> cases a <;> simp only [Basic.holds] at this
  · simp only [Basic.type, Atom.py, setField, PyVal.toInt] at hr ⊢
    split
    · rfl
    · split <;> rfl
  · simp only [Basic.type, Atom.py, setField, Conv.toFloat] at hr ⊢
    rfl
  · simp only [Basic.type, Atom.py, setField, PyVal.toBool] at hr ⊢
    rfl
  · simp only [Basic.type, Atom.py, setField, hconv] at hr ⊢
    rfl
  · simp only [Basic.type, Atom.py, setField] at hr ⊢
    rfl

theorem std_same (env : Env) (conv : Conv) (fields : Cls → List (Kind Basic)) (depth : Nat) (a b : Atom) (h : (std env conv fields depth).same a b = true) : a.key = b.key := by
  simp only [std, Atom.same] at h
  split at h
  · simp at h
  · next hk => simpa [hk] using h

instance : Inhabited Basic := ⟨.bool⟩

/-- For Playground's basic types: the copy has the same numbers, strings and bytes. -/
theorem C84_copy_std (env : Env) (conv : Conv) (hconv : ∀ s, conv.str (.str s) = s) (fields : Cls → List (Kind Basic)) (depth : Nat) (ops : List (Op Atom)) (o i l m : Nat)
    (ho : (run (std env conv fields depth) .empty ops).has (.obj o) = true) (hl : ((run (std env conv fields depth) .empty ops).obj o).slots[i]? = some (.list l))
    (hm : (run (std env conv fields depth) .empty ops).has (.lst m) = true) (hset : ((run (std env conv fields depth) .empty ops).lst m).isSet = true)
    (htype : ((run (std env conv fields depth) .empty ops).lst m).elem = ((run (std env conv fields depth) .empty ops).lst l).elem)
    (hml : ¬ Part (run (std env conv fields depth) .empty ops) (.lst m) (.lst l))
    (hll : ∀ r ∈ (run (std env conv fields depth) .empty ops).next (.lst l), ¬ Part (run (std env conv fields depth) .empty ops) r (.lst l))
    (hr : (step (std env conv fields depth) (run (std env conv fields depth) .empty ops) (.set o i (.list m))).1 = false) (n : Nat) :
    value Atom.key (step (std env conv fields depth) (run (std env conv fields depth) .empty ops) (.set o i (.list m))).2 n
      (read (step (std env conv fields depth) (run (std env conv fields depth) .empty ops) (.set o i (.list m))).2 (.list l)) =
    value Atom.key (run (std env conv fields depth) .empty ops) n (.list m) :=
  (C84_copy Atom.key _ (std_same env conv fields depth) (std_keeps env conv hconv fields depth) ops o i l m ho hl hm hset htype hml hll hr n).2.1

/-! ## Examples -/
namespace Ex

def u8 : Basic := .num false { bits := some 8 }
def env : Env := ⟨fun _ => none, fun _ _ _ => .ok none, fun c d => c == d⟩
def conv : Conv := ⟨fun v => match v with | .str s => s | _ => [], fun _ => none⟩

/-- Class 1: a number, a list of numbers, a struct of class 2, a list of such structs, a list of floats, a list of lists of numbers. Class 2: a number. -/
def fields : Cls → List (Kind Basic)
  | 1 => [.atom u8, .list (.atom u8), .obj 2, .list (.obj 2), .list (.atom (.float {})), .list (.list (.atom u8))]
  | 2 => [.atom u8]
  | _ => []

def W : World Basic Atom := std env conv fields 100

/-- Two packets (objects 0 and 1) and a struct (2). The list fields of packet 0 are lists 0-3, those of packet 1 are 4-7. -/
def two : List (Op Atom) := [.new 1, .new 1, .new 2]
/-- `q.l = [1, 2]; q.ll = [[3], []]; p.l = [9]`. -/
def filled : List (Op Atom) :=
  two ++ [.set 1 1 (.plain [.atom (.int 1), .atom (.int 2)]), .set 1 5 (.plain [.plain [.atom (.int 3)], .plain []]), .set 0 1 (.plain [.atom (.int 9)])]

theorem flat_parts {h : Heap Basic Atom} {l : Nat} (hn : h.next (.lst l) = []) {x : Ref} (p : Part h (.lst l) x) : x = .lst l := by
  induction p with
  | self => rfl
  | next _ hy ih => subst ih; rw [hn] at hy; simp at hy

/-- C84_lists_belong: there are eight list fields, and the items of a list of lists. -/
example : (run W .empty filled).slotAt (.field 0 1) = some (.list 0) ∧ (run W .empty filled).slotAt (.field 1 1) = some (.list 4) ∧
    (run W .empty filled).slotAt (.item 7 1) = some (.list 9) := by decide +kernel

/-- C84_copy_std: `p.l = q.l` satisfies the hypotheses, and copies. -/
example : (run W .empty filled).has (.obj 0) = true ∧ ((run W .empty filled).obj 0).slots[1]? = some (.list 0) ∧ (run W .empty filled).has (.lst 4) = true ∧
    ((run W .empty filled).lst 4).isSet = true ∧ ((run W .empty filled).lst 4).elem = ((run W .empty filled).lst 0).elem ∧
    (¬ Part (run W .empty filled) (.lst 4) (.lst 0)) ∧ (∀ r ∈ (run W .empty filled).next (.lst 0), ¬ Part (run W .empty filled) r (.lst 0)) ∧
    (step W (run W .empty filled) (.set 0 1 (.list 4))).1 = false ∧
    ((step W (run W .empty filled) (.set 0 1 (.list 4))).2.lst 0).items = [.atom (some (.int 1)), .atom (some (.int 2))] := by
  refine ⟨by decide +kernel, by decide +kernel, by decide +kernel, by decide +kernel, by decide +kernel, fun hp => ?_, ?_, by decide +kernel, by decide +kernel⟩
  · exact absurd (flat_parts (by decide +kernel) hp) (by simp)
  · have : (run W .empty filled).next (.lst 0) = [] := by decide +kernel
    rw [this]; simp

/-- C84_apart, C84_history: `p.l = q.l` and `p.l.append(7)` have nothing to do with the packet `q` but that a list of numbers is copied. -/
example : (run W .empty filled).has (.obj 1) = true ∧ Apart (run W .empty filled) (.obj 0) (.obj 1) ∧ Separate W (.obj 0) (.obj 1) (run W .empty filled) [.set 0 1 (.list 4), .append 0 (.atom (.int 7))] := by
  have mem : ∀ {h : Heap Basic Atom} (S : Ref → Bool) {r x : Ref}, S r = true → (∀ n, n < h.nObj + 20 → S (.obj n) = true → (h.next (.obj n)).all S = true) →
      (∀ n, n < h.nLst + 20 → S (.lst n) = true → (h.next (.lst n)).all S = true) → (∀ n, h.nObj + 20 ≤ n → S (.obj n) = false) →
      (∀ n, h.nLst + 20 ≤ n → S (.lst n) = false) → Part h r x → S x = true := by
    intro h S r x hr h1 h2 h3 h4 p
    induction p with
    | self => exact hr
    | @next y z _ hz ih =>
      cases y with
      | obj n =>
        by_cases hn : n < h.nObj + 20
        · exact List.all_eq_true.mp (h1 n hn ih) z hz
        · rw [h3 n (by omega)] at ih; simp at ih
      | lst n =>
        by_cases hn : n < h.nLst + 20
        · exact List.all_eq_true.mp (h2 n hn ih) z hz
        · rw [h4 n (by omega)] at ih; simp at ih
  have sep : ∀ (h : Heap Basic Atom) (S : Ref → Bool) (p q : Ref), S p = true → S q = false →
      (∀ n, n < h.nObj + 20 → S (.obj n) = true → (h.next (.obj n)).all S = true) → (∀ n, n < h.nLst + 20 → S (.lst n) = true → (h.next (.lst n)).all S = true) →
      (∀ n, h.nObj + 20 ≤ n → S (.obj n) = false) → (∀ n, h.nLst + 20 ≤ n → S (.lst n) = false) → (∀ x, Part h q x → S x = false) → Apart h p q := by
    intro h S p q hp hq h1 h2 h3 h4 h5 x hx hqx
    have := mem S hp h1 h2 h3 h4 hx
    rw [h5 x hqx] at this
    simp at this
  -- the parts of p and of q
  let Sp : Ref → Bool := fun r => r ∈ [Ref.obj 0, .lst 0, .lst 1, .lst 2, .lst 3]
  let Sq : Ref → Bool := fun r => r ∈ [Ref.obj 1, .lst 4, .lst 5, .lst 6, .lst 7, .lst 8, .lst 9]
  have dis : ∀ x, Sq x = true → Sp x = false := by
    intro x hx
    simp only [Sq, List.mem_cons, List.not_mem_nil, or_false, decide_eq_true_eq] at hx
    rcases hx with rfl | rfl | rfl | rfl | rfl | rfl | rfl <;> decide
  have big : ∀ (T : List Ref), (∀ r ∈ T, r = .obj 0 ∨ r = .obj 1 ∨ ∃ l, r = .lst l ∧ l < 10) → (∀ n, 2 ≤ n → decide (Ref.obj n ∈ T) = false) ∧ ∀ n, 10 ≤ n → decide (Ref.lst n ∈ T) = false := by
    intro T hT
    refine ⟨fun n hn => ?_, fun n hn => ?_⟩
    · simp only [decide_eq_false_iff_not]; intro hm
      rcases hT _ hm with h | h | ⟨l, h, _⟩
      · simp at h; omega
      · simp at h; omega
      · simp at h
    · simp only [decide_eq_false_iff_not]; intro hm
      rcases hT _ hm with h | h | ⟨l, h, h'⟩
      · simp at h
      · simp at h
      · simp at h; omega
  have bp := big [Ref.obj 0, .lst 0, .lst 1, .lst 2, .lst 3] (by simp)
  have bq := big [Ref.obj 1, .lst 4, .lst 5, .lst 6, .lst 7, .lst 8, .lst 9] (by simp)
  have main : ∀ h : Heap Basic Atom, (∀ n, n < h.nObj + 20 → Sp (.obj n) = true → (h.next (.obj n)).all Sp = true) → (∀ n, n < h.nLst + 20 → Sp (.lst n) = true → (h.next (.lst n)).all Sp = true) →
      (∀ n, n < h.nObj + 20 → Sq (.obj n) = true → (h.next (.obj n)).all Sq = true) → (∀ n, n < h.nLst + 20 → Sq (.lst n) = true → (h.next (.lst n)).all Sq = true) →
      ∀ p q, Sp p = true → Sq q = true → Apart h p q := by
    intro h a b c d p q hp hq
    refine sep h Sp p q hp (dis q hq) a b (fun n hn => bp.1 n (by omega)) (fun n hn => bp.2 n (by omega)) fun x hx => dis x ?_
    exact mem Sq hq c d (fun n hn => bq.1 n (by omega)) (fun n hn => bq.2 n (by omega)) hx
  have a0 := main (run W .empty filled) (by decide +kernel) (by decide +kernel) (by decide +kernel) (by decide +kernel)
  have a1 := main (step W (run W .empty filled) (.set 0 1 (.list 4))).2 (by decide +kernel) (by decide +kernel) (by decide +kernel) (by decide +kernel)
  refine ⟨by decide +kernel, a0 _ _ (by decide) (by decide), .inr ⟨?_, ?_⟩, .inr ⟨?_, ?_⟩, trivial⟩
  · intro t ht
    have : (Op.set 0 1 (.list 4) : Op Atom).target (run W .empty filled) = some (.lst 0) := by decide +kernel
    rw [this] at ht; cases ht
    exact a0 _ _ (by decide) (by decide)
  · intro r hr
    simp only [Op.given, Py.refs, List.mem_singleton] at hr
    subst hr
    have : ((run W .empty filled).lst 4).elem.flat = true := by decide +kernel
    exact .inl this
  · intro t ht
    cases ht
    exact a1 _ _ (by decide) (by decide)
  · intro r hr
    simp [Op.given, Py.refs] at hr

/-- C84_local, C84_fields_apart: two lists of numbers in two packets; appending to one does not write to a part of the other. -/
example : (run W .empty filled).slotAt (.field 0 1) = some (.list 0) ∧ (run W .empty filled).slotAt (.field 1 1) = some (.list 4) ∧
    ((run W .empty filled).lst 0).elem.flat = true ∧ ((run W .empty filled).lst 4).elem.flat = true ∧ (run W .empty filled).has (.lst 4) = true ∧
    (Op.append 0 (.atom (.int 5)) : Op Atom).target (run W .empty filled) = some (.lst 0) ∧ (¬ Part (run W .empty filled) (.lst 4) (.lst 0)) ∧
    ((step W (run W .empty filled) (.append 0 (.atom (.int 5)))).2.lst 0).items = [.atom (some (.int 9)), .atom (some (.int 5))] := by
  refine ⟨by decide +kernel, by decide +kernel, by decide +kernel, by decide +kernel, by decide +kernel, by decide +kernel, fun hp => ?_, by decide +kernel⟩
  exact absurd (flat_parts (by decide +kernel) hp) (by simp)

/-- C84_self: a list that is set. -/
example : (run W .empty filled).slotAt (.field 1 5) = some (.list 7) ∧ ((run W .empty filled).lst 7).isSet = true := by decide +kernel

/-- C84_struct, C84_typed: a struct of class 2 fits, a packet of class 1 does not. -/
example : 0 < (run W .empty two).nObj ∧ 2 < (run W .empty two).nObj ∧ (W.fields ((run W .empty two).obj 0).cls)[2]? = some (.obj 2) ∧ ((run W .empty two).obj 0).slots[2]? = some (.obj none) ∧
    (step W (run W .empty two) (.set 0 2 (.obj 2))).1 = false ∧ (step W (run W .empty two) (.set 0 2 (.obj 1))).1 = true ∧
    ((run W .empty (two ++ [.set 0 2 (.obj 2)])).obj 0).slots[2]? = some (.obj (some 2)) := by decide +kernel

/-- C84_new: there is a packet already. -/
example : (run W .empty filled).has (.obj 1) = true := by decide +kernel

/-- Not true: changing one packet does not change another. A struct that is assigned to two packets is one object: `p.h = s; q.h = s; q.h.n = 5` changes `p.h.n`. -/
theorem C84_false_shared : ∃ h : Heap Basic Atom, h = run W .empty (two ++ [.set 0 2 (.obj 2), .set 1 2 (.obj 2)]) ∧
    (h.obj 0).slots[2]? = some (.obj (some 2)) ∧ (h.obj 1).slots[2]? = some (.obj (some 2)) ∧ (h.obj 2).slots = [.atom none] ∧
    ((step W h (.set 2 0 (.atom (.int 5)))).2.obj 2).slots = [.atom (some (.int 5))] := ⟨_, rfl, by decide +kernel⟩

/-- Whether the structs of a list are shared after `p.l = q.l` depends on whether the lists were equal before: here `p.l` has a struct that is equal to that of `q.l`,
and keeps it. -/
theorem C84_false_depends :
    ((step W (run W .empty (two ++ [.new 2, .set 0 3 (.plain [.obj 2]), .set 1 3 (.plain [.obj 3])])) (.set 0 3 (.list 5))).2.lst 1).items = [.obj (some 2)] ∧
    ((step W (run W .empty (two ++ [.new 2, .set 3 0 (.atom (.int 1)), .set 0 3 (.plain [.obj 2]), .set 1 3 (.plain [.obj 3])])) (.set 0 3 (.list 5))).2.lst 1).items = [.obj (some 3)] := by
  decide +kernel

/-- Not true: assigning a list to itself changes nothing. `p.l = p.l` empties a list in which there is a NaN. -/
theorem C84_false_nan : ∃ h : Heap Basic Atom, h = run W .empty (two ++ [.set 0 4 (.plain [.atom (.float 0x7ff8000000000000), .atom (.float 0)])]) ∧
    (h.lst 2).items.length = 2 ∧ (step W h (.set 0 4 (.list 2))).1 = false ∧ ((step W h (.set 0 4 (.list 2))).2.lst 2).items = [] := ⟨_, rfl, by decide +kernel⟩

/-- Not true: the copy is exact. `p.l = q.l` leaves 0.0 in the place of -0.0. -/
theorem C84_false_zero : ∃ h : Heap Basic Atom, h = run W .empty (two ++ [.set 0 4 (.plain [.atom (.float 0)]), .set 1 4 (.plain [.atom (.float 0x8000000000000000)])]) ∧
    (step W h (.set 0 4 (.list 6))).1 = false ∧ ((step W h (.set 0 4 (.list 6))).2.lst 2).items = [.atom (some (.float 0))] ∧
    ((step W h (.set 0 4 (.list 6))).2.lst 6).items = [.atom (some (.float 0x8000000000000000))] := ⟨_, rfl, by decide +kernel⟩

/-- Not true: an assignment that raises changes nothing. `p.l = [1, 300, 2]` loses the old elements and keeps the refused one. -/
theorem C84_false_refused : ∃ h : Heap Basic Atom, h = run W .empty filled ∧ (h.lst 0).items = [.atom (some (.int 9))] ∧
    (step W h (.set 0 1 (.plain [.atom (.int 1), .atom (.int 300), .atom (.int 2)]))).1 = true ∧
    ((step W h (.set 0 1 (.plain [.atom (.int 1), .atom (.int 300), .atom (.int 2)]))).2.lst 0).items = [.atom (some (.int 1)), .atom (some (.int 300))] := ⟨_, rfl, by decide +kernel⟩

end Ex

end Verif.Alias
