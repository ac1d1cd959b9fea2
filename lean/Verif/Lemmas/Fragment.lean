import Verif.Spec.Fragment
import Verif.Lemmas.Dict
/-! # Lemmas about fragmentation -/
namespace Verif.Frag

/-! ## Cutting -/

theorem cut_spec (m : Nat) (hm : 0 < m) : ∀ (f : Nat) (off : Nat) (data : Bytes), data.length ≤ f →
    (∀ c ∈ cut m f off data, 0 < c.2.length ∧ c.2.length ≤ m ∧ off ≤ c.1 ∧ c.1 - off + c.2.length ≤ data.length ∧
      c.2 = (data.drop (c.1 - off)).take c.2.length) ∧
    (cut m f off data).Pairwise (fun a b => a.1 < b.1) ∧
    ((cut m f off data).map (fun c => c.2.length)).sum = data.length ∧
    ((cut m f off data).map Prod.snd).flatten = data ∧
    (∀ i, i < data.length → ∃ c ∈ cut m f off data, c.1 ≤ off + i ∧ off + i < c.1 + c.2.length) := by
  intro f
  induction f with
  | zero =>
    intro off data h
    have : data = [] := List.eq_nil_of_length_eq_zero (by omega)
    subst this
    simp [cut]
  | succ f ih =>
    intro off data h
    unfold cut
    by_cases hd : data = []
    · subst hd; simp
    · rw [if_neg hd]
      have hpos : 0 < data.length := List.length_pos_iff.mpr hd
      have hl : (data.take m).length = min m data.length := List.length_take ..
      obtain ⟨h1, h2, h3, h4, h5⟩ := ih (off + (data.take m).length) (data.drop m) (by rw [List.length_drop]; omega)
      refine ⟨?_, ?_, ?_, ?_, ?_⟩
      · intro c hc
        rcases List.mem_cons.mp hc with rfl | hc
        · refine ⟨by dsimp only; omega, by dsimp only; omega, by simp, by dsimp only; omega, ?_⟩
          dsimp only
          rw [Nat.sub_self, List.drop_zero, hl, Nat.min_def]
          split
          · rfl
          · rw [List.take_of_length_le (by omega), List.take_of_length_le (by omega)]
        · obtain ⟨g1, g2, g3, g4, g5⟩ := h1 c hc
          rw [List.length_drop] at g4
          refine ⟨g1, g2, by omega, by omega, ?_⟩
          rw [List.drop_drop] at g5
          have : m ≤ data.length := by omega
          rw [hl] at g5 g3
          rw [show c.1 - off = m + (c.1 - (off + min m data.length)) by omega]
          exact g5
      · refine List.pairwise_cons.mpr ⟨fun c hc => ?_, h2⟩
        have := (h1 c hc).2.2.1
        dsimp only; omega
      · simp only [List.map_cons, List.sum_cons, h3, List.length_drop]; omega
      · simp only [List.map_cons, List.flatten_cons, h4, List.take_append_drop]
      · intro i hi
        by_cases hlt : i < (data.take m).length
        · exact ⟨_, List.mem_cons_self .., by simp, by dsimp only; omega⟩
        · obtain ⟨c, hc, k1, k2⟩ := h5 (i - (data.take m).length) (by rw [List.length_drop]; omega)
          exact ⟨c, List.mem_cons_of_mem _ hc, by omega, by omega⟩

/-! ## Writing into the buffer -/

theorem write_get (buf : Bytes) (p : Nat) (d : Bytes) (hd : d ≠ []) (i : Nat) :
    ((⟨buf, p⟩ : Bio).write d).buf[i]? =
      if p ≤ i ∧ i < p + d.length then d[i - p]?
      else if buf.length ≤ i ∧ i < p then some 0
      else buf[i]? := by
  unfold Bio.write
  rw [if_neg hd]
  dsimp only
  have hpos : 0 < d.length := List.length_pos_iff.mpr hd
  simp only [List.getElem?_append, List.length_append, List.length_take, List.length_replicate, List.getElem?_take,
    List.getElem?_drop, List.getElem?_replicate]
  by_cases h1 : i < p
  · by_cases h2 : i < buf.length
    · rw [if_pos (by omega), if_pos (by omega), if_pos (by omega), if_pos h1, if_neg (by omega), if_neg (by omega)]
    · rw [if_pos (by omega), if_pos (by omega), if_neg (by omega), if_pos (by omega), if_neg (by omega), if_pos (by omega)]
  · by_cases h3 : i < p + d.length
    · rw [if_pos (by omega), if_neg (by omega), if_pos (by omega)]
      congr 1; omega
    · rw [if_neg (by omega), if_neg (by omega), if_neg (by omega)]
      congr 1; omega

theorem write_length (buf : Bytes) (p : Nat) (d : Bytes) (hd : d ≠ []) :
    ((⟨buf, p⟩ : Bio).write d).buf.length = max buf.length (p + d.length) := by
  unfold Bio.write
  rw [if_neg hd]
  have hpos : 0 < d.length := List.length_pos_iff.mpr hd
  simp only [List.length_append, List.length_take, List.length_replicate, List.length_drop]
  omega

/-! ## Sums over the fragments seen -/

/-- The bytes in the fragments whose offset was seen. -/
def got (cs : List (Nat × Bytes)) (seen : List Nat) : Nat :=
  ((cs.filter (fun c => decide (c.1 ∈ seen))).map (fun c => c.2.length)).sum

theorem got_nil (cs : List (Nat × Bytes)) : got cs [] = 0 := by
  unfold got
  rw [List.filter_eq_nil_iff.mpr (by simp)]; rfl

theorem got_fresh (cs : List (Nat × Bytes)) (seen : List Nat) (o : Nat) (h : ∀ c ∈ cs, c.1 ≠ o) :
    got cs (o :: seen) = got cs seen := by
  unfold got
  congr 2
  apply List.filter_congr
  intro c hc
  simp [h c hc]

theorem got_cons (cs : List (Nat × Bytes)) (hp : cs.Pairwise (fun a b => a.1 < b.1)) (seen : List Nat)
    (c : Nat × Bytes) (hc : c ∈ cs) (hs : c.1 ∉ seen) : got cs (c.1 :: seen) = got cs seen + c.2.length := by
  induction cs with
  | nil => cases hc
  | cons x cs ih =>
    obtain ⟨hx, hp⟩ := List.pairwise_cons.mp hp
    have e : ∀ s : List Nat, got (x :: cs) s = (if x.1 ∈ s then x.2.length else 0) + got cs s := by
      intro s; unfold got; rw [List.filter_cons]
      by_cases h : x.1 ∈ s <;> simp [h]
    rw [e, e]
    rcases List.mem_cons.mp hc with rfl | hc
    · rw [got_fresh cs seen c.1 (fun y hy => by have := hx y hy; omega)]
      simp [hs]; omega
    · rw [ih hp hc]
      have : x.1 ≠ c.1 := by have := hx c hc; omega
      simp [this]; omega

theorem got_eq_iff (cs : List (Nat × Bytes)) (hpos : ∀ c ∈ cs, 0 < c.2.length) (seen : List Nat) :
    got cs seen ≤ (cs.map (fun c => c.2.length)).sum ∧
    (got cs seen = (cs.map (fun c => c.2.length)).sum ↔ ∀ c ∈ cs, c.1 ∈ seen) := by
  induction cs with
  | nil => simp [got]
  | cons x cs ih =>
    obtain ⟨i1, i2⟩ := ih (fun c hc => hpos c (by simp [hc]))
    have e : got (x :: cs) seen = (if x.1 ∈ seen then x.2.length else 0) + got cs seen := by
      unfold got; rw [List.filter_cons]
      by_cases h : x.1 ∈ seen <;> simp [h]
    have hx := hpos x (by simp)
    rw [e]
    simp only [List.map_cons, List.sum_cons, List.mem_cons, forall_eq_or_imp]
    rw [← i2]
    split
    · next h =>
      refine ⟨by omega, fun h' => ⟨h, by omega⟩, fun h' => ?_⟩
      have := h'.2; omega
    · next h => exact ⟨by omega, fun h' => by omega, fun h' => absurd h'.1 h⟩

theorem pairwise_inj {cs : List (Nat × Bytes)} (hp : cs.Pairwise (fun a b => a.1 < b.1)) {x y : Nat × Bytes}
    (hx : x ∈ cs) (hy : y ∈ cs) (e : x.1 = y.1) : x = y := by
  induction cs with
  | nil => cases hx
  | cons a cs ih =>
    obtain ⟨ha, hp⟩ := List.pairwise_cons.mp hp
    rcases List.mem_cons.mp hx with h1 | h1 <;> rcases List.mem_cons.mp hy with h2 | h2
    · rw [h1, h2]
    · have := ha _ h2; rw [h1] at e; omega
    · have := ha _ h1; rw [h2] at e; omega
    · exact ih hp h1 h2

/-! ## The storage of a message -/

/-- The storage holds the fragments with the offsets `seen` of the message `data` cut into `cs`. -/
structure Holds (data : Bytes) (cs : List (Nat × Bytes)) (seen : List Nat) (s : Storage) : Prop where
  total : s.totalSize = data.length
  offs : s.offsets = seen
  recv : s.received = got cs seen
  len : s.stream.buf.length ≤ data.length
  cont : ∀ c ∈ cs, c.1 ∈ seen → ∀ i, c.1 ≤ i → i < c.1 + c.2.length → s.stream.buf[i]? = data[i]?

theorem holds_new (data : Bytes) (cs : List (Nat × Bytes)) : Holds data cs [] (.new data.length) :=
  ⟨rfl, rfl, by simp [Storage.new, got_nil], by simp [Storage.new], by simp⟩

/-- Offsets seen after one more fragment. -/
def see (seen : List Nat) (o : Nat) : List Nat := if o ∈ seen then seen else o :: seen

theorem mem_see (seen : List Nat) (o x : Nat) : x ∈ see seen o ↔ x = o ∨ x ∈ seen := by
  unfold see; split
  · next h => constructor
              · exact .inr
              · rintro (rfl | h'); exact h; exact h'
  · simp

theorem holds_insert {data : Bytes} {cs : List (Nat × Bytes)} (hp : cs.Pairwise (fun a b => a.1 < b.1))
    (hok : ∀ c ∈ cs, 0 < c.2.length ∧ c.1 + c.2.length ≤ data.length ∧ c.2 = (data.drop c.1).take c.2.length)
    {seen : List Nat} {s : Storage} (h : Holds data cs seen s) (c : Nat × Bytes) (hc : c ∈ cs) :
    Holds data cs (see seen c.1) (s.insert c.1 c.2) := by
  unfold Storage.insert see
  rw [h.offs]
  split
  · exact h
  · next hs =>
    obtain ⟨c1, c2, c3⟩ := hok c hc
    have hne : c.2 ≠ [] := by intro e; rw [e] at c1; simp at c1
    refine ⟨h.total, rfl, ?_, ?_, ?_⟩
    · dsimp only; rw [got_cons cs hp seen c hc hs, h.recv]
    · dsimp only; rw [write_length _ _ _ hne]; have := h.len; omega
    · intro x hx hxs i hi1 hi2
      dsimp only
      rw [write_get _ _ _ hne]
      split
      · next hr =>
        rw [c3, List.getElem?_take, List.getElem?_drop]
        rw [if_pos (by omega)]
        congr 1; omega
      · next hr =>
        rcases List.mem_cons.mp hxs with e | hxs
        · -- same offset: the same fragment
          exfalso
          have : x = c := pairwise_inj hp hx hc e
          subst this
          omega
        · have := h.cont x hx hxs i hi1 hi2
          have hi : i < s.stream.buf.length := by
            have hlt : i < data.length := by have := (hok x hx).2.1; omega
            rw [List.getElem?_eq_getElem hlt] at this
            exact (List.getElem?_eq_some_iff.mp this).1
          rw [if_neg (by omega)]
          exact this

theorem holds_complete {data : Bytes} {cs : List (Nat × Bytes)} {seen : List Nat} {s : Storage}
    (hpos : ∀ c ∈ cs, 0 < c.2.length) (hsum : (cs.map (fun c => c.2.length)).sum = data.length)
    (hcov : ∀ i, i < data.length → ∃ c ∈ cs, c.1 ≤ i ∧ i < c.1 + c.2.length)
    (h : Holds data cs seen s) :
    (s.isComplete = true ↔ ∀ c ∈ cs, c.1 ∈ seen) ∧ (s.isComplete = true → s.stream.buf = data) := by
  have h1 : s.isComplete = true ↔ ∀ c ∈ cs, c.1 ∈ seen := by
    unfold Storage.isComplete
    rw [decide_eq_true_eq, h.recv, h.total, ← hsum]
    exact (got_eq_iff cs hpos seen).2
  refine ⟨h1, fun hc => ?_⟩
  have hall := h1.mp hc
  apply List.ext_getElem?
  intro i
  by_cases hi : i < data.length
  · obtain ⟨c, hc, k1, k2⟩ := hcov i hi
    exact h.cont c hc (hall c hc) i k1 k2
  · rw [List.getElem?_eq_none (l := data) (by omega), List.getElem?_eq_none (by have := h.len; omega)]

end Verif.Frag
