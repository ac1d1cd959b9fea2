import Verif.Model.Field
import Verif.Props.RoundTrip
import Verif.Lemmas.Skip
import Verif.Spec.Float
/-! # C07–C13: fields -/
namespace Verif

/-! ## C07 -/

/-- C07. For every field list the encoder accepts: distinct fields have distinct tags, explicit tags
are respected, and looking a tag up on the wire finds the field it was assigned to. -/
theorem C07_tags {ds : FDecls} {tags : List Nat} (h : processFields ds = .ok tags) :
    tags.length = ds.length ∧
    (∀ (i j g : Nat), tags[i]? = some g → tags[j]? = some g → i = j) ∧
    (∀ (i g : Nat), ds.explicit[i]? = some (some g) → tags[i]? = some g) ∧
    (∀ (i g : Nat), tags[i]? = some g → tags.findIdx? (· == g) = some i) := by
  have hs := processFields_spec h
  refine ⟨hs.2.2.1, ?_, hs.2.2.2, fun i g hi => findIdx?_nodup hs.1 hi⟩
  intro i j g hi hj
  have h1 := findIdx?_nodup hs.1 hi
  have h2 := findIdx?_nodup hs.1 hj
  rw [h1] at h2; cases h2; rfl

/-- C07. A list with a repeated name or a repeated explicit tag is refused. -/
theorem C07_duplicates_refused {ds : FDecls}
    (h : (∃ (i j : Nat) (n : String), i < j ∧ ds.names[i]? = some n ∧ ds.names[j]? = some n) ∨
      (∃ (i j g : Nat), i < j ∧ ds.explicit[i]? = some (some g) ∧ ds.explicit[j]? = some (some g))) :
    ∃ e, processFields ds = .error e := by
  cases hp : processFields ds with
  | error e => exact ⟨e, rfl⟩
  | ok tags =>
    exfalso
    have hs := processFields_spec hp
    rcases h with ⟨i, j, n, hij, hi, hj⟩ | ⟨i, j, g, hij, hi, hj⟩
    · obtain ⟨hi', rfl⟩ := List.getElem?_eq_some_iff.mp hi
      obtain ⟨hj', he⟩ := List.getElem?_eq_some_iff.mp hj
      exact (List.pairwise_iff_getElem.mp hs.2.1) i j hi' hj' hij he.symm
    · have := (C07_tags hp).2.1 i j g (hs.2.2.2 i g hi) (hs.2.2.2 j g hj)
      omega

/-- Tags of a list mixing automatic and explicit tags. -/
example : processFields (.cons "a" (some 1) false .bool (.cons "b" none false .str
    (.cons "c" none false .buf .nil))) = .ok [1, 0, 2] := rfl

/-- The converse fails: a list without any repetition may be refused, because an automatic tag was
given away before the explicit tag is seen. -/
theorem C07_refused_without_duplicates :
    processFields (.cons "a" none false .bool (.cons "b" (some 0) false .str .nil)) = .error .duplicateTag :=
  rfl

/-! ## C08 -/

mutual
/-- Every field that is not marked optional is set, recursively through structs, lists and packets. -/
def complete (env : Env) : Val → FType → Prop
  | .list vs, .list t => completeL env vs t
  | .struct fs, .struct ds => completeF env fs ds
  | .packet cls fs, .packet _ => ∃ d, env.classDef cls = some d ∧ completeF env fs d.fields
  | _, _ => True
def completeL (env : Env) : VList → FType → Prop
  | .nil, _ => True
  | .cons v r, t => complete env v t ∧ completeL env r t
def completeF (env : Env) : FVals → FDecls → Prop
  | .nil, .nil => True
  | .unset r, .cons _ _ opt _ ds => opt = true ∧ completeF env r ds
  | .set v r, .cons _ _ _ t ds => complete env v t ∧ completeF env r ds
  | _, _ => False
end

mutual
theorem complete_V (env : Env) : (v : Val) → ∀ (t : FType) (bs : Bytes), encV env v t = .ok bs →
    complete env v t
  | .num _ => by intro t bs h; rw [complete.eq_def]; trivial
  | .float _ _ => by intro t bs h; rw [complete.eq_def]; trivial
  | .bool _ => by intro t bs h; rw [complete.eq_def]; trivial
  | .str _ => by intro t bs h; rw [complete.eq_def]; trivial
  | .buf _ => by intro t bs h; rw [complete.eq_def]; trivial
  | .list vs => by
    intro t bs he
    cases t with
    | list t =>
      rw [encV.eq_def] at he; dsimp only at he
      obtain ⟨h, hh, he⟩ := bindE he
      obtain ⟨body, hb, he⟩ := bindE he
      rw [complete.eq_def]
      exact complete_L env vs t body hb
    | _ => rw [encV.eq_def] at he; cases he
  | .struct fs => by
    intro t bs he
    cases t with
    | struct ds =>
      rw [encV.eq_def] at he; dsimp only at he
      obtain ⟨tags, ht, he⟩ := bindE he
      obtain ⟨n, hn, he⟩ := bindE he
      obtain ⟨h, hh, he⟩ := bindE he
      obtain ⟨body, hb, he⟩ := bindE he
      rw [complete.eq_def]
      exact complete_F env fs ds tags n body hn hb
    | _ => rw [encV.eq_def] at he; cases he
  | .packet cls fs => by
    intro t bs he
    cases t with
    | packet base =>
      obtain ⟨d, tags, n, h, body, hdr, hcls, ht, hn, hh, hb, hhdr, rfl⟩ := encPacket_inv he
      rw [complete.eq_def]
      exact ⟨d, hcls, complete_F env fs d.fields tags n body hn hb⟩
    | _ => rw [encV.eq_def] at he; cases he
theorem complete_L (env : Env) : (vs : VList) → ∀ (t : FType) (bs : Bytes), encL env vs t = .ok bs →
    completeL env vs t
  | .nil => by intros; rw [completeL.eq_def]; trivial
  | .cons v r => by
    intro t bs he
    rw [encL.eq_def] at he; dsimp only at he
    obtain ⟨b, hb, he⟩ := bindE he
    obtain ⟨bs', hbs, he⟩ := bindE he
    rw [completeL.eq_def]
    exact ⟨complete_V env v t b hb, complete_L env r t bs' hbs⟩
theorem complete_F (env : Env) : (fs : FVals) → ∀ (ds : FDecls) (tags : List Nat) (n : Nat) (bs : Bytes),
    countSet fs ds = .ok n → encF env fs ds tags = .ok bs → completeF env fs ds
  | .nil => by
    intro ds tags n bs hn he
    cases ds with
    | nil => rw [completeF.eq_def]; trivial
    | cons => rw [encF.eq_def] at he; cases he
  | .unset r => by
    intro ds tags n bs hn he
    cases ds with
    | nil => rw [encF.eq_def] at he; cases he
    | cons name tag opt t ds =>
      cases tags with
      | nil => rw [encF.eq_def] at he; cases he
      | cons tg tags =>
        rw [encF.eq_def] at he; dsimp only at he
        rw [completeF.eq_def]
        refine ⟨?_, complete_F env r ds tags n bs (countSet_unset hn) he⟩
        rw [countSet] at hn
        split at hn
        · assumption
        · cases hn
  | .set v r => by
    intro ds tags n bs hn he
    cases ds with
    | nil => rw [encF.eq_def] at he; cases he
    | cons name tag opt t ds =>
      cases tags with
      | nil => rw [encF.eq_def] at he; cases he
      | cons tg tags =>
        rw [encF.eq_def] at he; dsimp only at he
        obtain ⟨tb, htb, he⟩ := bindE he
        obtain ⟨b, hb, he⟩ := bindE he
        obtain ⟨bs', hbs, he⟩ := bindE he
        obtain ⟨k, hk, _⟩ := countSet_set hn
        rw [completeF.eq_def]
        exact ⟨complete_V env v t b (wrapE_ok hb), complete_F env r ds tags k bs' hk hbs⟩
end

/-- C08. What `__serialize__` accepts has every required field set, at every level. -/
theorem C08_serialized_is_complete {env : Env} {base : Cls} {p : Val} {bs : Bytes}
    (h : serialize env base p = .ok bs) : complete env p (.packet base) :=
  complete_V env p _ bs h

example : (serialize Ex.env 0 Ex.p2).isOk = true := by decide

/-- A missing required field in a nested struct is refused. -/
example : serialize Ex.env 0 (.packet 3 (.set (.num 1) (.set (.struct (.unset (.unset .nil))) .nil)))
    = .error .encoding := rfl

/-- The receiving side does not have this guarantee: a packet without its required field is decoded
without complaint and delivered incomplete. -/
theorem C08_decoded_may_be_incomplete : ∃ b p, Decodes Ex.env 1 0 b p ∧ ¬ complete Ex.env p (.packet 0) := by
  have h : Ex.result (deserialize Ex.env 1 0 (beEnc 8 28 ++ beEnc 8 (compl64 28) ++
      [5, 116, 46, 111, 110, 101, 3, 49, 46, 48, 0, 0])) = some (.packet 1 (.unset (.unset (.unset .nil)))) := by
    decide
  refine ⟨beEnc 8 28 ++ beEnc 8 (compl64 28) ++ [5, 116, 46, 111, 110, 101, 3, 49, 46, 48, 0, 0],
    .packet 1 (.unset (.unset (.unset .nil))), ?_, ?_⟩
  rotate_left
  · rw [complete.eq_def]
    rintro ⟨d, hd, hc⟩
    cases hd
    rw [show Ex.t1.fields = .cons "a" none false (.num false { bits := some 16 })
      (.cons "s" none true .str (.cons "l" (some 7) true (.list (.num false { bits := some 8 })) .nil)) from rfl,
      completeF.eq_def] at hc
    exact absurd hc.1 (by decide)
  · unfold Ex.result at h
    split at h
    · next v m hm =>
      cases h
      exact ⟨m, _, by rw [← hm]⟩
    · cases h

/-! ## C09 -/

/-- The type UINT`n` as it occurs inside a packet. fieldtypes/__init__.py:20-23. -/
def uintT (n : Nat) : FType := .num false { bits := some n }
/-- The type INT`n`. fieldtypes/__init__.py:26-29. -/
def intT (n : Nat) : FType := .num true { bits := some n }

theorem width_bits {n : Nat} (hn : n = 8 ∨ n = 16 ∨ n = 32 ∨ n = 64) :
    numWidth { bits := some n } = .ok (n / 8) := by
  rcases hn with rfl | rfl | rfl | rfl <;> rfl

theorem pow_bits {n : Nat} (hn : n = 8 ∨ n = 16 ∨ n = 32 ∨ n = 64) :
    (256 : Int) ^ (n / 8) = 2 ^ n := by
  rcases hn with rfl | rfl | rfl | rfl <;> decide

/-- C09. A UINT8/16/32/64 field accepts exactly 0..2^n-1. -/
theorem C09_uint_range (env : Env) {n : Nat} (i : Int) :
    accepts env (.num i) (uintT n) = true ↔ 0 ≤ i ∧ i < 2 ^ n := by
  simp only [uintT, accepts, NumAttrs.validates, NumAttrs.effMax, Option.map_some, Bool.false_or,
    Bool.and_eq_true, decide_eq_true_eq, and_true]
  constructor
  · rintro ⟨h1, h2, h3⟩; exact ⟨h1, by omega⟩
  · rintro ⟨h1, h2⟩; exact ⟨h1, by omega, by omega⟩

/-- C09. With `MinValue` and `MaxValue`, both are allowed and everything outside is not; with `Bits(n)` and a `MaxValue` of its own, at most 2^n. -/
theorem C09_limits (env : Env) (signed : Bool) (a : NumAttrs) (i : Int) : accepts env (.num i) (.num signed a) = true ↔
    (signed = false → 0 ≤ i) ∧ (∀ m, a.minV = some m → m ≤ i) ∧ (∀ m, a.maxV = some m → i ≤ m) ∧
    (∀ n, a.bits = some n → i ≤ 2 ^ n ∧ (a.maxV = none → i < 2 ^ n)) := by
  obtain ⟨b, mx, mn⟩ := a
  simp only [accepts, NumAttrs.validates, NumAttrs.effMax, Bool.and_eq_true, Bool.or_eq_true, decide_eq_true_eq]
  cases signed <;> cases b <;> cases mx <;> cases mn <;> simp <;> omega

/-- C09, assignment: what is converted to an integer is assigned without an exception exactly if it is in these limits. -/
theorem C09_assign (env : Env) (conv : Conv) (signed : Bool) (a : NumAttrs) (old : Option Val) (x : PyVal) (i : Int) (hi : x.toInt = some i) :
    (setField env conv (.num signed a) old x).data = some (.num i) ∧
    ((setField env conv (.num signed a) old x).raised = false ↔
      (signed = false → 0 ≤ i) ∧ (∀ m, a.minV = some m → m ≤ i) ∧ (∀ m, a.maxV = some m → i ≤ m) ∧
      (∀ n, a.bits = some n → i ≤ 2 ^ n ∧ (a.maxV = none → i < 2 ^ n))) := by
  rw [← C09_limits env signed a i]
  have hx : x ≠ .unset := by rintro rfl; cases hi
  have e : setField env conv (.num signed a) old x = (if !signed && decide (i < 0) then ⟨true, some (.num i)⟩
        else if a.validates i then ⟨false, some (.num i)⟩ else ⟨true, some (.num i)⟩) := by
    cases x <;> first | exact absurd rfl hx | (simp only [setField, hi])
  rw [e, accepts]
  cases signed <;> cases hv : a.validates i <;> by_cases h0 : i < 0 <;> simp [h0] <;> omega

example (env : Env) : accepts env (.num 5) (.num false { bits := some 8, minV := some 5, maxV := some 9 }) = true ∧
    accepts env (.num 4) (.num false { bits := some 8, minV := some 5, maxV := some 9 }) = false ∧
    accepts env (.num 10) (.num true { minV := some (-5), maxV := some 9 }) = false := ⟨rfl, rfl, rfl⟩

/-- C09. Python's `int()` truncates a finite float toward zero; an infinite one or a NaN raises. -/
theorem C09_from_float (x : F64) (i : Int) : (PyVal.float x).toInt = some i ↔
    x.finite ∧ (0 ≤ x.scaled → i * 2 ^ 1074 ≤ x.scaled ∧ x.scaled < (i + 1) * 2 ^ 1074) ∧ (x.scaled < 0 → (i - 1) * 2 ^ 1074 < x.scaled ∧ x.scaled ≤ i * 2 ^ 1074) := by
  rw [PyVal.toInt]
  by_cases h : exp64 x.toNat = 2047
  · rw [if_pos h]
    exact ⟨(fun h => nomatch h), fun h' => absurd h h'.1⟩
  · rw [if_neg h]
    have hp : (0 : Int) < 2 ^ 1074 := Int.pow_pos (by decide)
    generalize (2 : Int) ^ 1074 = D at *
    generalize x.scaled = y at *
    constructor
    · intro he
      have he := Option.some.inj he
      subst he
      have h1 := Int.mul_tdiv_add_tmod y D
      refine ⟨h, fun hy => ?_, fun hy => ?_⟩
      · have h2 := Int.tmod_nonneg D hy
        have h3 := Int.tmod_lt_of_pos y hp
        rw [Int.add_mul, Int.mul_comm _ D]; omega
      · have h2 := Int.lt_tmod_of_pos y hp
        have h3 : y.tmod D ≤ 0 := by
          have := Int.tmod_nonneg (a := -y) D (by omega)
          rw [Int.neg_tmod] at this
          omega
        rw [Int.sub_mul, Int.mul_comm _ D]; omega
    · rintro ⟨-, h1, h2⟩
      congr 1
      by_cases hy : 0 ≤ y
      · obtain ⟨a, b⟩ := h1 hy
        have e1 := Int.mul_tdiv_add_tmod y D
        have e2 := Int.tmod_nonneg D hy
        have e3 := Int.tmod_lt_of_pos y hp
        have k1 : y.tdiv D * D < (i + 1) * D := by rw [Int.mul_comm _ D]; omega
        have k2 : i * D < (y.tdiv D + 1) * D := by rw [Int.add_mul (y.tdiv D), Int.mul_comm (y.tdiv D) D]; omega
        have := Int.lt_of_mul_lt_mul_right k1 (by omega)
        have := Int.lt_of_mul_lt_mul_right k2 (by omega)
        omega
      · obtain ⟨a, b⟩ := h2 (by omega)
        have e1 := Int.mul_tdiv_add_tmod y D
        have e3 := Int.lt_tmod_of_pos y hp
        have e2 : y.tmod D ≤ 0 := by
          have := Int.tmod_nonneg (a := -y) D (by omega)
          rw [Int.neg_tmod] at this
          omega
        have k1 : (i - 1) * D < y.tdiv D * D := by rw [Int.mul_comm (y.tdiv D) D]; omega
        have k2 : (y.tdiv D - 1) * D < i * D := by rw [Int.sub_mul (y.tdiv D), Int.mul_comm (y.tdiv D) D]; omega
        have := Int.lt_of_mul_lt_mul_right k1 (by omega)
        have := Int.lt_of_mul_lt_mul_right k2 (by omega)
        omega

/-- C09. It occupies exactly n/8 bytes, the big-endian digits of the value. -/
theorem C09_uint_wire (env : Env) {n : Nat} (hn : n = 8 ∨ n = 16 ∨ n = 32 ∨ n = 64) {i : Int}
    (h : accepts env (.num i) (uintT n) = true) :
    ∃ b, encV env (.num i) (uintT n) = .ok b ∧ b.length = n / 8 ∧ (beDec b : Int) = i := by
  rw [C09_uint_range] at h
  have : encV env (.num i) (uintT n) = packU (n / 8) i := by
    rw [uintT, encV.eq_def]; dsimp only
    rw [width_bits hn]; rfl
  rw [this]
  have hp : packU (n / 8) i = .ok (beEnc (n / 8) i.toNat) := by
    rw [packU, if_pos]; rw [pow_bits hn]; exact h
  exact ⟨_, hp, by simp, packU_dec hp⟩

/-- C09. Any unsigned field whose effective maximum is below 2^64 (in particular every UINT`n` and
every Uint with a MaxValue attribute below 2^64) encodes each value it accepts and decodes it back,
whatever follows on the wire. -/
theorem C09_unsigned_roundtrip (env : Env) (pk : Cls → Nat → Dec (Val × Nat)) {a : NumAttrs} {i : Int}
    (hmax : ∃ m, a.effMax = some m ∧ m < 2 ^ 64) (h : accepts env (.num i) (.num false a) = true) :
    ∃ b, encV env (.num i) (.num false a) = .ok b ∧
      ∀ rest, (decT env pk (.num false a) none 0).run (b ++ rest) 0 = (.done (.num i, 0), b.length) := by
  obtain ⟨m, hm, hm64⟩ := hmax
  have hacc : ((false || decide (0 ≤ i)) && a.validates i) = true := by simpa [accepts] using h
  simp only [Bool.false_or, Bool.and_eq_true, decide_eq_true_eq] at hacc
  have hle : i ≤ m := by
    have := hacc.2
    unfold NumAttrs.validates at this
    rw [hm] at this
    simp only [Bool.and_eq_true, decide_eq_true_eq] at this
    exact this.1.2
  obtain ⟨w, hw, hfit⟩ : ∃ w, numWidth a = .ok w ∧ m < 256 ^ w := by
    unfold numWidth
    rw [hm]
    simp only [Option.getD_some]
    repeat' split
    · exact ⟨1, rfl, by simpa using by assumption⟩
    · exact ⟨2, rfl, by simpa using by assumption⟩
    · exact ⟨4, rfl, by simpa using by assumption⟩
    · exact ⟨8, rfl, by simpa using by assumption⟩
  have hp : packU w i = .ok (beEnc w i.toNat) := by
    rw [packU, if_pos ⟨hacc.1, by omega⟩]
  refine ⟨beEnc w i.toNat, ?_, ?_⟩
  · rw [encV.eq_def]; dsimp only; rw [hw]; exact hp
  · intro rest
    have := (parses_num (p := 0) (m := 0) (signed := false) hw hp (by simp [hacc]) (.inl rfl)).map
      (f := fun v => (v, 0))
    rw [decT.eq_def]
    simpa using this.run [] rest rfl

example (env : Env) : accepts env (.num 255) (uintT 8) = true := (C09_uint_range env 255).mpr (by decide)
example : ∃ m, (NumAttrs.effMax { maxV := some 1000 }) = some m ∧ m < 2 ^ 64 := ⟨1000, rfl, by decide⟩

/-- C09 is false for signed fields: INT8 accepts 200 and -1000, which it cannot encode. -/
theorem C09_false_signed (env : Env) :
    accepts env (.num 200) (intT 8) = true ∧ (encV env (.num 200) (intT 8)) = .error .structError ∧
    accepts env (.num (-1000)) (intT 8) = true ∧ (encV env (.num (-1000)) (intT 8)) = .error .structError :=
  ⟨by simp [intT, accepts, NumAttrs.validates, NumAttrs.effMax], rfl,
   by simp [intT, accepts, NumAttrs.validates, NumAttrs.effMax], rfl⟩

/-- C09, signed half, proved part: INT`n` accepts exactly the integers up to 2^n-1 (no lower bound);
it can encode exactly those in -2^(n-1)..2^(n-1)-1, in n/8 bytes, and these are decoded back. -/
theorem C09_signed_partial (env : Env) (pk : Cls → Nat → Dec (Val × Nat)) {n : Nat}
    (hn : n = 8 ∨ n = 16 ∨ n = 32 ∨ n = 64) (i : Int) :
    (accepts env (.num i) (intT n) = true ↔ i < 2 ^ n) ∧
    ((∃ b, encV env (.num i) (intT n) = .ok b) ↔ -(2 ^ (n - 1)) ≤ i ∧ i < 2 ^ (n - 1)) ∧
    (∀ b, encV env (.num i) (intT n) = .ok b → b.length = n / 8 ∧
      ∀ rest, (decT env pk (intT n) none 0).run (b ++ rest) 0 = (.done (.num i, 0), b.length)) := by
  have hacc : accepts env (.num i) (intT n) = true ↔ i < 2 ^ n := by
    simp only [intT, accepts, NumAttrs.validates, NumAttrs.effMax, Option.map_some, Bool.true_or,
      Bool.true_and, Bool.and_eq_true, decide_eq_true_eq, and_true]
    omega
  have henc : encV env (.num i) (intT n) = packS (n / 8) i := by
    rw [intT, encV.eq_def]; dsimp only
    rw [width_bits hn]; rfl
  have hhalf : (256 : Int) ^ (n / 8) / 2 = 2 ^ (n - 1) := by
    rcases hn with rfl | rfl | rfl | rfl <;> decide
  have hle : (2 : Int) ^ (n - 1) ≤ 2 ^ n := by
    rcases hn with rfl | rfl | rfl | rfl <;> decide
  refine ⟨hacc, ?_, ?_⟩
  · rw [henc, packS, hhalf]
    constructor
    · rintro ⟨b, hb⟩
      split at hb
      · assumption
      · cases hb
    · intro h; rw [if_pos h]; exact ⟨_, rfl⟩
  · intro b hb
    rw [henc] at hb
    have hr : -(2 ^ (n - 1)) ≤ i ∧ i < 2 ^ (n - 1) := by
      rw [packS, hhalf] at hb
      split at hb
      · assumption
      · cases hb
    refine ⟨(packS_ok hb).1, ?_⟩
    intro rest
    have hv : ((true || decide (0 ≤ i)) && NumAttrs.validates { bits := some n } i) = true := by
      have := hacc.mpr (by omega)
      simpa [intT, accepts] using this
    have := (parses_num (p := 0) (m := 0) (signed := true) (width_bits hn) (by simpa using hb) hv
      (.inl rfl)).map (f := fun v => (v, 0))
    rw [intT, decT.eq_def]
    simpa using this.run [] rest rfl

/-! ## C10 -/

/-- C10 is false: assigning 300 to a UINT8 field holding 5 raises, and the field holds 300. -/
theorem C10_false_number (env : Env) (conv : Conv) :
    setField env conv (uintT 8) (some (.num 5)) (.int 300) = ⟨true, some (.num 300)⟩ := rfl

/-- C10 is false for lists: a rejected list assignment leaves the part before the rejected element,
and the rejected element itself, in the field. -/
theorem C10_false_list (env : Env) (conv : Conv) :
    LState.set env conv (uintT 8) ⟨true, [some (.num 1), some (.num 2)]⟩ (.list [.int 3, .int 300, .int 4])
      = (true, ⟨true, [some (.num 3), some (.num 300)]⟩) := rfl

/-- Consequence: a value rejected by the sender's own type is sent anyway, and every receiver rejects
the packet. (A Uint with MaxValue 10, assignment of 200 refused.) -/
theorem C10_rejected_value_is_sent (env : Env) (conv : Conv) (pk : Cls → Nat → Dec (Val × Nat)) :
    ∃ old x v b, setField env conv (.num false { maxV := some 10 }) old x = ⟨true, some v⟩ ∧
      encV env v (.num false { maxV := some 10 }) = .ok b ∧
      (decT env pk (.num false { maxV := some 10 }) none 0).run b 0 = (.error .value, b.length) :=
  ⟨some (.num 3), .int 200, .num 200, [200], rfl, rfl, rfl⟩

/-- Consequence for lists: elements of a list field that was set to UNSET come back with the next
`append`. -/
theorem C10_unset_list_comes_back (env : Env) (conv : Conv) :
    let st := (LState.set env conv (uintT 8) ⟨true, [some (.num 1), some (.num 2)]⟩ .unset).2
    st.read = none ∧ (st.append env conv (uintT 8) (.int 9)).2.read
      = some [some (.num 1), some (.num 2), some (.num 9)] := ⟨rfl, rfl⟩

/-- C10, proved part: a raising assignment leaves every boolean, string, buffer, struct and packet
field unchanged; a number field is left unchanged when the value is not convertible to an integer, and
otherwise holds the rejected integer; likewise a float field. -/
theorem C10_rejected_partial (env : Env) (conv : Conv) (t : FType) (old : Option Val) (x : PyVal)
    (h : (setField env conv t old x).raised = true) :
    ((∀ s a, t ≠ .num s a) → (∀ a, t ≠ .float a) → (setField env conv t old x).data = old) ∧
    (∀ a, t = .float a →
      (conv.toFloat x = none → (setField env conv t old x).data = old) ∧
      (∀ y, conv.toFloat x = some y → (setField env conv t old x).data = some (.float a.single y))) ∧
    (∀ s a, t = .num s a →
      (x.toInt = none → (setField env conv t old x).data = old) ∧
      (∀ i, x.toInt = some i → (setField env conv t old x).data = some (.num i))) := by
  cases x with
  | unset => cases h
  | _ =>
    cases t with
    | num s a =>
      refine ⟨fun hn => absurd rfl (hn s a), nofun, ?_⟩
      rintro _ _ ⟨⟩
      unfold setField
      dsimp only
      constructor
      · intro hx; rw [hx]
      · intro i hx; rw [hx]; dsimp only
        repeat' split
        all_goals rfl
    | float a =>
      refine ⟨fun _ hn => absurd rfl (hn a), ?_, nofun⟩
      rintro _ ⟨⟩
      unfold setField
      dsimp only
      constructor
      · intro hx; rw [hx]
      · intro i hx; rw [hx]
    | _ =>
      refine ⟨fun _ _ => ?_, ?_, ?_⟩
      case refine_2 => intro a e; cases e
      case refine_3 => intro s a e; cases e
      revert h
      unfold setField
      dsimp only
      repeat' split
      all_goals first | (intro h; rfl) | (intro h; cases h)

example (env : Env) (conv : Conv) :
    (setField env conv .buf (some (.buf [1])) (.str ['a'])).raised = true := rfl

/-- An accepted assignment to a float field stores what the validators accept. -/
theorem setField_float {env : Env} {conv : Conv} {a : NumAttrs} {old : Option Val} {x : PyVal} {v : Val}
    (h : (setField env conv (.float a) old x).raised = false) (hv : (setField env conv (.float a) old x).data = some v) :
    accepts env v (.float a) = true := by
  cases x with
  | unset => cases hv
  | _ =>
    unfold setField at h hv
    dsimp only at h hv
    split at h
    · cases h
    next y hy =>
    rw [hy] at hv
    simp only [Bool.not_eq_eq_eq_not, Bool.not_false] at h
    cases hv
    rw [accepts.eq_def]; dsimp only
    rw [h, Bool.and_true, beq_self_eq_true]

/-- An accepted assignment stores a value the type accepts (so C01 and C09 apply to it). -/
theorem C10_accepted_is_valid (env : Env) (conv : Conv) (t : FType) (old : Option Val) (x : PyVal)
    (v : Val) (h : (setField env conv t old x).raised = false)
    (hv : (setField env conv t old x).data = some v) (hobj : ∀ w, x = .obj w → accepts env w t = true) :
    accepts env v t = true := by
  cases x with
  | unset => cases hv
  | obj w =>
    have hw := hobj w rfl
    cases t with
    | struct ds =>
      unfold setField at h hv
      dsimp only at h hv
      repeat' split at h
      all_goals repeat' split at hv
      all_goals first | (cases h; done) | (cases hv; exact hw) | (simp_all)
    | packet base =>
      unfold setField at h hv
      dsimp only at h hv
      repeat' split at h
      all_goals repeat' split at hv
      all_goals first | (cases h; done) | (cases hv; exact hw) | (simp_all)
    | float a => exact setField_float h hv
    | bool => cases hv; rfl
    | str => cases hv; rfl
    | _ => cases h
  | _ =>
    cases t with
    | num s a =>
      unfold setField at h hv
      dsimp only at h hv
      split at h
      · cases h
      next i hi =>
      rw [hi] at hv
      dsimp only at hv
      split at h
      · cases h
      next hs =>
      split at h
      next hval =>
        rw [if_neg hs, if_pos hval] at hv
        cases hv
        rw [accepts.eq_def]; dsimp only
        rw [hval]
        cases s with
        | true => rfl
        | false =>
          simp only [Bool.not_false, Bool.true_and, decide_eq_true_eq] at hs
          simp; omega
      · cases h
    | float a => exact setField_float h hv
    | bool => cases hv; rfl
    | str => cases hv; rfl
    | buf => first | (cases h; done) | (cases hv; rfl)
    | _ => cases h

/-! ## C11 -/

/-- C11. For packets containing no packets: received unchanged exactly when all strings are ASCII.
The unconditional C11 is false: `C01_false_truncated_string`. -/
theorem C11_strings_iff_ascii_partial {env : Env} (hr : env.Registered) {depth : Nat} {base cls : Cls} {fs : FVals}
    (hs : Sendable env base (.packet cls fs)) (hflat : flatF fs = true) :
    Decodes env (depth + 1) base (ser env (.packet cls fs)) (.packet cls fs) ↔ asciiF fs = true := by
  constructor
  · intro h
    have := ((C01_roundtrip_iff_partial hr hs).mp h).1
    rwa [asciiV] at this
  · exact C01_roundtrip_flat_partial hr hs hflat

theorem utf8_prefix : ∀ (s' s : Str) (x : Bytes), utf8 s' ++ x = utf8 s → s' <+: s := by
  intro s'
  induction s' with
  | nil => intro s x _; exact List.nil_prefix
  | cons c s' ih =>
    intro s x h
    rw [show utf8 (c :: s') = utf8Char c ++ utf8 s' from rfl, List.append_assoc] at h
    have h1 := utf8Dec_char c (utf8 s' ++ x)
    rw [h, utf8Dec_utf8] at h1
    cases ht : utf8Dec (utf8 s' ++ x) with
    | none => rw [ht] at h1; cases h1
    | some t =>
      rw [ht] at h1
      simp only [Option.map_some, Option.some.injEq] at h1
      subst h1
      have := ih t x (utf8_of_dec _ t ht).symm
      exact (List.prefix_cons_inj c).mpr this

/-- C11. What a STRING field delivers, if it delivers anything, is a prefix of the string sent; it is
the whole string exactly if that is ASCII. -/
theorem C11_string_prefix (env : Env) (pk : Cls → Nat → Dec (Val × Nat)) {s : Str} {b : Bytes}
    (he : encV env (.str s) .str = .ok b) (rest : Bytes) :
    (∃ n, (decT env pk .str none 0).run (b ++ rest) 0 = (.error .unicode, n)) ∨
    (∃ s' n, (decT env pk .str none 0).run (b ++ rest) 0 = (.done (.str s', 0), n) ∧ s' <+: s ∧
      (s' = s ↔ isAscii s = true)) := by
  rw [encV.eq_def] at he; dsimp only at he
  split at he
  · cases he
  obtain ⟨h, hh, he⟩ := bindE he
  cases he
  have hl := length_le_utf8 s
  rw [decT.eq_def]; dsimp only
  have p1 := (parses_unpackU (p := 0) (max := 0) hh (.inl rfl)).run_then (β := Val × Nat)
  rw [p1 _ _ [] ((utf8 s).take s.length ++ rest) (by simp) rfl]
  have p2 := (parses_unpack (p := 0 + h.length) (max := 0) (b := (utf8 s).take s.length) (n := s.length)
    (by simp; omega) (.inl rfl)).run_then (β := Val × Nat)
  rw [p2 _ _ h rest (by simp) (by simp)]
  cases hd : utf8Dec ((utf8 s).take s.length) with
  | none => left; exact ⟨_, rfl⟩
  | some s' =>
    right
    refine ⟨s', _, rfl, utf8_prefix s' s ((utf8 s).drop s.length) ?_, ?_, ?_⟩
    · rw [utf8_of_dec _ s' hd, List.take_append_drop]
    · rintro rfl
      have h1 := congrArg List.length (utf8_of_dec _ s' hd)
      rw [List.length_take] at h1
      cases ha : isAscii s' with
      | true => rfl
      | false => have := utf8_length_not_ascii ha; omega
    · intro ha
      rw [List.take_of_length_le (by rw [utf8_length_ascii ha]; exact Nat.le_refl _), utf8Dec_utf8] at hd
      cases hd; rfl

/-! ## C12 -/

/-- C12. A serialized packet begins with its length, the complement, identifier and version. -/
theorem C12_header {env : Env} {base cls : Cls} {fs : FVals} {b : Bytes}
    (h : serialize env base (.packet cls fs) = .ok b) :
    ∃ d content, env.classDef cls = some d ∧ b.length < 2 ^ 64 ∧
      b = beEnc 8 b.length ++ beEnc 8 (compl64 b.length)
        ++ [UInt8.ofNat (utf8 d.ident).length] ++ utf8 d.ident
        ++ [UInt8.ofNat (utf8 d.version).length] ++ utf8 d.version ++ content ∧
      (utf8 d.ident).length < 256 ∧ (utf8 d.version).length < 256 := by
  obtain ⟨d, tags, n, cnt, body, hdr, hcls, ht, hn, hh, hb, hhdr, rfl⟩ := encPacket_inv h
  obtain ⟨h1, h2, h3, h4⟩ := encHeader_inv hhdr
  have hL : (hdr ++ (cnt ++ body)).length = 16 + (1 + (utf8 d.ident).length) + (1 + (utf8 d.version).length)
        + (cnt.length + body.length) := by
    rw [h4]; simp; omega
  refine ⟨d, cnt ++ body, hcls, by omega, ?_, h2, h3⟩
  conv => lhs; rw [h4]
  rw [hL]
  simp [hdr16]

/-- C12. No serialized packet is a strict prefix of another one. -/
theorem C12_prefix_free {env : Env} {base : Cls} {p q : Val} {b x : Bytes}
    (hp : serialize env base p = .ok b) (hq : serialize env base q = .ok (b ++ x)) : x = [] := by
  have hpk : ∀ (v : Val) (b : Bytes), serialize env base v = .ok b → 16 ≤ b.length ∧ b.length < 2 ^ 64 ∧
      b.take 8 = beEnc 8 b.length := by
    intro v b hv
    cases v with
    | packet cls fs =>
      obtain ⟨d, content, hd, hl, hb, _⟩ := C12_header hv
      have := congrArg List.length hb
      refine ⟨by simp at this; omega, hl, ?_⟩
      conv => lhs; rw [hb]
      simp only [List.append_assoc]
      exact List.take_left' (by simp)
    | _ => unfold serialize at hv; rw [encV.eq_def] at hv; cases hv
  obtain ⟨l1, m1, h1⟩ := hpk p b hp
  obtain ⟨l2, m2, h2⟩ := hpk q (b ++ x) hq
  rw [List.take_append_of_le_length (by omega), h1] at h2
  have := congrArg beDec h2
  rw [beDec_beEnc_lt (show b.length < 256 ^ 8 from m1),
    beDec_beEnc_lt (show (b ++ x).length < 256 ^ 8 from m2), List.length_append] at this
  exact List.eq_nil_of_length_eq_zero (by omega)

example : ∃ b, serialize Ex.env 0 Ex.p1 = .ok b ∧ ∃ b', serialize Ex.env 0 Ex.p2 = .ok b' :=
  ⟨_, Ex.p1_sendable.2.choose_spec, Ex.p2_sendable.2⟩

/-! ## C13 -/

mutual
/-- No string or buffer has more than `k` characters/bytes. -/
def short (k : Nat) : Val → Bool
  | .str s => decide (s.length ≤ k)
  | .buf b => decide (b.length ≤ k)
  | .list vs => shortL k vs
  | .struct fs => shortF k fs
  | .packet _ fs => shortF k fs
  | _ => true
def shortL (k : Nat) : VList → Bool
  | .nil => true
  | .cons v r => short k v && shortL k r
def shortF (k : Nat) : FVals → Bool
  | .nil => true
  | .unset r => shortF k r
  | .set v r => short k v && shortF k r
end

mutual
theorem short_limV (env : Env) : (v : Val) → ∀ (t : FType) (bs : Bytes) (m : Nat),
    short 20 v = true → encV env v t = .ok bs → 20 ≤ m → ∃ m', limV (serLen env) m v = some m' ∧ 20 ≤ m'
  | .num _ => by intro t bs m hs he hm; exact ⟨m, rfl, hm⟩
  | .float _ _ => by intro t bs m hs he hm; exact ⟨m, rfl, hm⟩
  | .bool _ => by intro t bs m hs he hm; exact ⟨m, rfl, hm⟩
  | .str s => by
    intro t bs m hs he hm
    rw [short] at hs; simp only [decide_eq_true_eq] at hs
    exact ⟨m, by rw [limV.eq_def]; dsimp only; rw [if_pos (by omega)], hm⟩
  | .buf b => by
    intro t bs m hs he hm
    rw [short] at hs; simp only [decide_eq_true_eq] at hs
    exact ⟨m, by rw [limV.eq_def]; dsimp only; rw [if_pos (by omega)], hm⟩
  | .list vs => by
    intro t bs m hs he hm
    cases t with
    | list t =>
      rw [encV.eq_def] at he; dsimp only at he
      obtain ⟨h, hh, he⟩ := bindE he
      obtain ⟨body, hb, he⟩ := bindE he
      rw [short] at hs
      rw [limV.eq_def]
      exact short_limL env vs t body m hs hb hm
    | _ => rw [encV.eq_def] at he; cases he
  | .struct fs => by
    intro t bs m hs he hm
    cases t with
    | struct ds =>
      rw [encV.eq_def] at he; dsimp only at he
      obtain ⟨tags, ht, he⟩ := bindE he
      obtain ⟨n, hn, he⟩ := bindE he
      obtain ⟨h, hh, he⟩ := bindE he
      obtain ⟨body, hb, he⟩ := bindE he
      rw [short] at hs
      rw [limV.eq_def]
      exact short_limF env fs ds tags body m hs hb hm
    | _ => rw [encV.eq_def] at he; cases he
  | .packet cls fs => by
    intro t bs m hs he hm
    cases t with
    | packet base =>
      have h20 := (encPacket_len he).1
      have hsl := serLen_packet he
      obtain ⟨d, tags, n, h, body, hdr, hcls, ht, hn, hh, hb, hhdr, rfl⟩ := encPacket_inv he
      rw [short] at hs
      rw [limV.eq_def]; dsimp only
      rw [hsl]
      exact short_limF env fs d.fields tags body _ hs hb h20
    | _ => rw [encV.eq_def] at he; cases he
theorem short_limL (env : Env) : (vs : VList) → ∀ (t : FType) (bs : Bytes) (m : Nat),
    shortL 20 vs = true → encL env vs t = .ok bs → 20 ≤ m → ∃ m', limL (serLen env) m vs = some m' ∧ 20 ≤ m'
  | .nil => by intro t bs m hs he hm; exact ⟨m, rfl, hm⟩
  | .cons v r => by
    intro t bs m hs he hm
    rw [encL.eq_def] at he; dsimp only at he
    obtain ⟨b, hb, he⟩ := bindE he
    obtain ⟨bs', hbs, he⟩ := bindE he
    rw [shortL] at hs; simp only [Bool.and_eq_true] at hs
    obtain ⟨m1, h1, h2⟩ := short_limV env v t b m hs.1 hb hm
    rw [limL, h1]
    exact short_limL env r t bs' m1 hs.2 hbs h2
theorem short_limF (env : Env) : (fs : FVals) → ∀ (ds : FDecls) (tags : List Nat) (bs : Bytes) (m : Nat),
    shortF 20 fs = true → encF env fs ds tags = .ok bs → 20 ≤ m →
    ∃ m', limF (serLen env) m fs = some m' ∧ 20 ≤ m'
  | .nil => by intro ds tags bs m hs he hm; exact ⟨m, rfl, hm⟩
  | .unset r => by
    intro ds tags bs m hs he hm
    cases ds with
    | nil => rw [encF.eq_def] at he; cases he
    | cons name tag opt t ds =>
      cases tags with
      | nil => rw [encF.eq_def] at he; cases he
      | cons tg tags =>
        rw [encF.eq_def] at he; dsimp only at he
        rw [shortF] at hs
        rw [limF]
        exact short_limF env r ds tags bs m hs he hm
  | .set v r => by
    intro ds tags bs m hs he hm
    cases ds with
    | nil => rw [encF.eq_def] at he; cases he
    | cons name tag opt t ds =>
      cases tags with
      | nil => rw [encF.eq_def] at he; cases he
      | cons tg tags =>
        rw [encF.eq_def] at he; dsimp only at he
        obtain ⟨tb, htb, he⟩ := bindE he
        obtain ⟨b, hb, he⟩ := bindE he
        obtain ⟨bs', hbs, he⟩ := bindE he
        rw [shortF] at hs; simp only [Bool.and_eq_true] at hs
        obtain ⟨m1, h1, h2⟩ := short_limV env v t b m hs.1 (wrapE_ok hb) hm
        rw [limF, h1]
        exact short_limF env r ds tags bs' m1 hs.2 hbs h2
end

/-- C13, proved part: strings and buffers of at most 20 characters/bytes are decoded whatever packets
are nested before them. The unconditional C13 is false: `C13_false`. (`C01_roundtrip_iff_partial`
gives the exact condition.) -/
theorem C13_short_fields_partial {env : Env} (hr : env.Registered) {depth : Nat} {base : Cls} {p : Val}
    (hs : Sendable env base p) (hascii : asciiV p = true) (hd : depthV p ≤ depth) (hshort : short 20 p = true) :
    Decodes env depth base (ser env p) p := by
  rw [C01_roundtrip_iff_partial hr hs]
  obtain ⟨c, fs, hp⟩ := accepts_packet hs.1
  subst hp
  obtain ⟨b, hb⟩ := hs.2
  refine ⟨hascii, hd, ?_⟩
  obtain ⟨m, hm, _⟩ := short_limV env (.packet c fs) (.packet 0) b 20 hshort hb (Nat.le_refl _)
  refine ⟨m, ?_⟩
  rw [← hm, limV.eq_def, limV.eq_def]

example : Sendable Ex.env 0 Ex.p2 ∧ short 20 Ex.p2 = true ∧ asciiV Ex.p2 = true ∧ depthV Ex.p2 = 2 :=
  ⟨Ex.p2_sendable, by decide, by decide, by decide⟩

/-- C13 is false: the same buffer behind a long nested packet is decoded, behind a short one it is not. -/
theorem C13_false : ∃ long shrt buf,
    Decodes Ex.env 5 0 (ser Ex.env (.packet 2 (.set long (.set (.buf buf) .nil))))
      (.packet 2 (.set long (.set (.buf buf) .nil))) ∧
    Sendable Ex.env 0 (.packet 2 (.set shrt (.set (.buf buf) .nil))) ∧
    ¬ Decodes Ex.env 5 0 (ser Ex.env (.packet 2 (.set shrt (.set (.buf buf) .nil))))
      (.packet 2 (.set shrt (.set (.buf buf) .nil))) := by
  refine ⟨Ex.p1, Ex.p1', List.replicate 40 7, ?_, Ex.sendable (by decide) (by decide),
    Ex.not_decodes (o := none) (by decide) (by decide)⟩
  exact (C01_roundtrip_iff_partial Ex.registered (Ex.sendable (by decide) (by decide))).mpr
    ⟨by decide, by decide, _, show _ = some 44 by decide⟩

end Verif
