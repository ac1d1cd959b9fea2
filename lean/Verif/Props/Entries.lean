import Verif.Lemmas.Entries
import Verif.Spec.Example
import Verif.Props.RoundTrip
/-! # C87: the order of the fields, and fields that come more than once -/
namespace Verif

theorem head_eq {L : Nat} {d : PDef} (hL : L < 2 ^ 64) (hi : (utf8 d.ident).length < 256) (hv : (utf8 d.version).length < 256) :
    encHeader L (utf8 d.ident) (utf8 d.version) = .ok (beEnc 8 L ++ (beEnc 8 (compl64 L) ++ (beEnc 1 (utf8 d.ident).length ++ (utf8 d.ident ++
      (beEnc 1 (utf8 d.version).length ++ utf8 d.version))))) := by
  unfold encHeader
  have h2 : compl64 L < 256 ^ 8 := by have := compl64_lt hL; omega
  rw [packU_nat (w := 8) (v := L) (by omega), packU_nat (w := 8) (v := compl64 L) h2, packU_nat (w := 1) (v := (utf8 d.ident).length) (by omega),
    packU_nat (w := 1) (v := (utf8 d.version).length) (by omega)]
  rfl

/-- The decoding of a packet of which the fields were written in any order. -/
theorem packetOf_decodes {env : Env} (hr : env.Registered) {depth : Nat} {base cls : Cls} {es : List (Nat × Val)} {u : Bytes}
    (hu : PacketOf env cls es u) (hsub : env.isSub cls base = true) (hv : ∀ e ∈ es, asciiV e.2 = true ∧ depthV e.2 ≤ depth) {m : Nat}
    (hlim : limE (serLen env) u.length es = some m) :
    ∃ d, env.classDef cls = some d ∧ Decodes env (depth + 1) base u (.packet cls (putAll es d.fields.blank)) := by
  obtain ⟨d, tags, body, hd, ht, hb, hn, hL, hi, hver, he⟩ := hu
  refine ⟨d, hd, ?_⟩
  have hs := processFields_spec ht
  have hh : packU 2 (es.length : Int) = .ok (beEnc 2 es.length) := packU_nat (by simpa using hn)
  generalize hLu : u.length = L at *
  have hdr := head_eq (L := L) (d := d) hL hi hver
  have hu2 : u = (beEnc 8 L ++ (beEnc 8 (compl64 L) ++ (beEnc 1 (utf8 d.ident).length ++ (utf8 d.ident ++
      (beEnc 1 (utf8 d.version).length ++ utf8 d.version))))) ++ (beEnc 2 es.length ++ body) := by
    rw [he, beEnc_one hi, beEnc_one hver]; simp
  have hH : (beEnc 8 L ++ (beEnc 8 (compl64 L) ++ (beEnc 1 (utf8 d.ident).length ++ (utf8 d.ident ++
      (beEnc 1 (utf8 d.version).length ++ utf8 d.version))))).length = 18 + (utf8 d.ident).length + (utf8 d.version).length := by
    simp only [List.length_append, beEnc_length]; omega
  generalize (beEnc 8 L ++ (beEnc 8 (compl64 L) ++ (beEnc 1 (utf8 d.ident).length ++ (utf8 d.ident ++
      (beEnc 1 (utf8 d.version).length ++ utf8 d.version))))) = H at *
  have hlen : L = 16 + (1 + (utf8 d.ident).length) + (1 + (utf8 d.version).length) + ((beEnc 2 es.length).length + body.length) := by
    rw [← hLu, hu2]; simp only [List.length_append, beEnc_length, hH]; omega
  have := packet_parses hr (f := depth) (base := base) (p := 0) (m := 0) (g := []) (fs := putAll es d.fields.blank) (m' := m) trivial hd hsub ht hh (hlen ▸ hdr) (.inl rfl)
    (fun q => by
      rw [← hu2, hLu]
      exact entries_parse hr hs.1 hb (blank_accepts env _) hv hlim (by simp only [beEnc_length] at hlen; omega))
  have hrun := this.run [] [] rfl
  simp only [List.nil_append, List.append_nil] at hrun
  rw [← hu2] at hrun
  exact ⟨m, _, hrun⟩

/-- The limit for fields without packets inside. -/
theorem packetOf_flat {env : Env} {cls : Cls} {es : List (Nat × Val)} {u : Bytes} (hu : PacketOf env cls es u) (hf : ∀ e ∈ es, flatV e.2 = true) :
    limE (serLen env) u.length es = some u.length := by
  obtain ⟨d, tags, body, hd, ht, hb, hn, hL, hi, hver, he⟩ := hu
  exact flat_limE hb _ _ (by have := congrArg List.length he; simp only [List.length_append] at this; omega) hf

theorem typeAt_lt : ∀ (ds : FDecls) (i : Nat) (t : FType), ds.typeAt i = some t → i < ds.length
  | .nil, _, _, h => by cases h
  | .cons _ _ _ _ _, 0, _, _ => by rw [FDecls.length]; omega
  | .cons _ _ _ _ r, i + 1, t, h => by rw [FDecls.length]; have := typeAt_lt r i t h; omega

theorem cameFor_beyond {env : Env} {ds : FDecls} {tags : List Nat} {es : List (Nat × Val)} {bs : Bytes} (h : EntriesBytes env ds tags es bs) {i : Nat} (hi : ds.length ≤ i) :
    cameFor es i = [] := by
  induction h with
  | nil => rfl
  | @cons j v b es bs hb h ih =>
    obtain ⟨t, tag, vb, h1, _⟩ := hb
    have := typeAt_lt ds j t h1
    unfold cameFor at *
    rw [List.filter_cons, if_neg (by simp; omega)]
    exact ih

theorem at_beyond : ∀ (fs : FVals) (i : Nat), fs.length ≤ i → fs.at' i = none
  | .nil, _, _ => rfl
  | .unset _, 0, _ => rfl
  | .set _ _, 0, h => by rw [FVals.length] at h; omega
  | .unset r, i + 1, h => by rw [FVals.length] at h; rw [FVals.at']; exact at_beyond r i (by omega)
  | .set _ r, i + 1, h => by rw [FVals.length] at h; rw [FVals.at']; exact at_beyond r i (by omega)

/-- The general form: any values within the limits of the format (as in C01). -/
theorem entries_result {env : Env} (hr : env.Registered) {depth : Nat} {base cls : Cls} {es : List (Nat × Val)} {u : Bytes}
    (hu : PacketOf env cls es u) (hsub : env.isSub cls base = true) (hv : ∀ e ∈ es, asciiV e.2 = true ∧ depthV e.2 ≤ depth) {m : Nat}
    (hlim : limE (serLen env) u.length es = some m) :
    ∃ d fs, env.classDef cls = some d ∧ Decodes env (depth + 1) base u (.packet cls fs) ∧ fs.length = d.fields.length ∧
      ∀ i, fs.at' i = lastOf (cameFor es i) := by
  obtain ⟨d, hd, hdec⟩ := packetOf_decodes hr hu hsub hv hlim
  have hlen : (putAll es d.fields.blank).length = d.fields.length := by rw [putAll_length, blank_length]
  refine ⟨d, _, hd, hdec, hlen, fun i => ?_⟩
  by_cases hi : i < d.fields.length
  · rw [putAll_at es _ i (by rw [blank_length]; exact hi), blank_at, lastOf]
  · obtain ⟨d', tags, body, hd', ht, hb, _⟩ := hu
    rw [hd] at hd'; cases hd'
    rw [cameFor_beyond hb (by omega), at_beyond _ i (by omega)]
    rfl

/-- C87, proved part. The fields of a packet were written in any order, fields may come several times and required ones may be missing.
If no field contains a packet, the packet is received, and each field has what came for it last: a struct that comes again changes the fields
it has and keeps the others, every other value is replaced. -/
theorem C87_last_partial {env : Env} (hr : env.Registered) {depth : Nat} {base cls : Cls} {es : List (Nat × Val)} {u : Bytes}
    (hu : PacketOf env cls es u) (hsub : env.isSub cls base = true) (hv : ∀ e ∈ es, flatV e.2 = true ∧ asciiV e.2 = true) :
    ∃ fs, Decodes env (depth + 1) base u (.packet cls fs) ∧ ∀ i, fs.at' i = lastOf (cameFor es i) := by
  obtain ⟨d, fs, _, h1, _, h2⟩ := entries_result hr (depth := depth) (base := base) hu hsub
    (fun e he => ⟨(hv e he).2, by rw [flat_depthV e.2 (hv e he).1]; omega⟩) (packetOf_flat hu (fun e he => (hv e he).1))
  exact ⟨fs, h1, h2⟩

/-- A value that is no struct and that is the last for its field is what the field has; a field that does not come is unset. -/
theorem C87_value {env : Env} (hr : env.Registered) {depth : Nat} {base cls : Cls} {es : List (Nat × Val)} {u : Bytes}
    (hu : PacketOf env cls es u) (hsub : env.isSub cls base = true) (hv : ∀ e ∈ es, flatV e.2 = true ∧ asciiV e.2 = true) :
    ∃ fs, Decodes env (depth + 1) base u (.packet cls fs) ∧
      (∀ es1 i v es2, es = es1 ++ (i, v) :: es2 → (∀ e ∈ es2, e.1 ≠ i) → (∀ s, v ≠ .struct s) → fs.at' i = some v) ∧
      ∀ i, (∀ e ∈ es, e.1 ≠ i) → fs.at' i = none := by
  obtain ⟨fs, h1, h2⟩ := C87_last_partial hr (depth := depth) hu hsub hv
  refine ⟨fs, h1, ?_, ?_⟩
  · rintro es1 i v es2 rfl hne hs
    have h0 : es2.filter (·.1 == i) = [] := by
      rw [List.filter_eq_nil_iff]
      intro e he
      simpa using hne e he
    rw [h2 i]
    unfold lastOf cameFor
    rw [List.filter_append, List.filter_cons, if_pos (by simp), h0, List.map_append, List.foldl_append]
    simp only [List.map_cons, List.map_nil, List.foldl_cons, List.foldl_nil]
    congr 1
    generalize List.foldl _ _ _ = c
    cases c with
    | none => rfl
    | some w => exact arriveOver_other hs
  · intro i hi
    have h0 : es.filter (·.1 == i) = [] := by
      rw [List.filter_eq_nil_iff]
      intro e he
      simpa using hi e he
    rw [h2 i, cameFor, h0]; rfl

/-- Two ways of writing the fields, in which the values for each field come in the same order, are received as the same packet. -/
theorem C87_order_partial {env : Env} (hr : env.Registered) {depth : Nat} {base cls : Cls} {es es' : List (Nat × Val)} {u u' : Bytes}
    (hu : PacketOf env cls es u) (hu' : PacketOf env cls es' u') (hsub : env.isSub cls base = true)
    (hv : ∀ e ∈ es, flatV e.2 = true ∧ asciiV e.2 = true) (hsame : ∀ i, cameFor es' i = cameFor es i) :
    ∃ p, Decodes env (depth + 1) base u p ∧ Decodes env (depth + 1) base u' p := by
  have hv' : ∀ e ∈ es', flatV e.2 = true ∧ asciiV e.2 = true := by
    intro e he
    have : e.2 ∈ cameFor es' e.1 := List.mem_map.mpr ⟨e, by simp [he], rfl⟩
    rw [hsame] at this
    obtain ⟨e1, he1, he2⟩ := List.mem_map.mp this
    rw [← he2]
    exact hv e1 (List.mem_filter.mp he1).1
  obtain ⟨d, fs, hd, h1, h2, h3⟩ := entries_result hr (depth := depth) (base := base) hu hsub
    (fun e he => ⟨(hv e he).2, by rw [flat_depthV e.2 (hv e he).1]; omega⟩) (packetOf_flat hu (fun e he => (hv e he).1))
  obtain ⟨d', fs', hd', h1', h2', h3'⟩ := entries_result hr (depth := depth) (base := base) hu' hsub
    (fun e he => ⟨(hv' e he).2, by rw [flat_depthV e.2 (hv' e he).1]; omega⟩) (packetOf_flat hu' (fun e he => (hv' e he).1))
  rw [hd] at hd'; cases hd'
  have : fs' = fs := fvals_ext (by omega) (fun i _ => by rw [h3, h3', hsame])
  exact ⟨_, h1, this ▸ h1'⟩

/-- The fields that are set, with their places, in the order of `FIELDS`. -/
def fieldsOf : Nat → FVals → List (Nat × Val)
  | _, .nil => []
  | i, .unset r => fieldsOf (i + 1) r
  | i, .set v r => (i, v) :: fieldsOf (i + 1) r

theorem fieldsOf_ge : ∀ (fs : FVals) (i : Nat), ∀ e ∈ fieldsOf i fs, i ≤ e.1
  | .nil, _, _, h => by cases h
  | .unset r, i, e, h => by have := fieldsOf_ge r (i + 1) e h; omega
  | .set v r, i, e, h => by
    rcases List.mem_cons.mp h with rfl | h
    · exact Nat.le_refl _
    · have := fieldsOf_ge r (i + 1) e h; omega

theorem fieldsOf_nodup : ∀ (fs : FVals) (i : Nat), ((fieldsOf i fs).map (·.1)).Nodup
  | .nil, _ => List.nodup_nil
  | .unset r, i => fieldsOf_nodup r (i + 1)
  | .set v r, i => by
    rw [fieldsOf, List.map_cons, List.nodup_cons]
    refine ⟨fun h => ?_, fieldsOf_nodup r (i + 1)⟩
    obtain ⟨e, he, hei⟩ := List.mem_map.mp h
    have := fieldsOf_ge r (i + 1) e he
    omega

theorem encF_entries {env : Env} {D : FDecls} {T : List Nat} : ∀ (fs : FVals) (ds : FDecls) (tgs : List Nat) (bs : Bytes) (k n : Nat),
    encF env fs ds tgs = .ok bs → acceptsF env fs ds = true → countSet fs ds = .ok n → (∀ j, D.typeAt (k + j) = ds.typeAt j) → (∀ j, T[k + j]? = tgs[j]?) →
    EntriesBytes env D T (fieldsOf k fs) bs ∧ (fieldsOf k fs).length = n
  | .nil, ds, tgs, bs, k, n, he, ha, hn, hD, hT => by
    cases ds with
    | cons => rw [encF.eq_def] at he; cases he
    | nil =>
      cases tgs with
      | cons => rw [encF.eq_def] at he; cases he
      | nil => rw [encF.eq_def] at he; cases he; rw [countSet.eq_def] at hn; cases hn; exact ⟨.nil, rfl⟩
  | .unset r, ds, tgs, bs, k, n, he, ha, hn, hD, hT => by
    cases ds with
    | nil => rw [encF.eq_def] at he; cases he
    | cons name tag opt t ds =>
      cases tgs with
      | nil => rw [encF.eq_def] at he; cases he
      | cons tg tgs =>
        rw [encF.eq_def] at he; dsimp only at he
        rw [acceptsF] at ha
        exact encF_entries r ds tgs bs (k + 1) n he ha (countSet_unset hn) (fun j => by rw [show k + 1 + j = k + (j + 1) by omega, hD]; rfl)
          (fun j => by rw [show k + 1 + j = k + (j + 1) by omega, hT]; rfl)
  | .set v r, ds, tgs, bs, k, n, he, ha, hn, hD, hT => by
    cases ds with
    | nil => rw [encF.eq_def] at he; cases he
    | cons name tag opt t ds =>
      cases tgs with
      | nil => rw [encF.eq_def] at he; cases he
      | cons tg tgs =>
        rw [encF.eq_def] at he; dsimp only at he
        obtain ⟨tb, htb, he⟩ := bindE he
        obtain ⟨b, hb, he⟩ := bindE he
        obtain ⟨bs', hbs, he⟩ := bindE he
        cases he
        have htb := packU_ok (wrapE_ok htb)
        rw [acceptsF, Bool.and_eq_true] at ha
        obtain ⟨n, hn', rfl⟩ := countSet_set hn
        obtain ⟨h1, h2⟩ := encF_entries r ds tgs bs' (k + 1) n hbs ha.2 hn' (fun j => by rw [show k + 1 + j = k + (j + 1) by omega, hD]; rfl)
          (fun j => by rw [show k + 1 + j = k + (j + 1) by omega, hT]; rfl)
        refine ⟨?_, by rw [fieldsOf, List.length_cons, h2]⟩
        rw [← List.append_assoc]
        refine .cons ⟨t, tg, b, by have := hD 0; exact this, by have := hT 0; exact this, ?_, ha.1, wrapE_ok hb, ?_⟩ h1
        · have h3 := htb.2.1; have : ((256 : Int) ^ 2) = 2 ^ 16 := by decide
          omega
        · rw [htb.2.2]; simp

/-- What `__serialize__` writes is one of these ways: the fields that are set, in the order of `FIELDS`. -/
theorem C87_serialized {env : Env} {cls base : Cls} {fs : FVals} (hs : Sendable env base (.packet cls fs)) :
    PacketOf env cls (fieldsOf 0 fs) (ser env (.packet cls fs)) := by
  obtain ⟨ha, b, hb⟩ := hs
  have hser : ser env (.packet cls fs) = b := by unfold ser; rw [hb]
  rw [hser]
  obtain ⟨d, tags, n, h, body, hdr, hcls, ht, hn, hh, hbd, hhdr, rfl⟩ := encPacket_inv hb
  rw [accepts.eq_def] at ha; dsimp only at ha
  rw [hcls, Bool.and_eq_true] at ha
  obtain ⟨h1, h2⟩ := encF_entries (D := d.fields) (T := tags) fs d.fields tags body 0 n hbd ha.2 hn (fun j => by rw [Nat.zero_add]) (fun j => by rw [Nat.zero_add])
  unfold encHeader at hhdr
  obtain ⟨q1, e1, hhdr⟩ := bindE hhdr
  obtain ⟨q2, e2, hhdr⟩ := bindE hhdr
  obtain ⟨l1, e3, hhdr⟩ := bindE hhdr
  obtain ⟨l2, e4, hhdr⟩ := bindE hhdr
  cases hhdr
  have p1 := packU_ok e1
  have p2 := packU_ok e2
  have p3 := packU_ok e3
  have p4 := packU_ok e4
  have p5 := packU_ok hh
  have hL : (q1 ++ (q2 ++ (l1 ++ (utf8 d.ident ++ (l2 ++ utf8 d.version)))) ++ (h ++ body)).length
      = 16 + (1 + (utf8 d.ident).length) + (1 + (utf8 d.version).length) + (h.length + body.length) := by
    simp only [List.length_append, packU_len e1, packU_len e2, packU_len e3, packU_len e4]; omega
  have t8 : ((256 : Int) ^ 8) = 2 ^ 64 := by decide
  have t2 : ((256 : Int) ^ 2) = 2 ^ 16 := by decide
  have hi : (utf8 d.ident).length < 256 := by have := p3.2.1; omega
  have hv : (utf8 d.version).length < 256 := by have := p4.2.1; omega
  generalize 16 + (1 + (utf8 d.ident).length) + (1 + (utf8 d.version).length) + (h.length + body.length) = L at *
  refine ⟨d, tags, body, hcls, ht, h1, by have := p5.2.1; omega, by have := p1.2.1; rw [hL]; omega, hi, hv, ?_⟩
  rw [hL, p1.2.2, p2.2.2, p3.2.2, p4.2.2, p5.2.2, h2]
  simp only [Int.toNat_natCast, List.append_assoc, List.singleton_append, beEnc_one hi, beEnc_one hv, List.cons_append, List.nil_append]

theorem cameFor_perm {es es' : List (Nat × Val)} (hp : es'.Perm es) (hn : (es.map (·.1)).Nodup) (i : Nat) : cameFor es' i = cameFor es i := by
  have hp' := hp.filter (·.1 == i)
  have hlen : (es.filter (·.1 == i)).length ≤ 1 := by
    clear hp' hp
    induction es with
    | nil => simp
    | cons e es ih =>
      rw [List.map_cons, List.nodup_cons] at hn
      rw [List.filter_cons]
      split
      · next h =>
        have h0 : es.filter (·.1 == i) = [] := by
          rw [List.filter_eq_nil_iff]
          intro x hx hxi
          exact hn.1 (List.mem_map.mpr ⟨x, hx, by simp at h hxi; omega⟩)
        rw [h0]; simp
      · exact ih hn.2
  unfold cameFor
  congr 1
  cases h : es.filter (·.1 == i) with
  | nil => rw [h] at hp'; exact List.Perm.eq_nil hp'
  | cons x xs =>
    rw [h] at hlen hp'
    cases xs with
    | nil => exact List.perm_singleton.mp hp'
    | cons y ys => simp at hlen

theorem fieldsOf_flat : ∀ (fs : FVals) (i : Nat), flatF fs = true → asciiF fs = true → ∀ e ∈ fieldsOf i fs, flatV e.2 = true ∧ asciiV e.2 = true
  | .nil, _, _, _, _, he => by cases he
  | .unset r, i, h1, h2, e, he => by rw [flatF] at h1; rw [asciiF] at h2; exact fieldsOf_flat r (i + 1) h1 h2 e he
  | .set v r, i, h1, h2, e, he => by
    rw [flatF, Bool.and_eq_true] at h1; rw [asciiF, Bool.and_eq_true] at h2
    rcases List.mem_cons.mp he with rfl | he
    · exact ⟨h1.1, h2.1⟩
    · exact fieldsOf_flat r (i + 1) h1.2 h2.2 e he

/-- A packet without packets inside whose fields are put on the wire in any other order is received as the packet it is. -/
theorem C87_permuted_partial {env : Env} (hr : env.Registered) {depth : Nat} {base cls : Cls} {fs : FVals} (hs : Sendable env base (.packet cls fs))
    (hf : flatF fs = true) (ha : asciiF fs = true) {es : List (Nat × Val)} (hp : es.Perm (fieldsOf 0 fs)) {u : Bytes} (hu : PacketOf env cls es u) :
    Decodes env (depth + 1) base u (.packet cls fs) := by
  have hsub : env.isSub cls base = true := by
    have := hs.1
    rw [accepts.eq_def] at this; dsimp only at this
    rw [Bool.and_eq_true] at this
    exact this.1
  obtain ⟨p, h1, h2⟩ := C87_order_partial hr (depth := depth) (C87_serialized hs) hu hsub (fieldsOf_flat fs 0 hf ha) (cameFor_perm hp (fieldsOf_nodup fs 0))
  have h3 : Decodes env (depth + 1) base (ser env (.packet cls fs)) (.packet cls fs) :=
    C01_roundtrip_flat_partial hr hs hf ha
  obtain ⟨m, n, h1⟩ := h1
  obtain ⟨m', n', h3⟩ := h3
  rw [h1] at h3
  cases h3
  exact h2

/-! ## Examples and limits -/
namespace Ex

/-- A struct `x = true, y = "a"`. -/
def xy : Val := .struct (.set (.bool true) (.set (.str ['a']) .nil))
/-- A struct `x = false`. -/
def xOnly : Val := .struct (.set (.bool false) (.unset .nil))
/-- The fields of a packet of class 3, the struct twice and the number last. -/
def twice : List (Nat × Val) := [(1, xy), (1, xOnly), (0, .num 9)]
def twiceBytes : Bytes := [0, 0, 0, 0, 0, 0, 0, 52, 255, 255, 255, 255, 255, 255, 255, 203, 7, 116, 46, 116, 104, 114, 101, 101, 3, 49, 46, 48,
  0, 3, 0, 1, 0, 2, 0, 0, 1, 0, 1, 0, 1, 97, 0, 1, 0, 1, 0, 0, 0, 0, 0, 9]

theorem twice_written : PacketOf env 3 twice twiceBytes :=
  ⟨t3, [0, 1], [0, 1, 0, 2, 0, 0, 1, 0, 1, 0, 1, 97] ++ ([0, 1, 0, 1, 0, 0, 0] ++ ([0, 0, 9] ++ [])), rfl, by decide,
    .cons ⟨.struct (.cons "x" none false .bool (.cons "y" none true .str .nil)), 1, [0, 2, 0, 0, 1, 0, 1, 0, 1, 97], rfl, rfl, by decide, by decide, by decide, by decide⟩
      (.cons ⟨.struct (.cons "x" none false .bool (.cons "y" none true .str .nil)), 1, [0, 1, 0, 0, 0], rfl, rfl, by decide, by decide, by decide, by decide⟩
        (.cons ⟨.num true { bits := some 8 }, 0, [9], rfl, rfl, by decide, by decide, by decide, by decide⟩ .nil)),
    by decide, by decide, by decide, by decide, by decide⟩

/-- The fields of `p1`, the last one first. -/
def backwards : List (Nat × Val) := [(2, .list (.cons (.num 1) (.cons (.num 255) .nil))), (1, .str ['h', 'i']), (0, .num 513)]
def backwardsBytes : Bytes := [0, 0, 0, 0, 0, 0, 0, 44, 255, 255, 255, 255, 255, 255, 255, 211, 5, 116, 46, 111, 110, 101, 3, 49, 46, 48, 0, 3,
  0, 7, 0, 2, 1, 255, 0, 1, 0, 2, 104, 105, 0, 0, 2, 1]

theorem backwards_written : PacketOf env 1 backwards backwardsBytes :=
  ⟨t1, [0, 1, 7], [0, 7, 0, 2, 1, 255] ++ ([0, 1, 0, 2, 104, 105] ++ ([0, 0, 2, 1] ++ [])), rfl, by decide,
    .cons ⟨.list (.num false { bits := some 8 }), 7, [0, 2, 1, 255], rfl, rfl, by decide, by decide, by decide, by decide⟩
      (.cons ⟨.str, 1, [0, 2, 104, 105], rfl, rfl, by decide, by decide, by decide, by decide⟩
        (.cons ⟨.num false { bits := some 16 }, 0, [2, 1], rfl, rfl, by decide, by decide, by decide, by decide⟩ .nil)),
    by decide, by decide, by decide, by decide, by decide⟩

/-- A packet of class 2 with its buffer before the packet in it. -/
def swapped : List (Nat × Val) := [(1, .buf (List.replicate 40 7)), (0, p1')]
def swappedBody : Bytes := [0, 1, 0, 0, 0, 0, 0, 0, 0, 40] ++ List.replicate 40 7 ++ ([0, 0] ++ ser env p1' ++ [])
def swappedBytes : Bytes := [0, 0, 0, 0, 0, 0, 0, 112, 255, 255, 255, 255, 255, 255, 255, 143, 5, 116, 46, 116, 119, 111, 3, 49, 46, 50, 0, 2] ++ swappedBody

theorem swapped_written : PacketOf env 2 swapped swappedBytes :=
  ⟨t2, [0, 1], swappedBody, rfl, by decide,
    .cons ⟨.buf, 1, [0, 0, 0, 0, 0, 0, 0, 40] ++ List.replicate 40 7, rfl, rfl, by decide, by decide, by decide, by decide⟩
      (.cons ⟨.packet 0, 0, ser env p1', rfl, rfl, by decide, by decide, by decide, by decide⟩ .nil),
    by decide, by decide, by decide, by decide, by decide⟩

end Ex

/-- Reversed, and received as it was. -/
example : Decodes Ex.env 1 0 Ex.backwardsBytes Ex.p1 :=
  C87_permuted_partial Ex.registered Ex.p1_sendable (by decide) (by decide) (List.reverse_perm _) Ex.backwards_written

example : ∃ fs, Decodes Ex.env 1 0 Ex.twiceBytes (.packet 3 fs) ∧ fs.at' 0 = some (.num 9) := by
  obtain ⟨fs, h1, h2, _⟩ := C87_value Ex.registered (depth := 0) (base := 0) Ex.twice_written (by decide) (by decide)
  exact ⟨fs, h1, h2 [(1, Ex.xy), (1, Ex.xOnly)] 0 (.num 9) [] rfl (fun _ h => nomatch h) (fun _ h => nomatch h)⟩

/-- C87 is false for structs: "the last one counts" would be `x = false` with `y` unset; the packet that is received has a struct that
nobody wrote, with `x` of the second and `y` of the first. -/
theorem C87_false_struct : ∃ (es : List (Nat × Val)) (u : Bytes) (fs : FVals), PacketOf Ex.env 3 es u ∧ (∀ e ∈ es, flatV e.2 = true ∧ asciiV e.2 = true) ∧
    Decodes Ex.env 1 0 u (.packet 3 fs) ∧ ∃ v, fs.at' 1 = some v ∧ ∀ e ∈ es, e.2 ≠ v := by
  obtain ⟨fs, h1, h2⟩ := C87_last_partial Ex.registered (depth := 0) (base := 0) Ex.twice_written (by decide) (by decide)
  exact ⟨_, _, fs, Ex.twice_written, by decide, h1, .struct (.set (.bool false) (.set (.str ['a']) .nil)), by rw [h2 1]; decide, by decide⟩

/-- C87 is false for packets with packets inside: the same fields, each once; with the buffer first the packet is received, with the packet
first (as `__serialize__` writes it) it is not. -/
theorem C87_false_order : ∃ (es : List (Nat × Val)) (u : Bytes) (p : Val), Sendable Ex.env 0 p ∧ p = .packet 2 (.set Ex.p1' (.set (.buf (List.replicate 40 7)) .nil)) ∧
    PacketOf Ex.env 2 es u ∧ es.Perm (fieldsOf 0 (.set Ex.p1' (.set (.buf (List.replicate 40 7)) .nil))) ∧
    Decodes Ex.env 5 0 u p ∧ ¬ Decodes Ex.env 5 0 (ser Ex.env p) p := by
  refine ⟨Ex.swapped, Ex.swappedBytes, _, Ex.sendable (by decide) (by decide), rfl, Ex.swapped_written, List.Perm.swap _ _ _, ?_, ?_⟩
  · obtain ⟨d, hd, h⟩ := packetOf_decodes Ex.registered (depth := 4) (base := 0) (m := 32) Ex.swapped_written (by decide) (by decide) (by decide)
    cases hd
    exact h
  · exact Ex.not_decodes (o := none) (by decide) (by decide)

end Verif
