import Verif.Props.Deser
/-! # C55: a packet whose announced length is not the length of its fields -/
namespace Verif

/-- The bytes of a packet of class `cls` with the field values `fs`, exactly as `__serialize__` writes them, except that
the header announces the length `L`. -/
def Announcing (env : Env) (cls : Cls) (fs : FVals) (L : Nat) (u : Bytes) : Prop :=
  ∃ (d : PDef) (tags : List Nat) (n : Nat) (body : Bytes),
    env.classDef cls = some d ∧ processFields d.fields = .ok tags ∧ countSet fs d.fields = .ok n ∧
    encF env fs d.fields tags = .ok body ∧ n < 2 ^ 16 ∧ L < 2 ^ 64 ∧
    (utf8 d.ident).length < 256 ∧ (utf8 d.version).length < 256 ∧
    20 + (utf8 d.ident).length + (utf8 d.version).length ≤ L ∧
    u = beEnc 8 L ++ beEnc 8 (compl64 L) ++ [UInt8.ofNat (utf8 d.ident).length] ++ utf8 d.ident
      ++ [UInt8.ofNat (utf8 d.version).length] ++ utf8 d.version ++ beEnc 2 n ++ body

theorem finish_run_mismatch {L start : Nat} {buf : Bytes} {p : Nat} {v : Val} {m : Nat} (hp : p ≠ start + L) :
    (finishPacket L start (some (v, m, false))).run buf p =
      (.error .badPacket, if start + L < p then buf.length else Nat.min buf.length (start + L)) := by
  unfold finishPacket
  rw [Dec.run]
  dsimp only
  rw [if_pos (by simp; omega), Dec.run]
  by_cases h : start + L < p
  · rw [if_pos (by omega), if_pos h, Dec.run]
  · rw [if_neg (by omega), if_neg h, Dec.run]
    congr 2; omega

theorem mismatch_run {env : Env} (hr : env.Registered) {depth : Nat} {base cls : Cls} {fs : FVals} {L : Nat}
    {u pre rest : Bytes} {m : Nat} (hu : Announcing env cls fs L u) (hL : L ≠ u.length)
    (ha : accepts env (.packet cls fs) (.packet base) = true) (has : asciiF fs = true)
    (hd : depthF fs ≤ depth) (hlim : limF (serLen env) L fs = some m) :
    (freshGen env (depth + 1) base).run (pre ++ (u ++ rest)) pre.length
      = (.error .badPacket, if L < u.length then (pre ++ (u ++ rest)).length
          else Nat.min (pre ++ (u ++ rest)).length (pre.length + L)) := by
  obtain ⟨d, tags, n, body, hcls, ht, hn, hb, hn16, hL64, hi, hv, hge, hu⟩ := hu
  rw [accepts.eq_def] at ha; dsimp only at ha
  rw [hcls] at ha
  simp only [Bool.and_eq_true] at ha
  obtain ⟨version, hver, hlk⟩ := hr cls d base hcls ha.1
  have hu' : u = headOf L d.ident d.version ++ (beEnc 2 n ++ body) := by
    rw [hu]; simp [headOf, hdr16]
  have hlen := congrArg List.length hu'
  simp only [List.length_append, headOf_length, beEnc_length] at hlen
  unfold freshGen
  rw [head_run (rest := (beEnc 2 n ++ body) ++ rest) hL64 (by omega) hi hv hver (by rw [hu']; simp)]
  rw [hlk]; dsimp only
  rw [hcls]; dsimp only
  rw [if_pos ha.1]
  have hs := processFields_spec ht
  have key := fun q => rt_F hr fs d.fields tags n body depth L m q tags 0 id
    (fun i fs m => decNth env (decPacket env depth) d.fields i fs m) 0 [] ⟨fs, m, false⟩
    hb ha.2 has hd hn hlim (by omega)
    (by intro j r mm q cs x hx; simpa using hx)
    (by intro j g hj; simpa using findIdx?_nodup hs.1 hj)
    (by intro hm q; rw [fieldLoop]; exact .ret)
  have hbody : Parses (pre.length + (headOf L d.ident d.version).length)
      (decBody d.fields (fun i fs m => decNth env (decPacket env depth) d.fields i fs m)
        d.fields.blank L) (beEnc 2 n ++ body) ⟨fs, m, false⟩ := by
    unfold decBody
    rw [ht]; dsimp only
    refine .bind (parses_unpackU (v := n) (packU_nat (by omega)) (by omega)) ?_
    have := (key (pre.length + (headOf L d.ident d.version).length + (beEnc 2 n).length)).1
    simpa using this
  rw [hbody.run_then _ _ (pre ++ headOf L d.ident d.version) rest (by rw [hu']; simp) (by simp)]
  have hpos : pre.length + (headOf L d.ident d.version).length + (beEnc 2 n ++ body).length
      = pre.length + u.length := by
    rw [hu']; simp only [List.length_append]; omega
  rw [hpos, finish_run_mismatch (by omega)]
  congr 1
  by_cases h : L < u.length
  · rw [if_pos (by omega), if_pos h]
  · rw [if_neg (by omega), if_neg h]

/-- C55. The Deserializer has received packets `ps`; then a packet arrives whose header announces another length than its
fields take (more or less). Whatever follows, the next event is an error: it is not delivered as a packet. -/
theorem C55_wrong_length_error {env : Env} (hr : env.Registered) {depth : Nat} {base cls : Cls} {fs : FVals}
    {L : Nat} {u : Bytes} {m : Nat} (hu : Announcing env cls fs L u) (hL : L ≠ u.length)
    (ha : accepts env (.packet cls fs) (.packet base) = true) (has : asciiF fs = true)
    (hd : depthF fs ≤ depth) (hlim : limF (serLen env) L fs = some m) (ps : List Val)
    (hps : ∀ p ∈ ps, Sendable env base p ∧ Decodes env (depth + 1) base (ser env p) p)
    (ops0 : List DOp) (a : Bytes) (h0 : received ops0 = ps.flatMap (ser env)) :
    ∃ more, (runOps env (depth + 1) base (.init env (depth + 1) base)
      (ops0 ++ [.next] ++ [.update (u ++ a), .next])).1 = ps.map .packet ++ .error .badPacket :: more := by
  obtain ⟨st, e1, e2, e3, e4⟩ := boundary hr ps hps ops0 h0
  rw [runOps_append, e1, runOps]
  have hrun := mismatch_run (pre := st.buf) (rest := a) hr hu hL ha has hd hlim
  simp only [runOps, DState.next, List.append_nil]
  rw [nextLoop]
  have hiter : ((st.update (u ++ a)).iter env (depth + 1) base).1 = some (.error .badPacket) := by
    unfold DState.iter DState.update
    dsimp only
    rw [idle_run e3, e2, hrun]
  split
  · next heq => rw [heq] at hiter; cases hiter
  · next ev st' heq =>
    rw [heq] at hiter
    cases hiter
    exact ⟨_, rfl⟩

/-- C55. If it announces more than its fields take and the surplus bytes `pad` arrive with it, exactly the announced
number of bytes is skipped, and the packets behind it are all delivered, in any chunking (as in C05, the packet directly
behind it must not have the same length). -/
theorem C55_padding_skipped {env : Env} (hr : env.Registered) {depth : Nat} {base cls : Cls} {fs : FVals}
    {L : Nat} {u pad : Bytes} {m : Nat} (hu : Announcing env cls fs L u) (hL : L = (u ++ pad).length)
    (hpad : pad ≠ []) (ha : accepts env (.packet cls fs) (.packet base) = true) (has : asciiF fs = true)
    (hd : depthF fs ≤ depth) (hlim : limF (serLen env) L fs = some m) (ps qs : List Val)
    (hps : ∀ p ∈ ps, Sendable env base p ∧ Decodes env (depth + 1) base (ser env p) p)
    (hqs : ∀ p ∈ qs, Sendable env base p ∧ Decodes env (depth + 1) base (ser env p) p)
    (hne : ∀ q, qs.head? = some q → (ser env q).length ≠ L)
    (ops0 ops1 : List DOp) (a : Bytes) (h0 : received ops0 = ps.flatMap (ser env))
    (h1 : a ++ received ops1 = qs.flatMap (ser env)) :
    (runOps env (depth + 1) base (.init env (depth + 1) base)
      (ops0 ++ [.next] ++ (.update ((u ++ pad) ++ a) :: (ops1 ++ [.next])))).1
      = ps.map .packet ++ .error .badPacket :: qs.map .packet := by
  have hp0 := List.length_pos_iff.mpr hpad
  refine special_item hr ps qs hps hqs ?_ ops0 ops1 a h0 h1
  rintro st fut ⟨pre, rest, g1, g2, g3, g4⟩
  refine ⟨⟨st.buf, pre.length + (u ++ pad).length, freshGen env (depth + 1) base⟩, ?_, ?_⟩
  · unfold DState.iter
    have hrun : st.gen.run st.buf st.pos = (.error .badPacket, pre.length + (u ++ pad).length) := by
      rw [idle_run g3, g1, g2, List.append_assoc,
        mismatch_run hr hu (by rw [hL]; simp; exact fun h => hpad h) ha has hd hlim]
      congr 1
      rw [if_neg (by rw [hL]; simp), hL]
      apply Nat.min_eq_right
      simp only [List.length_append]; omega
    dsimp only
    rw [hrun]
    dsimp only
    rw [if_neg]
    intro heq
    obtain ⟨d, tags, n, body, hcls, ht, hn, hb, hn16, hL64, hi, hv, hge, hu⟩ := hu
    have hu8 : 16 ≤ u.length := by
      have := congrArg List.length hu
      simp at this; omega
    have hpfx : window st.buf st.pos 8 = beEnc 8 L := by
      unfold window
      rw [g1, g2, List.drop_left, List.append_assoc, List.take_append_of_le_length (by omega), hu]
      simp only [List.append_assoc]
      exact List.take_left' (by simp)
    have hnext : window st.buf (pre.length + (u ++ pad).length) 8 = rest.take 8 := by
      unfold window
      rw [g1, ← List.append_assoc, show pre.length + (u ++ pad).length = (pre ++ (u ++ pad)).length by simp,
        List.drop_left]
    rw [hpfx, hnext] at heq
    have hr8 : 8 ≤ rest.length := by
      have := congrArg List.length heq
      simp at this; omega
    rw [wire_plain] at g4
    cases qs with
    | nil =>
      simp only [List.flatMap_nil, List.append_eq_nil_iff] at g4
      simp [g4.1] at hr8
    | cons q qs =>
      have hq := (hqs q (by simp)).1
      obtain ⟨c, fs, hq'⟩ := accepts_packet hq.1
      obtain ⟨b, hb⟩ := hq.2
      subst hq'
      obtain ⟨hl, r, hb', hlt⟩ := encPacket_len (base := 0) hb
      have hser := ser_eq hb
      have ht : rest.take 8 = b.take 8 := by
        have := congrArg (List.take 8) g4
        rw [List.take_append_of_le_length hr8, List.flatMap_cons, hser,
          List.take_append_of_le_length (by omega)] at this
        exact this
      have hb8 : b.take 8 = beEnc 8 b.length := by
        conv => lhs; rw [hb']
        simp [hdr16]
      rw [ht, hb8] at heq
      have := congrArg beDec heq
      rw [beDec_beEnc_lt (by omega), beDec_beEnc_lt (by omega)] at this
      apply hne _ rfl
      rw [hser]; exact this
  · have := Inv.initAt hr (pre := pre ++ (u ++ pad)) (itemOK_plain hr hqs) g4
    simpa [g1] using this

/-- `p1` announcing `L` bytes instead of 44. -/
def Ex.ann (L : Nat) : Bytes := headOf L "t.one".toList "1.0".toList ++ beEnc 2 3 ++ ((ser Ex.env Ex.p1).drop 28)

theorem Ex.ann_ok (L : Nat) (h : 28 ≤ L) (h2 : L < 2 ^ 64) : Announcing Ex.env 1
    (.set (.num 513) (.set (.str ['h', 'i']) (.set (.list (.cons (.num 1) (.cons (.num 255) .nil))) .nil))) L (Ex.ann L) :=
  ⟨Ex.t1, [0, 1, 7], 3, (ser Ex.env Ex.p1).drop 28, rfl, rfl, rfl, rfl, by decide, h2, by decide, by decide, h,
    by simp [Ex.ann, headOf, hdr16]; decide⟩

example : (runOps Ex.env 2 0 (.init Ex.env 2 0)
    [.next, .update ((Ex.ann 47 ++ [9, 9, 9]) ++ ser Ex.env Ex.p3), .next]).1 = [.error .badPacket, .packet Ex.p3] :=
  C55_padding_skipped (depth := 1) (m := 47) Ex.registered (Ex.ann_ok 47 (by decide) (by decide)) (by decide) (by decide)
    (by decide) (by decide) (by decide) (by decide) [] [Ex.p3] (by simp)
    (fun p hp => Ex.flat_ok p (by simp at hp; simp [hp])) (by decide) [] [] _ rfl (by decide)

example : ∃ more, (runOps Ex.env 2 0 (.init Ex.env 2 0)
    [.next, .update (Ex.ann 30 ++ ser Ex.env Ex.p3), .next]).1 = .error .badPacket :: more :=
  C55_wrong_length_error (depth := 1) (m := 30) Ex.registered (Ex.ann_ok 30 (by decide) (by decide)) (by decide)
    (by decide) (by decide) (by decide) (by decide) [] (by simp) [] _ rfl

end Verif
