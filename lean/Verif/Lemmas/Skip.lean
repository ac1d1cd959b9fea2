import Verif.Lemmas.Mono
/-! Packets that the decoder does not read to the end: unknown definitions, unknown extensions. -/
namespace Verif

theorem run_sync_found {α} {buf pre post : Bytes} {L p : Nat} {k : Nat → Nat → Dec α}
    (hL : L < 2 ^ 64) (hb : buf = pre ++ (hdr16 L ++ post)) (hp : p = pre.length) (q : Nat) :
    (Dec.sync p none k).run buf q = (k L p).run buf (p + 16) := by
  subst hp
  rw [Dec.run, scan]
  rcases scanFrom_spec hL (bs := post) [] pre (hdr16 L ++ post) [] (buf.length + 1) (by simp) trivial
    (by rw [hb]; simp; omega) with
    ⟨h, h1, h2, h3⟩ | ⟨u, g', h, h1, h2, h3, h4⟩ | ⟨u, g', qb, h, h1, h2, h3, h4, h5⟩
  · rw [← hb] at h3
    rw [h3]; simp
  · have := congrArg List.length h1
    have := congrArg List.length h2
    simp at *; omega
  · have := congrArg List.length h1
    have := congrArg List.length h2
    simp at *; omega

/-- The bytes of the first program are there: the second one runs behind them. -/
theorem Parses.run_then {α β} {d : Dec α} {p bs a} (h : Parses p d bs a) :
    ∀ (f : α → Dec β) (buf pre post : Bytes), buf = pre ++ (bs ++ post) → pre.length = p →
      (d.bind f).run buf p = (f a).run buf (p + bs.length) := by
  induction h with
  | ret => intro f buf pre post hb hp; simp [Dec.bind]
  | @read p n k b0 bs0 a hl _ ih =>
    intro f buf pre post hb hp
    rw [Dec.bind, Dec.run, if_neg (by rw [hb]; simp; omega)]
    have hw : window buf p n = b0 := by
      rw [hb, List.append_assoc]; exact window_at hp.symm hl.symm
    rw [hw, ih f buf (pre ++ b0) post (by rw [hb]; simp) (by simp [hp, hl]), List.length_append, hl]
    congr 1; omega
  | tell _ ih => intro f buf pre post hb hp; rw [Dec.bind, Dec.run]; exact ih f buf pre post hb hp
  | @sync p k g len bs0 a hl hc _ ih =>
    intro f buf pre post hb hp
    rw [Dec.bind, Dec.run, scan]
    subst hp
    rcases scanFrom_spec hl (bs := bs0 ++ post) g pre (g ++ (hdr16 len ++ (bs0 ++ post))) []
      (buf.length + 1) (by simp) hc (by rw [hb]; simp; omega) with
      ⟨h, h1, h2, h3⟩ | ⟨u, g', h, h1, h2, h3, h4⟩ | ⟨u, g', qb, h, h1, h2, h3, h4, h5⟩
    · rw [show pre ++ (g ++ (hdr16 len ++ (bs0 ++ post))) = buf by rw [hb]; simp] at h3
      rw [h3]; simp only
      rw [ih f buf (pre ++ (g ++ hdr16 len)) post (by rw [hb]; simp) (by simp; omega)]
      congr 1; simp; omega
    · have := congrArg List.length h1
      have := congrArg List.length h2
      simp at *; omega
    · have := congrArg List.length h1
      have := congrArg List.length h2
      simp at *; omega

/-- The beginning of a packet of `L` bytes: length, complement, identifier, version. -/
def headOf (L : Nat) (ident ver : Str) : Bytes :=
  hdr16 L ++ (UInt8.ofNat (utf8 ident).length ::
    (utf8 ident ++ (UInt8.ofNat (utf8 ver).length :: utf8 ver)))

theorem headOf_length (L : Nat) (i v : Str) :
    (headOf L i v).length = 16 + (1 + (utf8 i).length) + (1 + (utf8 v).length) := by
  simp [headOf]; omega

theorem beEnc_one {x : Nat} (hx : x < 256) : beEnc 1 x = [UInt8.ofNat x] := by
  simp [beEnc, Nat.mod_eq_of_lt hx]

/-- What happens after the header was read. -/
theorem head_run {env : Env} {f : Nat} {base : Cls} {L : Nat} {ident ver : Str} {version : Version}
    {buf pre rest : Bytes} (hL : L < 2 ^ 64) (hge : 18 + (utf8 ident).length + (utf8 ver).length ≤ L)
    (hi : (utf8 ident).length < 256) (hv : (utf8 ver).length < 256)
    (hver : Version.fromString ver = some version)
    (hb : buf = pre ++ (headOf L ident ver ++ rest)) :
    (decPacket env (f + 1) base 0).run buf pre.length =
      ((match env.lookup base ident version with
        | .error e => .fail e
        | .ok none => finishPacket L pre.length none
        | .ok (some cls) =>
          match env.classDef cls with
          | none => .fail .value
          | some d =>
            if env.isSub cls base then
              (decBody d.fields (fun i fs m => decNth env (decPacket env f) d.fields i fs m)
                d.fields.blank L).bind fun r =>
                finishPacket L pre.length (some (.packet cls r.vals, r.max, r.ext))
            else .fail .value) : Dec (Val × Nat)).run buf (pre.length + (headOf L ident ver).length) := by
  have e1 : packU 1 ((utf8 ident).length : Int) = .ok [UInt8.ofNat (utf8 ident).length] := by
    rw [packU_nat (by omega), beEnc_one hi]
  have e2 : packU 1 ((utf8 ver).length : Int) = .ok [UInt8.ofNat (utf8 ver).length] := by
    rw [packU_nat (by omega), beEnc_one hv]
  rw [decPacket, Dec.run]
  simp only [ne_eq, not_true_eq_false, false_and, if_false]
  unfold headOf at hb
  rw [run_sync_found hL (pre := pre)
    (post := (UInt8.ofNat (utf8 ident).length :: (utf8 ident ++ (UInt8.ofNat (utf8 ver).length :: utf8 ver))) ++ rest)
    (by rw [hb]; simp) rfl]
  unfold packetRest
  have p1 := (parses_unpackU (p := pre.length + 16) (max := L) e1 (by omega)).run_then
    (β := Val × Nat)
  rw [p1 _ buf (pre ++ hdr16 L) (utf8 ident ++ (UInt8.ofNat (utf8 ver).length :: utf8 ver) ++ rest)
    (by rw [hb]; simp) (by simp <;> omega)]
  have p2 := (parses_unpack (p := pre.length + 16 + 1) (max := L) (b := utf8 ident) rfl (by omega)).run_then
    (β := Val × Nat)
  simp only [List.length_singleton]
  rw [p2 _ buf (pre ++ hdr16 L ++ [UInt8.ofNat (utf8 ident).length])
    ((UInt8.ofNat (utf8 ver).length :: utf8 ver) ++ rest) (by rw [hb]; simp) (by simp <;> omega)]
  rw [utf8Dec_utf8]; dsimp only
  have p3 := (parses_unpackU (p := pre.length + 16 + 1 + (utf8 ident).length) (max := L) e2 (by omega)).run_then
    (β := Val × Nat)
  rw [p3 _ buf (pre ++ hdr16 L ++ [UInt8.ofNat (utf8 ident).length] ++ utf8 ident)
    (utf8 ver ++ rest) (by rw [hb]; simp) (by simp <;> omega)]
  have p4 := (parses_unpack (p := pre.length + 16 + 1 + (utf8 ident).length + 1) (max := L)
    (b := utf8 ver) rfl (by omega)).run_then (β := Val × Nat)
  simp only [List.length_singleton]
  rw [p4 _ buf (pre ++ hdr16 L ++ [UInt8.ofNat (utf8 ident).length] ++ utf8 ident ++
    [UInt8.ofNat (utf8 ver).length]) rest (by rw [hb]; simp) (by simp <;> omega)]
  rw [utf8Dec_utf8]; dsimp only
  rw [hver]; dsimp only
  have epos : pre.length + 16 + 1 + (utf8 ident).length + 1 + (utf8 ver).length
      = pre.length + (headOf L ident ver).length := by rw [headOf_length]; omega
  rw [epos]
  cases env.lookup base ident version with
  | error e => rfl
  | ok o =>
    cases o with
    | none => rfl
    | some c => dsimp only; cases env.classDef c <;> rfl

theorem finish_run_none {L start : Nat} {buf : Bytes} {p : Nat} (hp : p ≤ start + L)
    (hb : start + L ≤ buf.length) :
    (finishPacket L start none).run buf p = (.error .badPacket, start + L) := by
  unfold finishPacket
  rw [Dec.run]
  dsimp only
  by_cases h : p = start + L
  · rw [if_neg (by simp; omega), Dec.run, h]
  · rw [if_pos (by simp; omega), Dec.run, if_neg (by omega), Dec.run]
    have : Nat.min buf.length (p + ((L : Int) - ((p : Int) - (start : Int))).toNat) = start + L := by
      rw [show p + ((L : Int) - ((p : Int) - (start : Int))).toNat = start + L by omega]
      exact Nat.min_eq_right hb
    rw [this]

theorem finish_run_ext {L start : Nat} {buf : Bytes} {p : Nat} {v : Val} {m : Nat} (hp : p ≤ start + L)
    (hb : start + L ≤ buf.length) :
    (finishPacket L start (some (v, m, true))).run buf p = (.done (v, m), start + L) := by
  unfold finishPacket
  rw [Dec.run]
  dsimp only
  by_cases h : p = start + L
  · rw [if_neg (by simp; omega), Dec.run, h]
  · rw [if_pos (by simp; omega), Dec.run, if_neg (by omega), Dec.run]
    have : Nat.min buf.length (p + ((L : Int) - ((p : Int) - (start : Int))).toNat) = start + L := by
      rw [show p + ((L : Int) - ((p : Int) - (start : Int))).toNat = start + L by omega]
      exact Nat.min_eq_right hb
    rw [this]

/-! ### One special item at the front -/

theorem Inv.initAt {env : Env} (hr : env.Registered) {depth : Nat} {cls : Cls} {qs : List (Bytes × Val)}
    (hq : ∀ x ∈ qs, ItemOK env depth cls x) {pre rest fut : Bytes} (h : rest ++ fut = wire env qs) :
    Inv env depth cls ⟨pre ++ rest, pre.length, freshGen env depth cls⟩ qs fut := by
  cases qs with
  | nil =>
    simp [wire] at h
    exact ⟨h.2, by simp [h.1], .inl rfl⟩
  | cons q qs =>
    obtain ⟨m, hm⟩ := item_parses hr (hq q (by simp)) pre.length
    refine ⟨pre, rest, _, m, rfl, rfl, .main hm, ?_, ?_⟩
    · rw [h, wire_cons]
    · have := item_pos (hq q (by simp)); omega

theorem idle_run {env : Env} {depth : Nat} {cls : Cls} {pos : Nat} {gen : Dec (Val × Nat)}
    (h : Idle env depth cls pos gen) (buf : Bytes) :
    gen.run buf pos = (freshGen env depth cls).run buf pos := by
  rcases h with rfl | ⟨k, hk, rfl⟩
  · rfl
  · rw [hk]
    conv => rhs; rw [Dec.run]

theorem nextLoop_fuel {env : Env} {depth : Nat} {cls : Cls} : ∀ (f : Nat) (st : DState),
    (nextLoop env depth cls f st).2.2 = true →
    nextLoop env depth cls (f + 1) st = nextLoop env depth cls f st := by
  intro f
  induction f with
  | zero => intro st h; cases h
  | succ f ih =>
    intro st h
    rw [nextLoop] at h ⊢
    rw [nextLoop]
    split
    · rfl
    · next heq =>
      rw [heq] at h
      dsimp only at h
      rw [ih _ h]

/-- The special bytes `u` stand (completely) at the present position and `qs` follow. -/
def Front (env : Env) (depth : Nat) (cls : Cls) (u : Bytes) (st : DState) (qs : List (Bytes × Val))
    (fut : Bytes) : Prop :=
  ∃ pre rest, st.buf = pre ++ (u ++ rest) ∧ st.pos = pre.length ∧
    Idle env depth cls st.pos st.gen ∧ rest ++ fut = wire env qs

theorem Front.ops {env : Env} (hr : env.Registered) {depth : Nat} {cls : Cls} {u : Bytes} {ev : Event}
    {qs : List (Bytes × Val)} (hq : ∀ x ∈ qs, ItemOK env (depth + 1) cls x)
    (H : ∀ st fut, Front env (depth + 1) cls u st qs fut →
      ∃ st', st.iter env (depth + 1) cls = (some ev, st') ∧ Inv env (depth + 1) cls st' qs fut) :
    ∀ (ops : List DOp) (st : DState), Ready env (depth + 1) cls st →
    Front env (depth + 1) cls u st qs (received ops) →
    (runOps env (depth + 1) cls st (ops ++ [.next])).1 = ev :: qs.map (fun x => .packet x.2) := by
  intro ops
  have finish : ∀ (o : List DOp) (st : DState), Ready env (depth + 1) cls st →
      Front env (depth + 1) cls u st qs (received o) →
      (runOps env (depth + 1) cls st ([.next] ++ (o ++ [.next]))).1
        = ev :: qs.map (fun x => .packet x.2) := by
    intro o st hrd hf
    obtain ⟨st', h1, h2⟩ := H st _ hf
    have ht := (Ready.next (st.buf.length + 1) st hrd (by omega)).1
    have hl : nextLoop env (depth + 1) cls (st.buf.length + 1) st
        = (ev :: (nextLoop env (depth + 1) cls st.buf.length st').1,
            (nextLoop env (depth + 1) cls st.buf.length st').2) := by
      rw [nextLoop, h1]
    rw [hl] at ht
    dsimp only at ht
    have hfuel : ∀ n, nextLoop env (depth + 1) cls (st.buf.length + n) st'
        = nextLoop env (depth + 1) cls st.buf.length st' := by
      intro n
      induction n with
      | zero => rfl
      | succ n ih => rw [← Nat.add_assoc, nextLoop_fuel _ _ (by rw [ih]; exact ht), ih]
    obtain ⟨done, left, st2, e1, e2, e3⟩ := Inv.next hr (st.buf.length + (st'.buf.length + 1)) qs st' _ hq h2
      (by omega)
    rw [hfuel] at e2
    obtain ⟨done2, left2, st3, f1, f2, f3⟩ := Inv.ops hr o left st2 []
      (fun x hx => hq x (by rw [e1]; simp [hx])) (by simpa using e3.1)
    obtain ⟨done3, left3, st4, g1, g2, g3⟩ := Inv.next hr (st3.buf.length + 1) left2 st3 []
      (fun x hx => hq x (by rw [e1, f1]; simp [hx])) f3 (by omega)
    have hleft : left3 = [] := by
      cases left3 with
      | nil => rfl
      | cons x l => have := g3.2; simp at this
    subst hleft
    simp only [List.cons_append, List.nil_append, runOps, DState.next, hl, e2]
    have happ : ∀ (o1 o2 : List DOp) (st : DState),
        (runOps env (depth + 1) cls st (o1 ++ o2)).1 = (runOps env (depth + 1) cls st o1).1 ++
          (runOps env (depth + 1) cls (runOps env (depth + 1) cls st o1).2 o2).1 := by
      intro o1
      induction o1 with
      | nil => intro o2 st; simp [runOps]
      | cons op o1 ih =>
        intro o2 st
        cases op with
        | update b => simp only [List.cons_append, runOps]; exact ih _ _
        | next => simp only [List.cons_append, runOps, ih, List.append_assoc]
    rw [happ, f2]
    simp only [runOps, DState.next, g2]
    rw [e1, f1, g1]
    simp
  induction ops with
  | nil =>
    intro st hrd hf
    have := finish [] st hrd hf
    -- a second `nextPackets()` adds nothing: compare with one call
    obtain ⟨st', h1, h2⟩ := H st _ hf
    have ht := (Ready.next (st.buf.length + 1) st hrd (by omega)).1
    have hl : nextLoop env (depth + 1) cls (st.buf.length + 1) st
        = (ev :: (nextLoop env (depth + 1) cls st.buf.length st').1,
            (nextLoop env (depth + 1) cls st.buf.length st').2) := by
      rw [nextLoop, h1]
    rw [hl] at ht
    dsimp only at ht
    have hfuel : ∀ n, nextLoop env (depth + 1) cls (st.buf.length + n) st'
        = nextLoop env (depth + 1) cls st.buf.length st' := by
      intro n
      induction n with
      | zero => rfl
      | succ n ih => rw [← Nat.add_assoc, nextLoop_fuel _ _ (by rw [ih]; exact ht), ih]
    obtain ⟨done, left, st2, e1, e2, e3⟩ := Inv.next hr (st.buf.length + (st'.buf.length + 1)) qs st' _ hq h2
      (by omega)
    rw [hfuel] at e2
    have hleft : left = [] := by
      cases left with
      | nil => rfl
      | cons x l => have := e3.2; simp [received] at this
    subst hleft
    simp only [List.nil_append, runOps, DState.next, hl, e2, List.append_nil]
    rw [e1]; simp
  | cons op ops ih =>
    intro st hrd hf
    cases op with
    | update b =>
      rw [List.cons_append, runOps]
      apply ih _ (hrd.update b)
      obtain ⟨pre, rest, h1, h2, h3, h4⟩ := hf
      exact ⟨pre, rest ++ b, by simp [DState.update, h1], h2, h3, by simpa [received] using h4⟩
    | next => exact finish ops st hrd hf

end Verif
