import Verif.Lemmas.Stream
import Verif.Lemmas.Skip
import Verif.Spec.Entries
/-! Decoding fields in any order, into fields that may be set already. -/
namespace Verif

/-- The generalization of `RtF` to fields that may have values. -/
def RtM (env : Env) (fs : FVals) : Prop := ∀ (old : FVals) (ds : FDecls) (tgs : List Nat) (n : Nat)
    (bs : Bytes) (f m m' p : Nat) (T : List Nat) (k : Nat) (F : FVals → FVals)
    (one : Nat → FVals → Nat → Dec (FVals × Nat)) (R : FRes),
    encF env fs ds tgs = .ok bs → acceptsF env fs ds = true → acceptsF env old ds = true → asciiF fs = true → depthF fs ≤ f →
    countSet fs ds = .ok n →
    limF (serLen env) m fs = some m' → 20 ≤ m →
    (∀ j r mm q cs x, Parses q (decNth env (decPacket env f) ds j r mm) cs x →
      Parses q (one (k + j) (F r) mm) cs (F x.1, x.2)) →
    (∀ (j g : Nat), tgs[j]? = some g → T.findIdx? (· == g) = some (k + j)) →
    (F (arriveFields old fs) = R.vals ∧ R.max = m' ∧ R.ext = false) →
    Parses p (fieldLoop T one n (F old) m) bs R ∧ 20 ≤ m'

theorem decT_cur {env : Env} {pk : Cls → Nat → Dec (Val × Nat)} {t : FType} (ht : ∀ ds, t ≠ .struct ds) (cur : Option Val) (m : Nat) :
    decT env pk t cur m = decT env pk t none m := by
  cases t with
  | struct ds => exact absurd rfl (ht ds)
  | _ => rw [decT.eq_def, decT.eq_def]

theorem accepts_struct {env : Env} {w : Val} {ds : FDecls} (h : accepts env w (.struct ds) = true) : ∃ fs, w = .struct fs ∧ acceptsF env fs ds = true := by
  cases w with
  | struct fs => exact ⟨fs, rfl, by rwa [accepts.eq_def] at h⟩
  | _ => rw [accepts.eq_def] at h; cases h

theorem arriveOver_other {v w : Val} (h : ∀ fs, v ≠ .struct fs) : arriveOver w v = v := by
  cases v with
  | struct fs => exact absurd rfl (h fs)
  | _ => cases w <;> rfl

/-- One value into a field that may be set. -/
theorem rt_into {env : Env} (hr : env.Registered) {v : Val} (ih : ∀ fs, v = .struct fs → RtM env fs) {t : FType} {cur : Option Val} {bs : Bytes} {f m m' p : Nat}
    (he : encV env v t = .ok bs) (ha : accepts env v t = true) (hcur : ∀ w, cur = some w → accepts env w t = true) (has : asciiV v = true) (hd : depthV v ≤ f)
    (hlim : limV (serLen env) m v = some m') (hm : 20 ≤ m) :
    Parses p (decT env (decPacket env f) t cur m) bs (arrive cur v, m') ∧ 20 ≤ m' := by
  have plain := rt_V hr v t bs f m m' p he ha has hd hlim (.inl hm)
  cases cur with
  | none => exact plain
  | some w =>
    by_cases hs : ∃ fs, v = .struct fs
    · obtain ⟨fs, rfl⟩ := hs
      cases t with
      | struct ds =>
        obtain ⟨old, rfl, hold⟩ := accepts_struct (hcur w rfl)
        rw [encV.eq_def] at he; dsimp only at he
        obtain ⟨tags, ht, he⟩ := bindE he
        obtain ⟨n, hn, he⟩ := bindE he
        obtain ⟨h, hh, he⟩ := bindE he
        obtain ⟨body, hb, he⟩ := bindE he
        cases he
        rw [limV.eq_def] at hlim
        rw [accepts.eq_def] at ha
        rw [asciiV] at has
        rw [depthV] at hd
        have hs := processFields_spec ht
        have := ih fs rfl old ds tags n body f m m' (p + h.length) tags 0 id
          (fun i fs m => decNth env (decPacket env f) ds i fs m) ⟨arriveFields old fs, m', false⟩
          hb ha hold has hd hn hlim hm
          (by intro j r mm q cs x hx; simpa using hx)
          (by intro j g hj; simpa using findIdx?_nodup hs.1 hj) ⟨rfl, rfl, rfl⟩
        simp only [id] at this
        rw [decT.eq_def]; dsimp only
        refine ⟨?_, this.2⟩
        unfold decBody
        rw [ht]; dsimp only
        rw [← List.append_nil (h ++ body)]
        refine .bind (a := ⟨arriveFields old fs, m', false⟩) (.bind (parses_unpackU hh (by omega)) this.1) ?_
        exact .ret
      | _ => rw [encV.eq_def] at he; cases he
    · have hne : ∀ fs, v ≠ .struct fs := fun fs e => hs ⟨fs, e⟩
      have ht : ∀ ds, t ≠ .struct ds := by
        rintro ds rfl
        obtain ⟨fs, e, _⟩ := accepts_struct ha
        exact hne fs e
      rw [decT_cur ht, arrive, arriveOver_other hne]
      exact plain

mutual
theorem rtm_V {env : Env} (hr : env.Registered) : (v : Val) → ∀ fs, v = .struct fs → RtM env fs
  | .struct fs, _, rfl => rtm_F hr fs
theorem rtm_F {env : Env} (hr : env.Registered) : (fs : FVals) → RtM env fs
  | .nil => by
    intro old ds tgs n bs f m m' p T k F one R he ha ho has hd hn hlim hm H1 H2 H3
    cases ds with
    | cons => rw [encF.eq_def] at he; cases he
    | nil =>
      cases tgs with
      | cons => rw [encF.eq_def] at he; cases he
      | nil =>
        rw [encF.eq_def] at he; cases he
        rw [limF.eq_def] at hlim; cases hlim
        rw [countSet.eq_def] at hn; cases hn
        obtain ⟨rv, rm, rx⟩ := R
        obtain ⟨h1, h2, h3⟩ := H3
        dsimp only at h1 h2 h3
        subst h1 h2 h3
        cases old with
        | nil => exact ⟨.ret, hm⟩
        | unset r => rw [acceptsF.eq_def] at ho; cases ho
        | set v r => rw [acceptsF.eq_def] at ho; cases ho
  | .unset r => by
    intro old ds tgs n bs f m m' p T k F one R he ha ho has hd hn hlim hm H1 H2 H3
    cases ds with
    | nil => rw [encF.eq_def] at he; cases he
    | cons name tag opt t ds =>
      cases tgs with
      | nil => rw [encF.eq_def] at he; cases he
      | cons tg tgs =>
        rw [encF.eq_def] at he; dsimp only at he
        rw [acceptsF] at ha
        rw [asciiF] at has
        rw [depthF] at hd
        rw [limF] at hlim
        cases old with
        | nil => rw [acceptsF.eq_def] at ho; cases ho
        | unset o =>
          rw [acceptsF] at ho
          refine rtm_F hr r o ds tgs n bs f m m' p T (k + 1) (fun r => F (.unset r)) one R he ha ho has hd
            (countSet_unset hn) hlim hm ?_ ?_ H3
          · intro j r mm q cs x hx
            have := H1 (j + 1) (.unset r) mm q cs (.unset x.1, x.2) (by
              rw [decNth.eq_def]
              exact hx.map (f := fun x : FVals × Nat => (FVals.unset x.1, x.2)))
            rwa [show k + 1 + j = k + (j + 1) by omega]
          · intro j g hj
            rw [show k + 1 + j = k + (j + 1) by omega]
            exact H2 (j + 1) g (by simpa using hj)
        | set w o =>
          rw [acceptsF, Bool.and_eq_true] at ho
          refine rtm_F hr r o ds tgs n bs f m m' p T (k + 1) (fun r => F (.set w r)) one R he ha ho.2 has hd
            (countSet_unset hn) hlim hm ?_ ?_ H3
          · intro j r mm q cs x hx
            have := H1 (j + 1) (.set w r) mm q cs (.set w x.1, x.2) (by
              rw [decNth.eq_def]
              exact hx.map (f := fun x : FVals × Nat => (FVals.set w x.1, x.2)))
            rwa [show k + 1 + j = k + (j + 1) by omega]
          · intro j g hj
            rw [show k + 1 + j = k + (j + 1) by omega]
            exact H2 (j + 1) g (by simpa using hj)
  | .set v r => by
    intro old ds tgs n bs f m m' p T k F one R he ha ho has hd hn hlim hm H1 H2 H3
    cases ds with
    | nil => rw [encF.eq_def] at he; cases he
    | cons name tag opt t ds =>
      cases tgs with
      | nil => rw [encF.eq_def] at he; cases he
      | cons tg tgs =>
        rw [encF.eq_def] at he; dsimp only at he
        obtain ⟨tb, htb, he⟩ := bindE he
        obtain ⟨b, hb, he⟩ := bindE he
        obtain ⟨bs', hbs, he⟩ := bindE he
        cases he
        have htb := wrapE_ok htb
        have hb := wrapE_ok hb
        rw [acceptsF] at ha; simp only [Bool.and_eq_true] at ha
        rw [asciiF] at has; simp only [Bool.and_eq_true] at has
        rw [depthF] at hd
        have hd1 : depthV v ≤ f := Nat.le_trans (Nat.le_max_left _ _) hd
        have hd2 : depthF r ≤ f := Nat.le_trans (Nat.le_max_right _ _) hd
        rw [limF.eq_def] at hlim; dsimp only at hlim
        obtain ⟨n, hn', rfl⟩ := countSet_set hn
        cases hv : limV (serLen env) m v with
        | none => rw [hv] at hlim; cases hlim
        | some m1 =>
          rw [hv] at hlim
          have key : ∀ (cur : Option Val) (o : FVals) (G : FVals → FVals), (∀ w, cur = some w → accepts env w t = true) → acceptsF env o ds = true →
              (∀ x, decNth env (decPacket env f) (.cons name tag opt t ds) 0 (G x) m = (decT env (decPacket env f) t cur m).bind fun y => .ret (.set y.1 x, y.2)) →
              F (arriveFields (G o) (.set v r)) = F (.set (arrive cur v) (arriveFields o r)) → F (arriveFields (G o) (.set v r)) = R.vals →
              Parses p (fieldLoop T one (n + 1) (F (G o)) m) (tb ++ (b ++ bs')) R ∧ 20 ≤ m' := by
            intro cur o G hcur hod hG hA hRv
            have h1 := rt_into hr (rtm_V hr v) (t := t) (cur := cur) (p := p + tb.length) hb ha.1 hcur has.1 hd1 hv hm
            have h2 := rtm_F hr r o ds tgs n bs' f m1 m' (p + tb.length + b.length) T (k + 1)
              (fun r => F (.set (arrive cur v) r)) one R hbs ha.2 hod has.2 hd2 hn' hlim h1.2
              (by
                intro j r mm q cs x hx
                have := H1 (j + 1) (.set (arrive cur v) r) mm q cs (.set (arrive cur v) x.1, x.2) (by
                  rw [decNth.eq_def]
                  exact hx.map (f := fun x : FVals × Nat => (FVals.set (arrive cur v) x.1, x.2)))
                rwa [show k + 1 + j = k + (j + 1) by omega])
              (by
                intro j g hj
                rw [show k + 1 + j = k + (j + 1) by omega]
                exact H2 (j + 1) g (by simpa using hj)) ⟨hA ▸ hRv, H3.2⟩
            refine ⟨?_, h2.2⟩
            rw [fieldLoop]
            refine .bind (parses_unpackU htb (by omega)) ?_
            rw [H2 0 tg rfl]; dsimp only
            refine .bind (a := (F (.set (arrive cur v) o), m1)) (Parses.wrap ?_) h2.1
            have := H1 0 (G o) m (p + tb.length) b (.set (arrive cur v) o, m1) (by
              rw [hG]
              exact h1.1.map (f := fun x : Val × Nat => (FVals.set x.1 o, x.2)))
            exact this
          cases old with
          | nil => rw [acceptsF.eq_def] at ho; cases ho
          | unset o =>
            rw [acceptsF] at ho
            exact key none o .unset (fun _ h => nomatch h) ho (fun x => by rw [decNth.eq_def]) rfl H3.1
          | set w o =>
            rw [acceptsF, Bool.and_eq_true] at ho
            exact key (some w) o (.set w) (fun _ h => by cases h; exact ho.1) ho.2 (fun x => by rw [decNth.eq_def]) rfl H3.1
end

mutual
theorem accepts_over {env : Env} : (v : Val) → ∀ (w : Val) (t : FType), accepts env w t = true → accepts env v t = true → accepts env (arriveOver w v) t = true
  | .struct fs => by
    intro w t hw hv
    cases t with
    | struct ds =>
      obtain ⟨old, rfl, ho⟩ := accepts_struct hw
      rw [accepts.eq_def] at hv
      rw [arriveOver, accepts.eq_def]
      exact accepts_fields fs old ds ho hv
    | _ => rw [accepts.eq_def] at hv; cases hv
  | .num i => fun w t _ hv => by rw [arriveOver_other (fun _ h => by cases h)]; exact hv
  | .float _ _ => fun w t _ hv => by rw [arriveOver_other (fun _ h => by cases h)]; exact hv
  | .bool _ => fun w t _ hv => by rw [arriveOver_other (fun _ h => by cases h)]; exact hv
  | .str _ => fun w t _ hv => by rw [arriveOver_other (fun _ h => by cases h)]; exact hv
  | .buf _ => fun w t _ hv => by rw [arriveOver_other (fun _ h => by cases h)]; exact hv
  | .list _ => fun w t _ hv => by rw [arriveOver_other (fun _ h => by cases h)]; exact hv
  | .packet _ _ => fun w t _ hv => by rw [arriveOver_other (fun _ h => by cases h)]; exact hv
theorem accepts_fields {env : Env} : (fs : FVals) → ∀ (old : FVals) (ds : FDecls), acceptsF env old ds = true → acceptsF env fs ds = true →
    acceptsF env (arriveFields old fs) ds = true
  | .nil => fun old ds ho _ => by cases old <;> exact ho
  | .unset r => by
    intro old ds ho h
    cases ds with
    | nil => rw [acceptsF.eq_def] at h; cases h
    | cons name tag opt t ds =>
      rw [acceptsF] at h
      cases old with
      | nil => exact ho
      | unset o => rw [acceptsF] at ho; rw [arriveFields, acceptsF]; exact accepts_fields r o ds ho h
      | set w o =>
        rw [acceptsF, Bool.and_eq_true] at ho
        rw [arriveFields, acceptsF, Bool.and_eq_true]
        exact ⟨ho.1, accepts_fields r o ds ho.2 h⟩
  | .set v r => by
    intro old ds ho h
    cases ds with
    | nil => rw [acceptsF.eq_def] at h; cases h
    | cons name tag opt t ds =>
      rw [acceptsF, Bool.and_eq_true] at h
      cases old with
      | nil => exact ho
      | unset o =>
        rw [acceptsF] at ho
        rw [arriveFields, acceptsF, Bool.and_eq_true]
        exact ⟨h.1, accepts_fields r o ds ho h.2⟩
      | set w o =>
        rw [acceptsF, Bool.and_eq_true] at ho
        rw [arriveFields, acceptsF, Bool.and_eq_true]
        exact ⟨accepts_over v w t ho.1 h.1, accepts_fields r o ds ho.2 h.2⟩
end

/-- The value `v` arrives for field `i`. -/
def putNth : Nat → Val → FVals → FVals
  | _, _, .nil => .nil
  | 0, v, .unset r => .set v r
  | 0, v, .set w r => .set (arriveOver w v) r
  | i + 1, v, .unset r => .unset (putNth i v r)
  | i + 1, v, .set w r => .set w (putNth i v r)

theorem putNth_accepts {env : Env} {v : Val} {t : FType} (hv : accepts env v t = true) : ∀ (i : Nat) (ds : FDecls) (fs : FVals), ds.typeAt i = some t →
    acceptsF env fs ds = true → acceptsF env (putNth i v fs) ds = true := by
  intro i
  induction i with
  | zero =>
    intro ds fs ht hf
    cases ds with
    | nil => cases ht
    | cons name tag opt t' ds =>
      cases ht
      cases fs with
      | nil => exact hf
      | unset r => rw [acceptsF] at hf; rw [putNth, acceptsF, Bool.and_eq_true]; exact ⟨hv, hf⟩
      | set w r =>
        rw [acceptsF, Bool.and_eq_true] at hf; rw [putNth, acceptsF, Bool.and_eq_true]
        exact ⟨accepts_over v w t hf.1 hv, hf.2⟩
  | succ i ih =>
    intro ds fs ht hf
    cases ds with
    | nil => cases ht
    | cons name tag opt t' ds =>
      cases fs with
      | nil => exact hf
      | unset r => rw [acceptsF] at hf; rw [putNth, acceptsF]; exact ih ds r ht hf
      | set w r =>
        rw [acceptsF, Bool.and_eq_true] at hf; rw [putNth, acceptsF, Bool.and_eq_true]
        exact ⟨hf.1, ih ds r ht hf.2⟩

theorem putNth_parses {env : Env} (hr : env.Registered) {v : Val} {t : FType} {b : Bytes} {f m m' : Nat}
    (he : encV env v t = .ok b) (ha : accepts env v t = true) (has : asciiV v = true) (hd : depthV v ≤ f)
    (hlim : limV (serLen env) m v = some m') (hm : 20 ≤ m) : ∀ (i : Nat) (ds : FDecls) (fs : FVals) (p : Nat), ds.typeAt i = some t → acceptsF env fs ds = true →
    Parses p (decNth env (decPacket env f) ds i fs m) b (putNth i v fs, m') := by
  intro i
  induction i with
  | zero =>
    intro ds fs p ht hf
    cases ds with
    | nil => cases ht
    | cons name tag opt t' ds =>
      cases ht
      cases fs with
      | nil => rw [acceptsF.eq_def] at hf; cases hf
      | unset r =>
        have := rt_into hr (rtm_V hr v) (p := p) (cur := none) he ha (fun _ h => nomatch h) has hd hlim hm
        rw [decNth.eq_def]
        exact this.1.map (f := fun x : Val × Nat => (FVals.set x.1 r, x.2))
      | set w r =>
        rw [acceptsF, Bool.and_eq_true] at hf
        have := rt_into hr (rtm_V hr v) (p := p) (cur := some w) he ha (fun _ h => by cases h; exact hf.1) has hd hlim hm
        rw [decNth.eq_def]
        exact this.1.map (f := fun x : Val × Nat => (FVals.set x.1 r, x.2))
  | succ i ih =>
    intro ds fs p ht hf
    cases ds with
    | nil => cases ht
    | cons name tag opt t' ds =>
      cases fs with
      | nil => rw [acceptsF.eq_def] at hf; cases hf
      | unset r =>
        rw [acceptsF] at hf
        rw [decNth.eq_def]
        exact (ih ds r p ht hf).map (f := fun x : FVals × Nat => (FVals.unset x.1, x.2))
      | set w r =>
        rw [acceptsF, Bool.and_eq_true] at hf
        rw [decNth.eq_def]
        exact (ih ds r p ht hf.2).map (f := fun x : FVals × Nat => (FVals.set w x.1, x.2))

/-- All that arrive, one after the other. -/
def putAll (es : List (Nat × Val)) (fs : FVals) : FVals := es.foldl (fun fs e => putNth e.1 e.2 fs) fs

/-- The limit while the fields are read. -/
def limE (len : Val → Nat) : Nat → List (Nat × Val) → Option Nat
  | m, [] => some m
  | m, e :: es => (limV len m e.2).bind fun m' => limE len m' es

theorem entries_parse {env : Env} (hr : env.Registered) {ds : FDecls} {tags : List Nat} (ht : tags.Nodup) {f : Nat} {es : List (Nat × Val)} {bs : Bytes}
    (h : EntriesBytes env ds tags es bs) : ∀ {fs : FVals} {m m' p : Nat}, acceptsF env fs ds = true → (∀ e ∈ es, asciiV e.2 = true ∧ depthV e.2 ≤ f) →
    limE (serLen env) m es = some m' → 20 ≤ m →
    Parses p (fieldLoop tags (fun i fs m => decNth env (decPacket env f) ds i fs m) es.length fs m) bs ⟨putAll es fs, m', false⟩ := by
  induction h with
  | nil =>
    intro fs m m' p hf he hlim hm
    cases hlim
    exact .ret
  | @cons i v b es bs hb h ih =>
    intro fs m m' p hf he hlim hm
    obtain ⟨t, tag, vb, h1, h2, h3, h4, h5, rfl⟩ := hb
    have hx := he (i, v) (by simp)
    rw [limE] at hlim
    cases hv : limV (serLen env) m v with
    | none => dsimp only at hlim; rw [hv] at hlim; cases hlim
    | some m1 =>
      dsimp only at hlim; rw [hv] at hlim
      have hp := putNth_parses hr h5 h4 hx.1 hx.2 hv hm i ds fs (p + (beEnc 2 tag).length) h1 hf
      have hm1 : 20 ≤ m1 := (rt_V hr v t vb f m m1 0 h5 h4 hx.1 hx.2 hv (.inl hm)).2
      rw [List.length_cons, fieldLoop, List.append_assoc]
      have hpk : packU 2 (tag : Int) = .ok (beEnc 2 tag) := packU_nat (by simpa using h3)
      refine .bind (parses_unpackU hpk (by omega)) ?_
      rw [findIdx?_nodup ht h2]; dsimp only
      refine .bind hp.wrap ?_
      exact ih (putNth_accepts h4 i ds fs h1 hf) (fun e h => he e (by simp [h])) hlim hm1

/-! ## What the fields have afterwards -/

theorem putNth_length : ∀ (i : Nat) (v : Val) (fs : FVals), (putNth i v fs).length = fs.length
  | i, _, .nil => by cases i <;> rfl
  | 0, _, .unset _ => rfl
  | 0, _, .set _ _ => rfl
  | i + 1, v, .unset r => by rw [putNth, FVals.length, FVals.length, putNth_length i v r]
  | i + 1, v, .set _ r => by rw [putNth, FVals.length, FVals.length, putNth_length i v r]

theorem putNth_same : ∀ (i : Nat) (v : Val) (fs : FVals), i < fs.length → (putNth i v fs).at' i = some (arrive (fs.at' i) v)
  | _, _, .nil, h => by cases h
  | 0, _, .unset _, _ => rfl
  | 0, _, .set _ _, _ => rfl
  | i + 1, v, .unset r, h => by rw [putNth, FVals.at', FVals.at', putNth_same i v r (by rw [FVals.length] at h; omega)]
  | i + 1, v, .set _ r, h => by rw [putNth, FVals.at', FVals.at', putNth_same i v r (by rw [FVals.length] at h; omega)]

theorem putNth_other : ∀ (i : Nat) (v : Val) (fs : FVals) (j : Nat), j ≠ i → (putNth i v fs).at' j = fs.at' j
  | i, _, .nil, _, _ => by cases i <;> rfl
  | 0, _, .unset _, 0, h => absurd rfl h
  | 0, _, .set _ _, 0, h => absurd rfl h
  | 0, _, .unset _, _ + 1, _ => rfl
  | 0, _, .set _ _, _ + 1, _ => rfl
  | _ + 1, _, .unset _, 0, _ => rfl
  | _ + 1, _, .set _ _, 0, _ => rfl
  | i + 1, v, .unset r, j + 1, h => by rw [putNth, FVals.at', FVals.at', putNth_other i v r j (by omega)]
  | i + 1, v, .set _ r, j + 1, h => by rw [putNth, FVals.at', FVals.at', putNth_other i v r j (by omega)]

theorem putAll_length (es : List (Nat × Val)) : ∀ fs : FVals, (putAll es fs).length = fs.length := by
  induction es with
  | nil => intro fs; rfl
  | cons e es ih =>
    intro fs
    rw [show putAll (e :: es) fs = putAll es (putNth e.1 e.2 fs) from rfl, ih, putNth_length]

theorem putAll_at (es : List (Nat × Val)) : ∀ (fs : FVals) (i : Nat), i < fs.length →
    (putAll es fs).at' i = (cameFor es i).foldl (fun c v => some (arrive c v)) (fs.at' i) := by
  induction es with
  | nil => intro fs i hi; rfl
  | cons e es ih =>
    intro fs i hi
    rw [show putAll (e :: es) fs = putAll es (putNth e.1 e.2 fs) from rfl, ih _ i (by rw [putNth_length]; exact hi)]
    by_cases he : e.1 = i
    · subst he
      rw [putNth_same e.1 e.2 fs hi]
      simp [cameFor]
    · rw [putNth_other e.1 e.2 fs i (fun h => he h.symm)]
      simp [cameFor, he]

theorem blank_length : ∀ ds : FDecls, ds.blank.length = ds.length
  | .nil => rfl
  | .cons _ _ _ _ r => by rw [FDecls.blank, FVals.length, FDecls.length, blank_length r]

theorem blank_at : ∀ (ds : FDecls) (i : Nat), ds.blank.at' i = none
  | .nil, _ => rfl
  | .cons _ _ _ _ _, 0 => rfl
  | .cons _ _ _ _ r, i + 1 => by rw [FDecls.blank, FVals.at', blank_at r]

theorem blank_accepts (env : Env) : ∀ ds : FDecls, acceptsF env ds.blank ds = true
  | .nil => rfl
  | .cons _ _ _ _ r => by rw [FDecls.blank, acceptsF, blank_accepts env r]

theorem fvals_ext : ∀ {a b : FVals}, a.length = b.length → (∀ i, i < a.length → a.at' i = b.at' i) → a = b
  | .nil, .nil, _, _ => rfl
  | .nil, .unset _, h, _ => by cases h
  | .nil, .set _ _, h, _ => by cases h
  | .unset _, .nil, h, _ => by cases h
  | .set _ _, .nil, h, _ => by cases h
  | .unset a, .unset b, h, hi => by
    rw [fvals_ext (a := a) (b := b) (by simpa [FVals.length] using h) (fun i h' => hi (i + 1) (by simpa [FVals.length] using h'))]
  | .set v a, .set w b, h, hi => by
    have h0 := hi 0 (by simp [FVals.length])
    cases h0
    rw [fvals_ext (a := a) (b := b) (by simpa [FVals.length] using h) (fun i h' => hi (i + 1) (by simpa [FVals.length] using h'))]
  | .unset _, .set _ _, _, hi => by have h0 := hi 0 (by simp [FVals.length]); cases h0
  | .set _ _, .unset _, _, hi => by have h0 := hi 0 (by simp [FVals.length]); cases h0

theorem flat_limE {env : Env} {ds : FDecls} {tags : List Nat} {es : List (Nat × Val)} {bs : Bytes} (h : EntriesBytes env ds tags es bs) (len : Val → Nat) :
    ∀ m, bs.length ≤ m → (∀ e ∈ es, flatV e.2 = true) → limE len m es = some m := by
  induction h with
  | nil => intro m _ _; rfl
  | @cons i v b es bs hb h ih =>
    intro m hm hf
    obtain ⟨t, tag, vb, h1, h2, h3, h4, h5, rfl⟩ := hb
    simp only [List.length_append] at hm
    rw [limE, flat_limV env len v t vb m (hf (i, v) (by simp)) h5 (by omega)]
    exact ih m (by omega) (fun e h => hf e (by simp [h]))

end Verif
