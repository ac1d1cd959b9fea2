import Verif.Spec.Received
import Verif.Lemmas.FloatCodec
import Verif.Lemmas.Tags
import Verif.Lemmas.Utf8
import Verif.Props.Fields
/-! # Packets that arrive: validity, and sending them on -/
namespace Verif

/-! ## Results of generators -/

/-- Every result of the generator, whatever bytes it gets, is as said. -/
def Dec.Post {α} (P : α → Prop) : Dec α → Prop
  | .ret a => P a
  | .fail _ => True
  | .read n k => ∀ b, b.length = n → (k b).Post P
  | .tell k => ∀ p, (k p).Post P
  | .skip _ k => k.Post P
  | .sync _ _ k => ∀ len st, (k len st).Post P

theorem Dec.Post.bind {α β} {P : α → Prop} {Q : β → Prop} {f : α → Dec β} (hf : ∀ a, P a → (f a).Post Q) :
    (d : Dec α) → d.Post P → (d.bind f).Post Q
  | .ret a, h => hf a h
  | .fail _, _ => trivial
  | .read n k, h => fun b hb => Dec.Post.bind hf (k b) (h b hb)
  | .tell k, h => fun p => Dec.Post.bind hf (k p) (h p)
  | .skip _ k, h => Dec.Post.bind (d := k) hf h
  | .sync _ _ k, h => fun len st => Dec.Post.bind hf (k len st) (h len st)

/-- The same with the arguments in the order of the program. -/
theorem Dec.Post.andThen {α β} {P : α → Prop} {Q : β → Prop} {d : Dec α} {f : α → Dec β} (h : d.Post P) (hf : ∀ a, P a → (f a).Post Q) : (d.bind f).Post Q :=
  Dec.Post.bind hf d h

theorem Dec.post_any {α} : (d : Dec α) → d.Post fun _ => True
  | .ret _ => trivial
  | .fail _ => trivial
  | .read n k => fun b _ => Dec.post_any (k b)
  | .tell k => fun p => Dec.post_any (k p)
  | .skip _ k => Dec.post_any k
  | .sync _ _ k => fun len st => Dec.post_any (k len st)

theorem Dec.Post.wrap {α} {P : α → Prop} : (d : Dec α) → d.Post P → d.wrap.Post P
  | .ret _, h => h
  | .fail _, _ => trivial
  | .read n k, h => fun b hb => Dec.Post.wrap (k b) (h b hb)
  | .tell k, h => fun p => Dec.Post.wrap (k p) (h p)
  | .skip _ k, h => Dec.Post.wrap k h
  | .sync _ _ k, h => fun len st => Dec.Post.wrap (k len st) (h len st)

/-- What a generator does on a stream: it returns such a result, or waits as such a generator. -/
def OutPost {α} (P : α → Prop) : Out α → Prop
  | .done a => P a
  | .error _ => True
  | .wait d => d.Post P

theorem Dec.Post.run {α} {P : α → Prop} (buf : Bytes) : (d : Dec α) → d.Post P → ∀ pos, OutPost P (d.run buf pos).1
  | .ret _, h => fun _ => h
  | .fail _, _ => fun _ => trivial
  | .read n k, h => fun pos => by
    rw [Dec.run]
    split
    · exact h
    · refine Dec.Post.run buf _ (h _ ?_) _
      unfold window
      rw [List.length_take, List.length_drop]
      omega
  | .tell k, h => fun pos => by rw [Dec.run]; exact Dec.Post.run buf _ (h _) _
  | .skip _ k, h => fun pos => by rw [Dec.run]; exact Dec.Post.run buf k h _
  | .sync s q k, h => fun pos => by
    rw [Dec.run]
    split
    · exact Dec.Post.run buf _ (h _ _) _
    · exact h
    · exact h

theorem post_unpack (max n : Nat) : (unpack max n).Post fun b => b.length = n := by
  unfold unpack
  split
  · trivial
  · exact fun b hb => hb

theorem post_unpackU (max n : Nat) : (unpackU max n).Post fun v => v < 256 ^ n := by
  unfold unpackU
  refine (post_unpack max n).andThen fun b hb => ?_
  show beDec b < 256 ^ n
  rw [← hb]; exact beDec_lt b

/-! ## Values that can be on the wire -/

mutual
/-- A value that was read from the wire into a field of the type, with packets nested at most `f` deep. -/
def wireV (env : Env) : Nat → Val → FType → Prop
  | _, .num i, .num s a => accepts env (.num i) (.num s a) = true ∧ ∃ bs, encV env (.num i) (.num s a) = .ok bs
  | _, .float w x, .float a => accepts env (.float w x) (.float a) = true ∧ (∃ bs, encFloat a x = .ok bs) ∧ asciiV (.float w x) = true
  | _, .bool _, .bool => True
  | _, .str s, .str => s.length < 2 ^ 16
  | _, .buf b, .buf => b.length < 2 ^ 64
  | f, .list vs, .list t => vs.length < 2 ^ 16 ∧ wireL env f vs t
  | f, .struct fs, .struct ds => wireF env f fs ds
  | f, .packet cls fs, .packet base => env.isSub cls base = true ∧ ∃ d f', env.classDef cls = some d ∧ f = f' + 1 ∧ wireF env f' fs d.fields
  | _, _, _ => False
def wireL (env : Env) : Nat → VList → FType → Prop
  | _, .nil, _ => True
  | f, .cons v r, t => wireV env f v t ∧ wireL env f r t
def wireF (env : Env) : Nat → FVals → FDecls → Prop
  | _, .nil, .nil => True
  | f, .unset r, .cons _ _ _ _ ds => wireF env f r ds
  | f, .set v r, .cons _ _ _ t ds => wireV env f v t ∧ wireF env f r ds
  | _, _, _ => False
end

theorem wire_blank (env : Env) (f : Nat) : (ds : FDecls) → wireF env f ds.blank ds
  | .nil => by rw [FDecls.blank, wireF]; trivial
  | .cons _ _ _ _ ds => by rw [FDecls.blank, wireF]; exact wire_blank env f ds

theorem wire_snoc (env : Env) (f : Nat) {v : Val} {t : FType} (hv : wireV env f v t) : (vs : VList) → wireL env f vs t → wireL env f (vs.snoc v) t
  | .nil, _ => by rw [VList.snoc, wireL]; exact ⟨hv, by rw [wireL]; trivial⟩
  | .cons w r, h => by
    rw [wireL] at h
    rw [VList.snoc, wireL]
    exact ⟨h.1, wire_snoc env f hv r h.2⟩

theorem length_snoc (v : Val) : (vs : VList) → (vs.snoc v).length = vs.length + 1
  | .nil => rfl
  | .cons w r => by rw [VList.snoc, VList.length, VList.length, length_snoc v r]

theorem packS_unpackS {w : Nat} {b : Bytes} (hw : 0 < w) (hb : b.length = w) : ∃ bs, packS w (unpackS w b) = .ok bs := by
  have h := beDec_lt b
  rw [hb] at h
  have hc : ((256 ^ w : Nat) : Int) = (256 : Int) ^ w := by simp
  have heven : (256 : Int) ^ w = 2 * ((256 : Int) ^ w / 2) := by
    obtain ⟨n, rfl⟩ : ∃ n, w = n + 1 := ⟨w - 1, by omega⟩
    rw [Int.pow_succ]; omega
  unfold packS unpackS
  dsimp only
  rw [if_pos]
  · exact ⟨_, rfl⟩
  · have : (beDec b : Int) < (256 : Int) ^ w := by rw [← hc]; exact_mod_cast h
    generalize (256 : Int) ^ w = M at *
    split <;> omega

theorem numWidth_pos {a : NumAttrs} {w : Nat} (h : numWidth a = .ok w) : 0 < w := by
  unfold numWidth at h
  dsimp only at h
  repeat' split at h
  all_goals first | (cases h; omega) | cases h

theorem post_decNum (env : Env) (f : Nat) (s : Bool) (a : NumAttrs) (max : Nat) : (decNum s a max).Post fun v => wireV env f v (.num s a) := by
  unfold decNum
  cases hw : numWidth a with
  | error e => trivial
  | ok w =>
  refine (post_unpack max w).andThen fun b hb => ?_
  have hp : ∃ bs, (if s = true then packS w (if s = true then unpackS w b else (beDec b : Int)) else packU w (if s = true then unpackS w b else (beDec b : Int)))
      = Except.ok bs := by
    cases s with
    | true => exact packS_unpackS (numWidth_pos hw) hb
    | false => exact ⟨_, packU_nat (hb ▸ beDec_lt b)⟩
  dsimp only
  generalize (if s = true then unpackS w b else (beDec b : Int)) = i at *
  by_cases hc : ((s || decide (0 ≤ i)) && a.validates i) = true
  · rw [if_pos hc]
    show wireV env f _ _
    rw [wireV]
    refine ⟨by rw [accepts.eq_def]; exact hc, ?_⟩
    rw [encV, hw]
    exact hp
  · rw [if_neg hc]; trivial

theorem post_setFloat (env : Env) (f : Nat) {a : NumAttrs} {x : F64} (he : ∃ bs, encFloat a x = .ok bs) (hs : a.single = true → isSingle x = true) :
    (setFloat a x).Post fun v => wireV env f v (.float a) := by
  unfold setFloat
  split
  next hv =>
    show wireV env f _ _
    rw [wireV]
    refine ⟨by rw [accepts.eq_def]; dsimp only; rw [hv, beq_self_eq_true]; rfl, he, ?_⟩
    generalize a.single = w at *
    cases w with
    | true => exact hs rfl
    | false => rfl
  · trivial

theorem post_decFloat (env : Env) (f : Nat) (a : NumAttrs) (max : Nat) : (decFloat a max).Post fun v => wireV env f v (.float a) := by
  have h64 : ∀ n : Nat, a.bits = some 64 → (setFloat a (UInt64.ofNat n)).Post fun v => wireV env f v (.float a) := fun n hb =>
    post_setFloat env f ⟨_, by unfold encFloat; simp only [hb]; rfl⟩ (fun h => by rw [NumAttrs.single, hb] at h; cases h)
  have h32 : ∀ n : Nat, a.bits = none ∨ a.bits = some 32 → (setFloat a (widen (UInt32.ofNat n))).Post fun v => wireV env f v (.float a) := fun n hb => by
    refine post_setFloat env f ?_ (fun _ => isSingle_widen _)
    have := isSingle_widen (UInt32.ofNat n)
    unfold isSingle at this
    split at this
    next y hy => rcases hb with hb | hb <;> exact ⟨_, by unfold encFloat; simp only [hb, hy]; rfl⟩
    · cases this
  unfold decFloat
  split
  next hb => exact (Dec.post_any _).andThen fun n _ => h64 n hb
  next hb => exact (Dec.post_any _).andThen fun n _ => h32 n (.inl hb)
  next hb => exact (Dec.post_any _).andThen fun n _ => h32 n (.inr hb)
  · trivial

theorem post_listLoop {env : Env} {f : Nat} {t : FType} {elem : Nat → Dec (Val × Nat)} (he : ∀ m, (elem m).Post fun r => wireV env f r.1 t) :
    ∀ (n : Nat) (acc : VList) (max : Nat), acc.length + n < 2 ^ 16 → wireL env f acc t →
      (listLoop elem n acc max).Post fun r => r.1.length < 2 ^ 16 ∧ wireL env f r.1 t
  | 0, acc, max, hl, h => ⟨by simpa using hl, h⟩
  | n + 1, acc, max, hl, h => by
    unfold listLoop
    exact (Dec.Post.wrap _ (he max)).andThen fun r hr => post_listLoop he n _ _ (by rw [length_snoc]; omega) (wire_snoc env f hr acc h)

theorem post_fieldLoop {P : FVals → Prop} {tags : List Nat} {one : Nat → FVals → Nat → Dec (FVals × Nat)}
    (ho : ∀ i fs m, P fs → (one i fs m).Post fun r => P r.1) :
    ∀ (n : Nat) (vals : FVals) (max : Nat), P vals → (fieldLoop tags one n vals max).Post fun r => P r.vals
  | 0, vals, max, h => h
  | n + 1, vals, max, h => by
    unfold fieldLoop
    refine (Dec.post_any _).andThen fun tag _ => ?_
    split
    · split
      · trivial
      · exact h
    · exact (Dec.Post.wrap _ (ho _ _ _ h)).andThen fun r hr => post_fieldLoop ho n _ _ hr

theorem post_decBody {P : FVals → Prop} {ds : FDecls} {one : Nat → FVals → Nat → Dec (FVals × Nat)}
    (ho : ∀ i fs m, P fs → (one i fs m).Post fun r => P r.1) {vals : FVals} (max : Nat) (h : P vals) :
    (decBody ds one vals max).Post fun r => P r.vals := by
  unfold decBody
  split
  · trivial
  · exact (Dec.post_any _).andThen fun n _ => post_fieldLoop ho n _ _ h

/-- The values a struct field is decoded into. -/
def structVals (ds : FDecls) (cur : Option Val) : FVals := match cur with | some (.struct fs) => fs | _ => ds.blank

mutual
theorem post_decT (env : Env) (f : Nat) {pk : Cls → Nat → Dec (Val × Nat)} (hpk : ∀ base m, (pk base m).Post fun r => wireV env f r.1 (.packet base)) :
    (t : FType) → ∀ (cur : Option Val) (max : Nat), (∀ v, cur = some v → wireV env f v t) → (decT env pk t cur max).Post fun r => wireV env f r.1 t
  | .num s a => fun cur max _ => by
    rw [decT]; exact (post_decNum env f s a max).andThen fun v hv => hv
  | .float a => fun cur max _ => by
    rw [decT]; exact (post_decFloat env f a max).andThen fun v hv => hv
  | .bool => fun cur max _ => by
    rw [decT]
    refine (post_unpackU max 1).andThen fun n _ => ?_
    show wireV env f (.bool (n != 0)) .bool
    rw [wireV]; trivial
  | .str => fun cur max _ => by
    rw [decT]
    refine (post_unpackU max 2).andThen fun n hn => (post_unpack max n).andThen fun b hb => ?_
    cases hs : utf8Dec b with
    | none => trivial
    | some s =>
      show wireV env f (.str s) .str
      rw [wireV]
      have h1 := length_le_utf8 s
      rw [utf8_of_dec b s hs] at h1
      omega
  | .buf => fun cur max _ => by
    rw [decT]
    refine (post_unpackU max 8).andThen fun n hn => (post_unpack max n).andThen fun b hb => ?_
    show wireV env f (.buf b) .buf
    rw [wireV]
    omega
  | .list t => fun cur max _ => by
    rw [decT]
    refine (post_unpackU max 2).andThen fun n hn => ?_
    refine (post_listLoop (fun m => post_decT env f hpk t none m nofun) n .nil max (by rw [VList.length]; omega) (by rw [wireL]; trivial)).andThen fun r hr => ?_
    show wireV env f (.list r.1) (.list t)
    rw [wireV]
    exact hr
  | .struct ds => fun cur max hcur => by
    rw [decT.eq_def]; dsimp only
    have hv : wireF env f (structVals ds cur) ds := by
      unfold structVals
      split
      next fs => have := hcur _ rfl; rw [wireV] at this; exact this
      · exact wire_blank env f ds
    change ((decBody ds _ (structVals ds cur) max).bind _).Post _
    refine (post_decBody (P := fun fs => wireF env f fs ds) (fun i fs m h => post_decNth env f hpk ds i fs m h) max hv).andThen fun r hr => ?_
    split
    · trivial
    · show wireV env f (.struct r.vals) (.struct ds)
      rw [wireV]; exact hr
  | .packet base => fun cur max _ => by rw [decT]; exact hpk base max
theorem post_decNth (env : Env) (f : Nat) {pk : Cls → Nat → Dec (Val × Nat)} (hpk : ∀ base m, (pk base m).Post fun r => wireV env f r.1 (.packet base)) :
    (ds : FDecls) → ∀ (i : Nat) (fs : FVals) (max : Nat), wireF env f fs ds → (decNth env pk ds i fs max).Post fun r => wireF env f r.1 ds
  | .nil => fun i fs max _ => by rw [decNth.eq_def]; trivial
  | .cons _ _ _ t ds => fun i fs max h => by
    cases fs with
    | nil => rw [wireF.eq_def] at h; cases h
    | unset r =>
      rw [wireF] at h
      cases i with
      | zero =>
        rw [decNth]
        refine (post_decT env f hpk t none max nofun).andThen fun x hx => ?_
        show wireF env f (.set x.1 r) _
        rw [wireF]; exact ⟨hx, h⟩
      | succ i =>
        rw [decNth]
        refine (post_decNth env f hpk ds i r max h).andThen fun x hx => ?_
        show wireF env f (.unset x.1) _
        rw [wireF]; exact hx
    | set v r =>
      rw [wireF] at h
      cases i with
      | zero =>
        rw [decNth]
        refine (post_decT env f hpk t (some v) max (fun w hw => by cases hw; exact h.1)).andThen fun x hx => ?_
        show wireF env f (.set x.1 r) _
        rw [wireF]; exact ⟨hx, h.2⟩
      | succ i =>
        rw [decNth]
        refine (post_decNth env f hpk ds i r max h.2).andThen fun x hx => ?_
        show wireF env f (.set v x.1) _
        rw [wireF]; exact ⟨h.1, hx⟩
end

theorem post_finish {P : Val → Prop} (len start : Nat) (res : Option (Val × Nat × Bool)) (h : ∀ r, res = some r → P r.1) :
    (finishPacket len start res).Post fun r => P r.1 := by
  unfold finishPacket
  intro pos
  dsimp only
  cases res with
  | none => split <;> trivial
  | some r =>
    obtain ⟨v, m, e⟩ := r
    have := h _ rfl
    split
    · cases e
      · trivial
      · exact this
    · exact this

theorem post_decPacket (env : Env) : (f : Nat) → ∀ (base : Cls) (max : Nat), (decPacket env f base max).Post fun r => wireV env f r.1 (.packet base)
  | 0 => fun base max => by rw [decPacket]; trivial
  | f + 1 => fun base max => by
    rw [decPacket]
    intro start
    dsimp only
    split
    · trivial
    intro len st
    unfold packetRest
    refine (Dec.post_any _).andThen fun nameLen _ => (Dec.post_any _).andThen fun nameB _ => ?_
    cases utf8Dec nameB with
    | none => trivial
    | some name =>
    refine (Dec.post_any _).andThen fun verLen _ => (Dec.post_any _).andThen fun verB _ => ?_
    cases utf8Dec verB with
    | none => trivial
    | some ver =>
    dsimp only
    cases Version.fromString ver with
    | none => trivial
    | some version =>
    dsimp only
    cases env.lookup base name version with
    | error e => trivial
    | ok o =>
    cases o with
    | none =>
      dsimp only
      exact post_finish (P := fun v => wireV env (f + 1) v (.packet base)) len st none (fun r hr => nomatch hr)
    | some cls =>
    dsimp only
    cases hd : env.classDef cls with
    | none => trivial
    | some d =>
    dsimp only
    split
    next hsub =>
      refine (post_decBody (P := fun fs => wireF env f fs d.fields)
        (fun i fs m h => post_decNth env f (fun b m => post_decPacket env f b m) d.fields i fs m h) len (wire_blank env f d.fields)).andThen fun r hr => ?_
      refine post_finish (P := fun v => wireV env (f + 1) v (.packet base)) _ _ _ fun x hx => ?_
      cases hx
      show wireV env (f + 1) (.packet cls r.vals) _
      rw [wireV]
      exact ⟨hsub, d, f, hd, rfl, hr⟩
    · trivial

/-! ## Consequences -/

mutual
theorem wire_accV (env : Env) : (v : Val) → ∀ f t, wireV env f v t → accepts env v t = true ∧ depthV v ≤ f ∧ (textV v = true → asciiV v = true)
  | .num i => fun f t h => by
    rw [wireV.eq_def] at h
    cases t <;> first | (exact ⟨h.1, Nat.zero_le _, fun _ => rfl⟩) | cases h
  | .float w x => fun f t h => by
    rw [wireV.eq_def] at h
    cases t <;> first | (exact ⟨h.1, Nat.zero_le _, fun _ => h.2.2⟩) | cases h
  | .bool b => fun f t h => by
    rw [wireV.eq_def] at h
    cases t <;> first | (cases h; done) | (exact ⟨by rw [accepts], Nat.zero_le _, fun _ => rfl⟩)
  | .str s => fun f t h => by
    rw [wireV.eq_def] at h
    cases t <;> first | (cases h; done) | (exact ⟨by rw [accepts], Nat.zero_le _, fun h => h⟩)
  | .buf b => fun f t h => by
    rw [wireV.eq_def] at h
    cases t <;> first | (cases h; done) | (exact ⟨by rw [accepts], Nat.zero_le _, fun h => rfl⟩)
  | .list vs => fun f t h => by
    rw [wireV.eq_def] at h
    cases t <;> first
      | (cases h; done)
      | (obtain ⟨h1, h2, h3⟩ := wire_accL env vs f _ h.2
         exact ⟨by rw [accepts]; exact h1, by rw [depthV]; exact h2, fun hx => by rw [asciiV]; rw [textV] at hx; exact h3 hx⟩)
  | .struct fs => fun f t h => by
    rw [wireV.eq_def] at h
    cases t <;> first
      | (cases h; done)
      | (obtain ⟨h1, h2, h3⟩ := wire_accF env fs f _ h
         exact ⟨by rw [accepts]; exact h1, by rw [depthV]; exact h2, fun hx => by rw [asciiV]; rw [textV] at hx; exact h3 hx⟩)
  | .packet cls fs => fun f t h => by
    rw [wireV.eq_def] at h
    cases t <;> first
      | (cases h; done)
      | (obtain ⟨hs, d, f', hd, rfl, h⟩ := h
         obtain ⟨h1, h2, h3⟩ := wire_accF env fs f' _ h
         exact ⟨by rw [accepts, hs, hd]; exact h1, by rw [depthV]; omega, fun hx => by rw [asciiV]; rw [textV] at hx; exact h3 hx⟩)
theorem wire_accL (env : Env) : (vs : VList) → ∀ f t, wireL env f vs t → acceptsL env vs t = true ∧ depthL vs ≤ f ∧ (textL vs = true → asciiL vs = true)
  | .nil => fun f t _ => ⟨by rw [acceptsL], by rw [depthL]; omega, fun _ => by rw [asciiL]⟩
  | .cons v r => fun f t h => by
    rw [wireL] at h
    obtain ⟨h1, h2, h3⟩ := wire_accV env v f t h.1
    obtain ⟨g1, g2, g3⟩ := wire_accL env r f t h.2
    refine ⟨by rw [acceptsL, h1, g1]; rfl, by rw [depthL]; exact Nat.max_le.mpr ⟨h2, g2⟩, fun hx => ?_⟩
    rw [textL, Bool.and_eq_true] at hx
    rw [asciiL, h3 hx.1, g3 hx.2]; rfl
theorem wire_accF (env : Env) : (fs : FVals) → ∀ f ds, wireF env f fs ds → acceptsF env fs ds = true ∧ depthF fs ≤ f ∧ (textF fs = true → asciiF fs = true)
  | .nil => fun f ds h => by
    cases ds with
    | nil => exact ⟨by rw [acceptsF], by rw [depthF]; omega, fun _ => by rw [asciiF]⟩
    | cons => rw [wireF.eq_def] at h; cases h
  | .unset r => fun f ds h => by
    cases ds with
    | nil => rw [wireF.eq_def] at h; cases h
    | cons =>
      rw [wireF] at h
      obtain ⟨g1, g2, g3⟩ := wire_accF env r f _ h
      exact ⟨by rw [acceptsF]; exact g1, by rw [depthF]; exact g2, fun hx => by rw [asciiF]; rw [textF] at hx; exact g3 hx⟩
  | .set v r => fun f ds h => by
    cases ds with
    | nil => rw [wireF.eq_def] at h; cases h
    | cons =>
      rw [wireF] at h
      obtain ⟨h1, h2, h3⟩ := wire_accV env v f _ h.1
      obtain ⟨g1, g2, g3⟩ := wire_accF env r f _ h.2
      refine ⟨by rw [acceptsF, h1, g1]; rfl, by rw [depthF]; exact Nat.max_le.mpr ⟨h2, g2⟩, fun hx => ?_⟩
      rw [textF, Bool.and_eq_true] at hx
      rw [asciiF, h3 hx.1, g3 hx.2]; rfl
end

theorem countSet_complete (env : Env) : (fs : FVals) → ∀ ds, completeF env fs ds → ∃ n, countSet fs ds = .ok n ∧ n ≤ ds.length
  | .nil => fun ds h => by
    cases ds with
    | nil => exact ⟨0, rfl, Nat.zero_le _⟩
    | cons => rw [completeF.eq_def] at h; cases h
  | .unset r => fun ds h => by
    cases ds with
    | nil => rw [completeF.eq_def] at h; cases h
    | cons nm tg opt t ds =>
      rw [completeF] at h
      obtain ⟨n, h1, h2⟩ := countSet_complete env r ds h.2
      exact ⟨n, by rw [countSet, if_pos h.1]; exact h1, by rw [FDecls.length]; omega⟩
  | .set v r => fun ds h => by
    cases ds with
    | nil => rw [completeF.eq_def] at h; cases h
    | cons nm tg opt t ds =>
      rw [completeF] at h
      obtain ⟨n, h1, h2⟩ := countSet_complete env r ds h.2
      exact ⟨n + 1, by rw [countSet, h1], by rw [FDecls.length]; omega⟩

theorem encHeader_ok {total : Nat} {a b : Bytes} (ht : total < 2 ^ 64) (ha : a.length < 256) (hb : b.length < 256) :
    ∃ h, encHeader total a b = .ok h ∧ h.length = 18 + a.length + b.length := by
  unfold encHeader
  have hc : compl64 total < 256 ^ 8 := by
    unfold compl64
    exact Nat.xor_lt_two_pow (n := 64) ht (by decide)
  rw [packU_nat (w := 8) (v := total) ht, packU_nat (w := 8) hc, packU_nat (w := 1) (by simpa using ha), packU_nat (w := 1) (by simpa using hb)]
  refine ⟨_, rfl, ?_⟩
  simp only [List.length_append, beEnc_length]
  omega

theorem bindOk {α β} (a : α) (f : α → Except Err β) : (Except.ok a >>= f) = f a := rfl

theorem encNum_len {env : Env} {i : Int} {s : Bool} {a : NumAttrs} {bs : Bytes} (h : encV env (.num i) (.num s a) = .ok bs) : bs.length ≤ 8 := by
  rw [encV] at h
  obtain ⟨w, hw, h⟩ := bindE h
  have hw8 : w ≤ 8 := by
    unfold numWidth at hw
    dsimp only at hw
    repeat' split at hw
    all_goals first | (cases hw; omega) | cases hw
  split at h
  · rw [(packS_ok h).1]; exact hw8
  · rw [packU_len h]; exact hw8

theorem encV_struct {env : Env} {fs : FVals} {ds : FDecls} {tags : List Nat} {n : Nat} {h body : Bytes} (h1 : processFields ds = .ok tags)
    (h2 : countSet fs ds = .ok n) (h3 : packU 2 (n : Int) = .ok h) (h4 : encF env fs ds tags = .ok body) :
    encV env (.struct fs) (.struct ds) = .ok (h ++ body) := by
  rw [encV, h1, bindOk, h2, bindOk, h3, bindOk, h4, bindOk]

theorem encV_packet {env : Env} {cls base : Cls} {d : PDef} {fs : FVals} {tags : List Nat} {n : Nat} {h body hdr : Bytes} (hd : env.classDef cls = some d)
    (h1 : processFields d.fields = .ok tags) (h2 : countSet fs d.fields = .ok n) (h3 : packU 2 (n : Int) = .ok h)
    (h4 : encF env fs d.fields tags = .ok body)
    (h5 : encHeader (16 + (1 + (utf8 d.ident).length) + (1 + (utf8 d.version).length) + (h.length + body.length)) (utf8 d.ident) (utf8 d.version) = .ok hdr) :
    encV env (.packet cls fs) (.packet base) = .ok (hdr ++ (h ++ body)) := by
  rw [encV, hd]
  dsimp only
  rw [h1, bindOk, h2, bindOk, h3, bindOk, h4, bindOk]
  rw [h5, bindOk]

mutual
theorem wire_encV (env : Env) (hw : env.Encodable) : (v : Val) → ∀ f t, wireV env f v t → complete env v t → encodableT t → sizeV env v < 2 ^ 64 →
    ∃ bs, encV env v t = .ok bs ∧ bs.length ≤ sizeV env v
  | .num i => fun f t h _ _ _ => by
    cases t with
    | num s a =>
      rw [wireV] at h
      obtain ⟨bs, hb⟩ := h.2
      exact ⟨bs, hb, by rw [sizeV]; exact encNum_len hb⟩
    | _ => rw [wireV.eq_def] at h; cases h
  | .float w x => fun f t h _ _ _ => by
    cases t with
    | float a =>
      rw [wireV] at h
      obtain ⟨bs, hb⟩ := h.2.1
      refine ⟨bs, by rw [encV]; exact hb, ?_⟩
      rw [sizeV]
      rcases encFloat_cases hb with ⟨-, hp⟩ | ⟨-, y, -, hp⟩ <;> rw [packU_len hp] <;> omega
    | _ => rw [wireV.eq_def] at h; cases h
  | .bool b => fun f t h _ _ _ => by
    cases t with
    | bool => exact ⟨_, by rw [encV], by rw [sizeV]; exact Nat.le_refl 1⟩
    | _ => rw [wireV.eq_def] at h; cases h
  | .str s => fun f t h _ _ _ => by
    cases t with
    | str =>
      rw [wireV] at h
      refine ⟨_, by rw [encV, if_neg (by omega), packU_nat (w := 2) h]; rfl, ?_⟩
      rw [sizeV, List.length_append, beEnc_length, List.length_take]
      omega
    | _ => rw [wireV.eq_def] at h; cases h
  | .buf b => fun f t h _ _ _ => by
    cases t with
    | buf =>
      rw [wireV] at h
      refine ⟨_, by rw [encV, if_neg (by omega), packU_nat (w := 8) h]; rfl, ?_⟩
      rw [sizeV, List.length_append, beEnc_length]
      exact Nat.le_refl _
    | _ => rw [wireV.eq_def] at h; cases h
  | .list vs => fun f t h hc he hs => by
    cases t with
    | list t =>
      rw [wireV] at h
      rw [complete] at hc
      rw [encodableT] at he
      rw [sizeV] at hs
      obtain ⟨bs, hb, hl⟩ := wire_encL env hw vs f t h.2 hc he (by omega)
      refine ⟨_, by rw [encV, packU_nat (w := 2) h.1, hb]; rfl, ?_⟩
      rw [sizeV, List.length_append, beEnc_length]
      omega
    | _ => rw [wireV.eq_def] at h; cases h
  | .struct fs => fun f t h hc he hs => by
    cases t with
    | struct ds =>
      rw [wireV] at h
      rw [complete] at hc
      rw [encodableT] at he
      rw [sizeV] at hs
      obtain ⟨⟨tags, ht, hlen, htag⟩, hd⟩ := he
      have hsp := processFields_spec ht
      obtain ⟨n, hn, hle⟩ := countSet_complete env fs ds hc
      obtain ⟨bs, hb, hl⟩ := wire_encF env hw fs f ds tags h hc hd (by omega) hsp.2.2.1 htag
      refine ⟨_, encV_struct ht hn (packU_nat (w := 2) (by omega)) hb, ?_⟩
      rw [sizeV, List.length_append, beEnc_length]
      omega
    | _ => rw [wireV.eq_def] at h; cases h
  | .packet cls fs => fun f t h hc he hs => by
    cases t with
    | packet base =>
      rw [wireV] at h
      rw [complete] at hc
      rw [sizeV] at hs
      obtain ⟨-, d, f', hd, -, h⟩ := h
      obtain ⟨d', hd', hc⟩ := hc
      rw [hd] at hd'
      cases hd'
      obtain ⟨⟨tags, ht, hlen, htag⟩, hdd, hi, hv⟩ := hw cls d hd
      have hsp := processFields_spec ht
      obtain ⟨n, hn, hle⟩ := countSet_complete env fs d.fields hc
      obtain ⟨bs, hb, hl⟩ := wire_encF env hw fs f' d.fields tags h hc hdd (by omega) hsp.2.2.1 htag
      obtain ⟨hdr, hh, hhl⟩ := encHeader_ok (total := 16 + (1 + (utf8 d.ident).length) + (1 + (utf8 d.version).length) + ((beEnc 2 n).length + bs.length))
        (by rw [beEnc_length]; omega) hi hv
      refine ⟨_, encV_packet hd ht hn (packU_nat (w := 2) (by omega)) hb hh, ?_⟩
      rw [sizeV, List.length_append, List.length_append, beEnc_length]
      omega
    | _ => rw [wireV.eq_def] at h; cases h
theorem wire_encL (env : Env) (hw : env.Encodable) : (vs : VList) → ∀ f t, wireL env f vs t → completeL env vs t → encodableT t → sizeL env vs < 2 ^ 64 →
    ∃ bs, encL env vs t = .ok bs ∧ bs.length ≤ sizeL env vs
  | .nil => fun f t _ _ _ _ => ⟨_, by rw [encL], Nat.zero_le _⟩
  | .cons v r => fun f t h hc he hs => by
    rw [wireL] at h
    rw [completeL] at hc
    rw [sizeL] at hs
    obtain ⟨b, hb, hbl⟩ := wire_encV env hw v f t h.1 hc.1 he (by omega)
    obtain ⟨bs, hbs, hbsl⟩ := wire_encL env hw r f t h.2 hc.2 he (by omega)
    refine ⟨_, by rw [encL, hb, hbs]; rfl, ?_⟩
    rw [sizeL, List.length_append]
    omega
theorem wire_encF (env : Env) (hw : env.Encodable) : (fs : FVals) → ∀ f ds tags, wireF env f fs ds → completeF env fs ds → encodableD ds → sizeF env fs < 2 ^ 64 →
    tags.length = ds.length → (∀ g ∈ tags, g < 2 ^ 16) → ∃ bs, encF env fs ds tags = .ok bs ∧ bs.length ≤ sizeF env fs
  | .nil => fun f ds tags h _ _ _ hl _ => by
    cases ds with
    | nil =>
      cases tags with
      | nil => exact ⟨_, by rw [encF], Nat.zero_le _⟩
      | cons => rw [FDecls.length] at hl; cases hl
    | cons => rw [wireF.eq_def] at h; cases h
  | .unset r => fun f ds tags h hc he hs hl ht => by
    cases ds with
    | nil => rw [wireF.eq_def] at h; cases h
    | cons nm tg opt t ds =>
      rw [wireF] at h
      rw [completeF] at hc
      rw [encodableD] at he
      rw [sizeF] at hs
      rw [FDecls.length] at hl
      cases tags with
      | nil => cases hl
      | cons g tags =>
        obtain ⟨bs, hbs, hbsl⟩ := wire_encF env hw r f ds tags h hc.2 he.2 hs (by simpa using hl) (fun x hx => ht x (List.mem_cons_of_mem _ hx))
        exact ⟨bs, by rw [encF]; exact hbs, by rw [sizeF]; exact hbsl⟩
  | .set v r => fun f ds tags h hc he hs hl ht => by
    cases ds with
    | nil => rw [wireF.eq_def] at h; cases h
    | cons nm tg opt t ds =>
      rw [wireF] at h
      rw [completeF] at hc
      rw [encodableD] at he
      rw [sizeF] at hs
      rw [FDecls.length] at hl
      cases tags with
      | nil => cases hl
      | cons g tags =>
        obtain ⟨b, hb, hbl⟩ := wire_encV env hw v f t h.1 hc.1 he.1 (by omega)
        obtain ⟨bs, hbs, hbsl⟩ := wire_encF env hw r f ds tags h.2 hc.2 he.2 (by omega) (by simpa using hl) (fun x hx => ht x (List.mem_cons_of_mem _ hx))
        have hg : packU 2 (g : Int) = .ok (beEnc 2 g) := packU_nat (w := 2) (ht g List.mem_cons_self)
        refine ⟨beEnc 2 g ++ (b ++ bs), by rw [encF, hg, hb, hbs]; rfl, ?_⟩
        rw [sizeF, List.length_append, List.length_append, beEnc_length]
        omega
end

mutual
theorem text_of_ascii : (v : Val) → asciiV v = true → textV v = true
  | .num _ => fun _ => rfl
  | .float _ _ => fun _ => rfl
  | .bool _ => fun _ => rfl
  | .str _ => fun h => h
  | .buf _ => fun _ => rfl
  | .list vs => fun h => by rw [asciiV] at h; rw [textV]; exact text_of_asciiL vs h
  | .struct fs => fun h => by rw [asciiV] at h; rw [textV]; exact text_of_asciiF fs h
  | .packet _ fs => fun h => by rw [asciiV] at h; rw [textV]; exact text_of_asciiF fs h
theorem text_of_asciiL : (vs : VList) → asciiL vs = true → textL vs = true
  | .nil => fun _ => by rw [textL]
  | .cons v r => fun h => by
    rw [asciiL, Bool.and_eq_true] at h
    rw [textL, text_of_ascii v h.1, text_of_asciiL r h.2]; rfl
theorem text_of_asciiF : (fs : FVals) → asciiF fs = true → textF fs = true
  | .nil => fun _ => by rw [textF]
  | .unset r => fun h => by rw [asciiF] at h; rw [textF]; exact text_of_asciiF r h
  | .set v r => fun h => by
    rw [asciiF, Bool.and_eq_true] at h
    rw [textF, text_of_ascii v h.1, text_of_asciiF r h.2]; rfl
end

end Verif
