import Verif.Lemmas.Stream
/-! The decoder never moves backwards, so each event of the Deserializer consumes input. -/
namespace Verif

/-- Started at position `p`, the program never goes back. -/
inductive Mono {α : Type} : Nat → Dec α → Prop where
  | ret {p a} : Mono p (.ret a)
  | fail {p e} : Mono p (.fail e)
  | read {p n k} : (∀ b, Mono (p + n) (k b)) → Mono p (.read n k)
  | tell {p k} : Mono p (k p) → Mono p (.tell k)
  | skip {p n k} : (∀ p', p ≤ p' → Mono p' k) → Mono p (.skip n k)
  | sync {p s q k} : p = s + (if q.isSome then 8 else 0) →
      (∀ len s', s ≤ s' → Mono (s' + 16) (k len s')) → Mono p (.sync s q k)

theorem Mono.bind {α β} {d : Dec α} {f : α → Dec β} {p} (h : Mono p d)
    (hf : ∀ a p', p ≤ p' → Mono p' (f a)) : Mono p (d.bind f) := by
  induction h with
  | ret => exact hf _ _ (Nat.le_refl _)
  | fail => exact .fail
  | read _ ih => exact .read fun b => ih b fun a p' hp => hf a p' (by omega)
  | tell _ ih => exact .tell (ih hf)
  | skip _ ih => exact .skip fun p' hp => ih p' hp fun a p'' hp' => hf a p'' (by omega)
  | @sync p s q k h1 _ ih =>
    refine .sync h1 fun len s' hs => ih len s' hs fun a p'' hp' => hf a p'' ?_
    split at h1 <;> omega

theorem Mono.wrap {α} {d : Dec α} {p} (h : Mono p d) : Mono p d.wrap := by
  induction h with
  | ret => exact .ret
  | fail => exact .fail
  | read _ ih => exact .read ih
  | tell _ ih => exact .tell ih
  | skip _ ih => exact .skip ih
  | sync h1 _ ih => exact .sync h1 ih

theorem mono_unpack (max n p : Nat) : Mono p (unpack max n) := by
  unfold unpack; split
  · exact .fail
  · exact .read fun _ => .ret

theorem mono_unpackU (max n p : Nat) : Mono p (unpackU max n) :=
  (mono_unpack max n p).bind fun _ _ _ => .ret

theorem mono_decNum (s : Bool) (a : NumAttrs) (max p : Nat) : Mono p (decNum s a max) := by
  unfold decNum
  split
  · exact .fail
  · refine (mono_unpack _ _ _).bind fun _ _ _ => ?_
    dsimp only
    split <;> split <;> first | exact .ret | exact .fail

theorem mono_listLoop {elem : Nat → Dec (Val × Nat)} (h : ∀ m p, Mono p (elem m)) :
    ∀ n acc max p, Mono p (listLoop elem n acc max) := by
  intro n
  induction n with
  | zero => intro acc max p; exact .ret
  | succ n ih =>
    intro acc max p
    exact (h max p).wrap.bind fun _ _ _ => ih _ _ _

theorem mono_fieldLoop {tags : List Nat} {one : Nat → FVals → Nat → Dec (FVals × Nat)}
    (h : ∀ i fs m p, Mono p (one i fs m)) : ∀ n vals max p, Mono p (fieldLoop tags one n vals max) := by
  intro n
  induction n with
  | zero => intro vals max p; exact .ret
  | succ n ih =>
    intro vals max p
    refine (mono_unpackU _ _ _).bind fun tag _ _ => ?_
    split
    · split
      · exact .fail
      · exact .ret
    · exact (h _ _ _ _).wrap.bind fun _ _ _ => ih _ _ _

theorem mono_decBody {ds : FDecls} {one : Nat → FVals → Nat → Dec (FVals × Nat)}
    (h : ∀ i fs m p, Mono p (one i fs m)) (vals : FVals) (max p : Nat) :
    Mono p (decBody ds one vals max) := by
  unfold decBody
  split
  · exact .fail
  · exact (mono_unpackU _ _ _).bind fun _ _ _ => mono_fieldLoop h _ _ _ _

theorem mono_decFloat (a : NumAttrs) (max p : Nat) : Mono p (decFloat a max) := by
  have hs : ∀ x p, Mono p (setFloat a x) := by
    intro x p
    unfold setFloat
    split
    · exact .ret
    · exact .fail
  unfold decFloat
  split
  · exact (mono_unpackU _ _ _).bind fun _ _ _ => hs _ _
  · exact (mono_unpackU _ _ _).bind fun _ _ _ => hs _ _
  · exact (mono_unpackU _ _ _).bind fun _ _ _ => hs _ _
  · exact .fail

mutual
theorem mono_decT {env : Env} {pk : Cls → Nat → Dec (Val × Nat)} (h : ∀ c m p, Mono p (pk c m)) :
    (t : FType) → ∀ (cur : Option Val) (max p : Nat), Mono p (decT env pk t cur max)
  | .num s a => by
    intro cur max p; rw [decT.eq_def]; exact (mono_decNum _ _ _ _).bind fun _ _ _ => .ret
  | .float a => by
    intro cur max p; rw [decT.eq_def]; exact (mono_decFloat _ _ _).bind fun _ _ _ => .ret
  | .bool => by
    intro cur max p; rw [decT.eq_def]; exact (mono_unpackU _ _ _).bind fun _ _ _ => .ret
  | .str => by
    intro cur max p; rw [decT.eq_def]
    refine (mono_unpackU _ _ _).bind fun _ _ _ => (mono_unpack _ _ _).bind fun _ _ _ => ?_
    split
    · exact .fail
    · exact .ret
  | .buf => by
    intro cur max p; rw [decT.eq_def]
    exact (mono_unpackU _ _ _).bind fun _ _ _ => (mono_unpack _ _ _).bind fun _ _ _ => .ret
  | .list t => by
    intro cur max p; rw [decT.eq_def]
    exact (mono_unpackU _ _ _).bind fun _ _ _ =>
      (mono_listLoop (fun m p => mono_decT h t none m p) _ _ _ _).bind fun _ _ _ => .ret
  | .struct ds => by
    intro cur max p; rw [decT.eq_def]
    refine (mono_decBody (fun i fs m p => mono_decNth h ds i fs m p) _ _ _).bind fun _ _ _ => ?_
    split
    · exact .fail
    · exact .ret
  | .packet base => by intro cur max p; rw [decT.eq_def]; exact h _ _ _
theorem mono_decNth {env : Env} {pk : Cls → Nat → Dec (Val × Nat)} (h : ∀ c m p, Mono p (pk c m)) :
    (ds : FDecls) → ∀ (i : Nat) (fs : FVals) (max p : Nat), Mono p (decNth env pk ds i fs max)
  | .nil => by intro i fs max p; rw [decNth.eq_def]; exact .fail
  | .cons _ _ _ t ds => by
    intro i fs max p
    rw [decNth.eq_def]
    cases i with
    | zero =>
      cases fs with
      | nil => exact .fail
      | unset r => exact (mono_decT h t none max p).bind fun _ _ _ => .ret
      | set v r => exact (mono_decT h t (some v) max p).bind fun _ _ _ => .ret
    | succ i =>
      cases fs with
      | nil => exact .fail
      | unset r => exact (mono_decNth h ds i r max p).bind fun _ _ _ => .ret
      | set v r => exact (mono_decNth h ds i r max p).bind fun _ _ _ => .ret
end

theorem mono_finish (len start : Nat) (res : Option (Val × Nat × Bool)) (p : Nat) :
    Mono p (finishPacket len start res) := by
  unfold finishPacket
  refine .tell ?_
  rcases res with _ | ⟨v, m, _ | _⟩ <;> dsimp only <;> split
  all_goals first
    | exact .fail
    | exact .ret
    | exact .skip fun _ _ => .fail
    | exact .skip fun _ _ => .ret

theorem mono_packetRest {env : Env} {body : PDef → Nat → Dec FRes} (h : ∀ d m p, Mono p (body d m))
    (base : Cls) (len start p : Nat) : Mono p (packetRest env body base len start) := by
  unfold packetRest
  refine (mono_unpackU _ _ _).bind fun _ _ _ => (mono_unpack _ _ _).bind fun _ _ _ => ?_
  split
  · exact .fail
  refine (mono_unpackU _ _ _).bind fun _ _ _ => (mono_unpack _ _ _).bind fun _ _ _ => ?_
  split
  · exact .fail
  split
  · exact .fail
  split
  · exact .fail
  · exact mono_finish _ _ _ _
  split
  · exact .fail
  split
  · exact (h _ _ _).bind fun _ _ _ => mono_finish _ _ _ _
  · exact .fail

theorem mono_decPacket (env : Env) : ∀ (f : Nat) (c : Cls) (m p : Nat), Mono p (decPacket env f c m) := by
  intro f
  induction f with
  | zero => intro c m p; rw [decPacket]; exact .fail
  | succ f ih =>
    intro c m p
    rw [decPacket]
    refine .tell ?_
    split
    · exact .fail
    · refine .sync (by simp) fun len s' _ => mono_packetRest (fun d m p => mono_decBody ?_ _ _ _) _ _ _ _
      intro i fs m p
      exact mono_decNth ih _ _ _ _ _

/-! ### Running -/

/-- Where the search for a header stops, relative to where it started. -/
theorem scanFrom_bounds (buf : Bytes) : ∀ (f s : Nat), s ≤ buf.length →
    match scanFrom buf f s with
    | .found _ s' => s ≤ s' ∧ s' + 16 ≤ buf.length
    | .wait1 s' => (s ≤ s' ∧ s' ≤ buf.length) ∧ (buf.length < s + f → buf.length < s' + 8)
    | .wait2 s' _ => s ≤ s' ∧ s' + 8 ≤ buf.length := by
  intro f
  induction f with
  | zero => intro s hs; exact ⟨⟨Nat.le_refl _, hs⟩, by intro; omega⟩
  | succ f ih =>
    intro s hs
    rw [scanFrom]
    by_cases h8 : buf.length < s + 8
    · rw [if_pos h8]; exact ⟨⟨Nat.le_refl _, hs⟩, by intro; omega⟩
    rw [if_neg h8]
    dsimp only
    by_cases h16 : buf.length < s + 16
    · rw [if_pos h16]; exact ⟨Nat.le_refl _, by omega⟩
    rw [if_neg h16]
    split
    · next heq =>
      split at heq
      · cases heq; exact ⟨Nat.le_refl _, by omega⟩
      · have := ih (s + 1) (by omega); rw [heq] at this; exact ⟨by omega, this.2⟩
    · next heq =>
      split at heq
      · cases heq
      · have := ih (s + 1) (by omega); rw [heq] at this; exact ⟨by omega, fun h => this.2 (by omega)⟩
    · next heq =>
      split at heq
      · cases heq
      · have := ih (s + 1) (by omega); rw [heq] at this; exact ⟨by omega, this.2⟩

theorem scan_bounds (buf : Bytes) (s : Nat) (q : Option Nat)
    (hs : s + (if q.isSome then 8 else 0) ≤ buf.length) :
    match scan buf s q with
    | .found _ s' => s ≤ s' ∧ s' + 16 ≤ buf.length
    | .wait1 s' => s + (if q.isSome then 8 else 0) ≤ s' ∧ s' ≤ buf.length
    | .wait2 s' _ => s ≤ s' ∧ s' + 8 ≤ buf.length := by
  cases q with
  | none =>
    simp at hs
    have := scanFrom_bounds buf (buf.length + 1) s hs
    simp only [scan]
    split <;> next heq => rw [heq] at this; (try simp); first | omega | exact this
  | some q =>
    simp at hs
    rw [scan]
    by_cases h16 : buf.length < s + 16
    · rw [if_pos h16]; exact ⟨Nat.le_refl _, by omega⟩
    rw [if_neg h16]
    dsimp only
    have := scanFrom_bounds buf (buf.length + 1) (s + 1) (by omega)
    split
    · next heq =>
      split at heq
      · cases heq; exact ⟨Nat.le_refl _, by omega⟩
      · rw [heq] at this; exact ⟨by omega, this.2⟩
    · next heq =>
      split at heq
      · cases heq
      · rw [heq] at this
        have := this.2 (by omega)
        exact ⟨by simp; omega, by omega⟩
    · next heq =>
      split at heq
      · cases heq
      · rw [heq] at this; exact ⟨by omega, this.2⟩

/-- Suspended programs: they wait for at least one byte, or search for a header. -/
def Suspended {α : Type} : Dec α → Prop
  | .read n _ => 0 < n
  | .sync _ _ _ => True
  | _ => False

theorem Mono.run {α} (buf : Bytes) {d : Dec α} {p} (h : Mono p d) (hp : p ≤ buf.length) :
    p ≤ (d.run buf p).2 ∧ (d.run buf p).2 ≤ buf.length ∧
    (∀ g, (d.run buf p).1 = .wait g → Mono (d.run buf p).2 g ∧ Suspended g) := by
  induction h with
  | ret => simp [Dec.run, hp]
  | fail => simp [Dec.run, hp]
  | @read p n k hk ih =>
    rw [Dec.run]
    split
    · next hlt => exact ⟨Nat.le_refl _, hp, by rintro g ⟨⟩; exact ⟨.read hk, by show 0 < n; omega⟩⟩
    · next hge =>
      have := ih (window buf p n) (by omega)
      exact ⟨by omega, this.2⟩
  | tell _ ih => rw [Dec.run]; exact ih hp
  | @skip p n k _ ih =>
    rw [Dec.run]
    split
    · have := ih buf.length hp (Nat.le_refl _)
      exact ⟨by omega, this.2⟩
    · have h1 : p ≤ Nat.min buf.length (p + n.toNat) := Nat.le_min.mpr ⟨hp, by omega⟩
      have := ih _ h1 (Nat.min_le_left _ _)
      exact ⟨by omega, this.2⟩
  | @sync p s q k h1 hk ih =>
    rw [Dec.run]
    have := scan_bounds buf s q (h1 ▸ hp)
    split
    · next len s' heq =>
      rw [heq] at this
      have h2 := ih len s' this.1 this.2
      refine ⟨?_, h2.2⟩
      split at h1 <;> omega
    · next heq =>
      rw [heq] at this
      exact ⟨by dsimp only at this ⊢; omega, this.2, by
        rintro g ⟨⟩
        exact ⟨.sync (by simp) fun len s' h => hk len s' (by have := this.1; omega), trivial⟩⟩
    · next heq =>
      rw [heq] at this
      exact ⟨by dsimp only at this ⊢; split at h1 <;> omega, this.2, by
        rintro g ⟨⟩
        exact ⟨.sync (by simp) fun len s' h => hk len s' (by have := this.1; omega), trivial⟩⟩

/-- A suspended program that comes to its end has consumed something. -/
theorem Mono.run_progress {α} (buf : Bytes) {d : Dec α} {p} (h : Mono p d) (hs : Suspended d)
    (hp : p ≤ buf.length) : (∃ g, (d.run buf p).1 = .wait g) ∨ p < (d.run buf p).2 := by
  cases h with
  | ret => exact hs.elim
  | fail => exact hs.elim
  | tell _ => exact hs.elim
  | skip _ => exact hs.elim
  | @read _ n k hk =>
    rw [Dec.run]
    split
    · exact .inl ⟨_, rfl⟩
    · have h2 := (hk (window buf p n)).run buf (by omega)
      have hs : 0 < n := hs
      exact .inr (by omega)
  | @sync _ s q k h1 hk =>
    rw [Dec.run]
    have := scan_bounds buf s q (h1 ▸ hp)
    split
    · next len s' heq =>
      rw [heq] at this
      have h2 := (hk len s' this.1).run buf this.2
      right
      split at h1 <;> omega
    · exact .inl ⟨_, rfl⟩
    · exact .inl ⟨_, rfl⟩

/-! ### The Deserializer -/

/-- The generator is new, or suspended. -/
structure Ready (env : Env) (depth : Nat) (cls : Cls) (st : DState) : Prop where
  pos : st.pos ≤ st.buf.length
  gen : st.gen = freshGen env depth cls ∨ (Mono st.pos st.gen ∧ Suspended st.gen)

theorem Ready.init (env : Env) (depth : Nat) (cls : Cls) : Ready env depth cls (.init env depth cls) :=
  ⟨Nat.le_refl _, .inl rfl⟩

theorem Ready.update {env : Env} {depth : Nat} {cls : Cls} {st : DState} (h : Ready env depth cls st)
    (b : Bytes) : Ready env depth cls (st.update b) :=
  ⟨by have := h.pos; simp [DState.update]; omega, h.gen⟩

theorem Ready.run {env : Env} {depth : Nat} {cls : Cls} {st : DState} (h : Ready env (depth + 1) cls st) :
    st.pos ≤ (st.gen.run st.buf st.pos).2 ∧ (st.gen.run st.buf st.pos).2 ≤ st.buf.length ∧
    (∀ g, (st.gen.run st.buf st.pos).1 = .wait g →
      Mono (st.gen.run st.buf st.pos).2 g ∧ Suspended g) ∧
    ((∃ g, (st.gen.run st.buf st.pos).1 = .wait g) ∨ st.pos < (st.gen.run st.buf st.pos).2) := by
  rcases h.gen with hg | ⟨hm, hs⟩
  · have hm : Mono st.pos st.gen := by rw [hg]; exact mono_decPacket env _ _ _ _
    refine ⟨(hm.run st.buf h.pos).1, (hm.run st.buf h.pos).2.1, (hm.run st.buf h.pos).2.2, ?_⟩
    obtain ⟨k, hk⟩ := fresh_form env depth cls
    rw [hg, hk] at hm ⊢
    cases hm with
    | tell hm =>
      rw [Dec.run]
      exact hm.run_progress st.buf trivial h.pos
  · exact ⟨(hm.run st.buf h.pos).1, (hm.run st.buf h.pos).2.1, (hm.run st.buf h.pos).2.2,
      hm.run_progress st.buf hs h.pos⟩

/-- Each event consumes at least one byte of the stream. -/
theorem Ready.iter {env : Env} {depth : Nat} {cls : Cls} {st : DState} (h : Ready env (depth + 1) cls st) :
    Ready env (depth + 1) cls (st.iter env (depth + 1) cls).2 ∧
    ((st.iter env (depth + 1) cls).1 = none ∨
      (st.iter env (depth + 1) cls).2.buf.length - (st.iter env (depth + 1) cls).2.pos
        < st.buf.length - st.pos) := by
  have hr := h.run
  unfold DState.iter
  dsimp only
  split
  · next g p heq =>
    rw [heq] at hr
    exact ⟨⟨hr.2.1, .inr (hr.2.2.1 g rfl)⟩, .inl rfl⟩
  · next v m p heq =>
    rw [heq] at hr
    refine ⟨⟨Nat.zero_le _, .inl rfl⟩, .inr ?_⟩
    rcases hr.2.2.2 with ⟨g, hg⟩ | hlt
    · cases hg
    · have := hr.2.1
      simp only [List.length_drop, Nat.sub_zero]
      dsimp only at *
      omega
  · next e p heq =>
    rw [heq] at hr
    have h2 := hr.2.1
    rcases hr.2.2.2 with ⟨g, hg⟩ | hlt
    · cases hg
    · dsimp only at *
      split
      · refine ⟨⟨Nat.min_le_left _ _, .inl rfl⟩, .inr ?_⟩
        have : p ≤ Nat.min st.buf.length (p + 1) := Nat.le_min.mpr ⟨h2, by omega⟩
        have := Nat.min_le_left st.buf.length (p + 1)
        omega
      · exact ⟨⟨h2, .inl rfl⟩, .inr (by omega)⟩

theorem Ready.next {env : Env} {depth : Nat} {cls : Cls} : ∀ (f : Nat) (st : DState),
    Ready env (depth + 1) cls st → st.buf.length - st.pos < f →
    (nextLoop env (depth + 1) cls f st).2.2 = true ∧
    Ready env (depth + 1) cls (nextLoop env (depth + 1) cls f st).2.1 ∧
    (nextLoop env (depth + 1) cls f st).1.length
      + ((nextLoop env (depth + 1) cls f st).2.1.buf.length - (nextLoop env (depth + 1) cls f st).2.1.pos)
      ≤ st.buf.length - st.pos := by
  intro f
  induction f with
  | zero => intro st _ h; omega
  | succ f ih =>
    intro st h hf
    have hi := h.iter
    rw [nextLoop]
    split
    · next st' heq =>
      rw [heq] at hi
      have hr := h.run
      refine ⟨rfl, hi.1, ?_⟩
      have hwait : st'.buf = st.buf ∧ st.pos ≤ st'.pos := by
        unfold DState.iter at heq
        dsimp only at heq
        split at heq
        · next heq2 => rw [heq2] at hr; cases heq; exact ⟨rfl, hr.1⟩
        · cases heq
        · cases heq
      rw [hwait.1]
      simp; omega
    · next ev st' heq =>
      rw [heq] at hi
      have hlt := hi.2.resolve_left (by simp)
      obtain ⟨a, b, c⟩ := ih st' hi.1 (by dsimp only at hlt; omega)
      exact ⟨a, b, by dsimp only [List.length_cons] at hlt c ⊢; omega⟩

theorem Ready.ops {env : Env} {depth : Nat} {cls : Cls} : ∀ (ops : List DOp) (st : DState),
    Ready env (depth + 1) cls st → Ready env (depth + 1) cls (runOps env (depth + 1) cls st ops).2 ∧
      (runOps env (depth + 1) cls st ops).1.length
        ≤ (received ops).length + (st.buf.length - st.pos) := by
  intro ops
  induction ops with
  | nil => intro st h; exact ⟨h, by simp [runOps]⟩
  | cons op ops ih =>
    intro st h
    cases op with
    | update b =>
      rw [runOps, received]
      refine ⟨(ih _ (h.update b)).1, ?_⟩
      have := (ih _ (h.update b)).2
      simp only [DState.update, List.length_append] at this ⊢
      have := h.pos
      omega
    | next =>
      rw [runOps, received]
      have hn := Ready.next (st.buf.length + 1) st h (by omega)
      have h2 := ih _ hn.2.1
      refine ⟨h2.1, ?_⟩
      simp only [List.length_append]
      have := h2.2
      have := hn.2.2
      unfold DState.next
      omega

end Verif
