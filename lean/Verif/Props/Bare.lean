import Verif.Lemmas.Bare
import Verif.Spec.Example
/-! # C98 `Serializable` objects -/
namespace Verif

/-- C98. What `__serialize__` of an object accepts, `Deserialize` of its class gives back, whatever follows the bytes; provided that its strings are ASCII and its floats in
fields of 32 bits singles, that packets in it are not nested too deep, and that behind a packet no string or buffer is longer than that packet. -/
theorem C98_roundtrip_partial {env : Env} (hr : env.Registered) {depth : Nat} {ds : FDecls} {fs : FVals} {b : Bytes} {m : Nat}
    (ha : acceptsF env fs ds = true) (hb : bareSerialize env ds fs = .ok b) (has : asciiF fs = true) (hd : depthF fs ≤ depth)
    (hl : limUF (serLen env) 0 fs = some m) (tail : Bytes) :
    bareDeserialize env depth ds (b ++ tail) = (.done (.struct fs, m), b.length) := by
  have h := (rtU_V hr (.struct fs) (.struct ds) b depth 0 m 0 hb (by rw [accepts]; exact ha) (by rw [asciiV]; exact has) (by rw [depthV]; exact hd)
    (by rw [limUV]; exact hl) (.inl rfl)).1
  have := h.run [] tail rfl
  simp only [List.nil_append, Nat.zero_add] at this
  exact this

mutual
theorem limUV_flat (len : Val → Nat) : ∀ v, flatV v = true → limUV len 0 v = some 0
  | .num _, _ => by rw [limUV] <;> simp
  | .float _ _, _ => by rw [limUV] <;> simp
  | .bool _, _ => by rw [limUV] <;> simp
  | .str _, _ => by simp [limUV]
  | .buf _, _ => by simp [limUV]
  | .list vs, h => by rw [limUV]; exact limUL_flat len vs (by simpa [flatV] using h)
  | .struct fs, h => by rw [limUV]; exact limUF_flat len fs (by simpa [flatV] using h)
  | .packet _ _, h => by simp [flatV] at h
theorem limUL_flat (len : Val → Nat) : ∀ vs, flatL vs = true → limUL len 0 vs = some 0
  | .nil, _ => by rw [limUL]
  | .cons v r, h => by
    rw [flatL, Bool.and_eq_true] at h
    rw [limUL, limUV_flat len v h.1]
    exact limUL_flat len r h.2
theorem limUF_flat (len : Val → Nat) : ∀ fs, flatF fs = true → limUF len 0 fs = some 0
  | .nil, _ => by rw [limUF]
  | .unset r, h => by rw [limUF]; exact limUF_flat len r (by simpa [flatF] using h)
  | .set v r, h => by
    rw [flatF, Bool.and_eq_true] at h
    rw [limUF, limUV_flat len v h.1]
    exact limUF_flat len r h.2
end

mutual
theorem depthV_flat : ∀ v, flatV v = true → depthV v = 0
  | .num _, _ => by rw [depthV] <;> simp
  | .float _ _, _ => by rw [depthV] <;> simp
  | .bool _, _ => by rw [depthV] <;> simp
  | .str _, _ => by rw [depthV] <;> simp
  | .buf _, _ => by rw [depthV] <;> simp
  | .list vs, h => by rw [depthV]; exact depthL_flat vs (by simpa [flatV] using h)
  | .struct fs, h => by rw [depthV]; exact depthF_flat fs (by simpa [flatV] using h)
  | .packet _ _, h => by simp [flatV] at h
theorem depthL_flat : ∀ vs, flatL vs = true → depthL vs = 0
  | .nil, _ => by rw [depthL]
  | .cons v r, h => by
    rw [flatL, Bool.and_eq_true] at h
    rw [depthL, depthV_flat v h.1, depthL_flat r h.2]; rfl
theorem depthF_flat : ∀ fs, flatF fs = true → depthF fs = 0
  | .nil, _ => by rw [depthF]
  | .unset r, h => by rw [depthF]; exact depthF_flat r (by simpa [flatF] using h)
  | .set v r, h => by
    rw [flatF, Bool.and_eq_true] at h
    rw [depthF, depthV_flat v h.1, depthF_flat r h.2]; rfl
end

/-- C98 for objects without packets in them: no size and no nesting of structs and lists matters. -/
theorem C98_flat_partial {env : Env} (hr : env.Registered) {depth : Nat} {ds : FDecls} {fs : FVals} {b : Bytes}
    (ha : acceptsF env fs ds = true) (hb : bareSerialize env ds fs = .ok b) (has : asciiF fs = true) (hf : flatF fs = true) (tail : Bytes) :
    bareDeserialize env depth ds (b ++ tail) = (.done (.struct fs, 0), b.length) :=
  C98_roundtrip_partial hr ha hb has (by rw [depthF_flat fs hf]; exact Nat.zero_le _) (limUF_flat _ fs hf) tail

/-- C98. On a part of the bytes, `Deserialize` neither returns nor raises: it waits for ever. -/
theorem C98_truncated {env : Env} (hr : env.Registered) {depth : Nat} {ds : FDecls} {fs : FVals} {got miss : Bytes} {m : Nat}
    (ha : acceptsF env fs ds = true) (hb : bareSerialize env ds fs = .ok (got ++ miss)) (has : asciiF fs = true) (hd : depthF fs ≤ depth)
    (hl : limUF (serLen env) 0 fs = some m) (hm : miss ≠ []) : ∃ d, (bareDeserialize env depth ds got).1 = .wait d := by
  have h := (rtU_V hr (.struct fs) (.struct ds) _ depth 0 m 0 hb (by rw [accepts]; exact ha) (by rw [asciiV]; exact has) (by rw [depthV]; exact hd)
    (by rw [limUV]; exact hl) (.inl rfl)).1
  obtain ⟨d', used, hv, _, e2, _⟩ := h.run_partial [] got miss rfl rfl hm
  refine ⟨d', ?_⟩
  rw [List.nil_append] at e2
  rw [bareDeserialize, e2]

/-! ## Cases -/

/-- A struct in a list, a string, a buffer. -/
def bareFields : FDecls := .cons "l" none false (.list (.struct (.cons "x" none false .bool .nil))) (.cons "s" none true .str (.cons "b" none false .buf .nil))
def bareVals : FVals := .set (.list (.cons (.struct (.set (.bool true) .nil)) .nil)) (.unset (.set (.buf [1, 2, 3]) .nil))

example : ∃ b, acceptsF Ex.env bareVals bareFields = true ∧ bareSerialize Ex.env bareFields bareVals = .ok b ∧ b.length = 24 ∧ asciiF bareVals = true ∧ flatF bareVals = true := by
  refine ⟨_, by decide +kernel, rfl, by decide +kernel, by decide +kernel, by decide +kernel⟩

/-- With a packet in it, and a buffer behind it. -/
def nestFields : FDecls := .cons "p" none false (.packet 0) (.cons "b" none false .buf .nil)

example : acceptsF Ex.env (.set Ex.p1' (.set (.buf [1, 2, 3]) .nil)) nestFields = true ∧
    (bareSerialize Ex.env nestFields (.set Ex.p1' (.set (.buf [1, 2, 3]) .nil))).isOk = true ∧
    (limUF (serLen Ex.env) 0 (.set Ex.p1' (.set (.buf [1, 2, 3]) .nil))).isSome = true := by decide +kernel

/-- The bytes of an object (none if it is refused). -/
def bareBytes (ds : FDecls) (fs : FVals) : Bytes := match bareSerialize Ex.env ds fs with
  | .ok b => b
  | .error _ => []

/-- C98 is false for other strings: the bytes of `"éa"` are read as those of `"é"`. -/
theorem C98_false_string : ∃ fs fs' b, fs ≠ fs' ∧ acceptsF Ex.env fs (.cons "s" none false .str .nil) = true ∧
    bareSerialize Ex.env (.cons "s" none false .str .nil) fs = .ok b ∧
    Ex.result (bareDeserialize Ex.env 1 (.cons "s" none false .str .nil) b) = some (.struct fs') := by
  refine ⟨.set (.str ['é', 'a']) .nil, .set (.str ['é']) .nil, bareBytes (.cons "s" none false .str .nil) (.set (.str ['é', 'a']) .nil), by decide, by decide +kernel, rfl, by decide +kernel⟩

/-- C98 is false behind a packet: a buffer that is longer than the packet before it makes `Deserialize` raise; with the buffer first, it does not. -/
theorem C98_false_nested : acceptsF Ex.env (.set Ex.p1' (.set (.buf (List.replicate 40 7)) .nil)) nestFields = true ∧
    (bareSerialize Ex.env nestFields (.set Ex.p1' (.set (.buf (List.replicate 40 7)) .nil))).isOk = true ∧
    Ex.failure (bareDeserialize Ex.env 5 nestFields (bareBytes nestFields (.set Ex.p1' (.set (.buf (List.replicate 40 7)) .nil)))) ≠ none ∧
    Ex.result (bareDeserialize Ex.env 5 (.cons "b" none false .buf (.cons "p" none false (.packet 0) .nil))
      (bareBytes (.cons "b" none false .buf (.cons "p" none false (.packet 0) .nil)) (.set (.buf (List.replicate 40 7)) (.set Ex.p1' .nil)))) =
      some (.struct (.set (.buf (List.replicate 40 7)) (.set Ex.p1' .nil))) := by decide +kernel

end Verif
