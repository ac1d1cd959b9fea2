import Verif.Lemmas.IntLit
import Verif.Model.Version
import Verif.Model.Types
/-! # C22: version strings -/
namespace Verif

/-- C22. Printing a version and reading it back gives the version. -/
theorem C22_roundtrip (v : Ver) : Ver.fromString v.str = .ok v := by
  unfold Ver.fromString Ver.str
  have h : splitOn '.' (intStr v.major ++ ['.'] ++ intStr v.minor) = [intStr v.major, intStr v.minor] := by
    have h1 : ∀ i, '.' ∉ intStr i := fun i => intStr_no i '.' (.inl rfl)
    rw [List.append_assoc, List.singleton_append, splitOn_append (h1 _), splitOn_single (h1 _)]
  rw [h]
  dsimp only
  rw [pyInt_intStr, pyInt_intStr]

/-- C22. `FromString` accepts exactly two integer literals with a dot between them. -/
theorem C22_accepts_iff (s : Str) (v : Ver) : Ver.fromString s = .ok v ↔
    ∃ a b, '.' ∉ a ∧ '.' ∉ b ∧ s = a ++ '.' :: b ∧ IntLit a v.major ∧ IntLit b v.minor := by
  constructor
  · intro h
    have hj := join_split '.' s
    have hn := splitOn_no_sep (c := '.') (s := s)
    unfold Ver.fromString at h
    split at h
    · next a b hs =>
      rw [hs] at hj hn
      split at h
      · next x y hx hy =>
        cases h
        exact ⟨a, b, hn a (by simp), hn b (by simp), by rw [← hj]; rfl, (pyInt_iff _ _).mp hx, (pyInt_iff _ _).mp hy⟩
      · cases h
    · cases h
  · rintro ⟨a, b, ha, hb, rfl, h1, h2⟩
    unfold Ver.fromString
    rw [splitOn_append ha, splitOn_single hb]
    dsimp only
    rw [(pyInt_iff _ _).mpr h1, (pyInt_iff _ _).mpr h2]

/-- C22. Everything else raises `AttributeError`. -/
theorem C22_rejects (s : Str) (h : ∀ v, Ver.fromString s ≠ .ok v) : Ver.fromString s = .error .attribute := by
  unfold Ver.fromString at *
  split at h
  · split at h
    · next x y hx hy => exact absurd rfl (h _)
    · next hn =>
      rfl
  · rfl

/-- C22. The codec's version is this one: it reads what this one reads, and prints the same. -/
theorem C22_codec (s : Str) (v : Version) : (Version.fromString s = some v ↔ Ver.fromString s = .ok ⟨v.major, v.minor⟩) ∧ v.toStr = (⟨v.major, v.minor⟩ : Ver).str ∧
    Version.fromString v.toStr = some v := by
  have h1 : ∀ (s : Str) (v : Version), Version.fromString s = some v ↔ Ver.fromString s = .ok ⟨v.major, v.minor⟩ := by
    intro s v
    obtain ⟨a, b⟩ := v
    unfold Version.fromString Ver.fromString
    match splitOn '.' s with
    | [] => simp
    | [_] => simp
    | [x, y] =>
      dsimp only
      cases pyInt x <;> cases pyInt y <;> simp
    | _ :: _ :: _ :: _ => simp
  have h2 : v.toStr = (⟨v.major, v.minor⟩ : Ver).str := by simp [Version.toStr, Ver.str]
  exact ⟨h1 s v, h2, (h1 _ _).mpr (by rw [h2]; exact C22_roundtrip _)⟩

example : Ver.fromString "12.-3".toList = .ok ⟨12, -3⟩ := by rfl
example : Ver.fromString "1.2.3".toList = .error .attribute := by rfl
/-- Different strings can name the same version. -/
example : Ver.fromString " 01.1_0".toList = Ver.fromString "1.10".toList := by rfl

end Verif
