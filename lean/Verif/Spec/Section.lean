import Verif.Model.Section
/-! # Specification vocabulary for C96 -/
namespace Verif.Section

/-- The operations that `ConfigSectionAdapter` provides itself, without `del`; and `get`. -/
def plain : Op → Bool
  | .getItem _ | .get _ | .iter | .contains _ | .len | .setItem _ _ | .save | .isReadOnly => true
  | _ => false

/-- The history without what goes through read-only views. -/
def writers (h : List (Bool × Op)) : List (Bool × Op) := h.filter fun x => !x.1

end Verif.Section
