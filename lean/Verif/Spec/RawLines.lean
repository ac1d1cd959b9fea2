import Verif.Model.RawLines
import Verif.Spec.Lines
/-! # Specification vocabulary for C110 -/
namespace Verif.RawLines
variable {σ : Type}

/-- The handlers never stop the receiver, and it makes no difference to the raw handler how the data are divided: it gives back a part of what it gets, and more of it if
there is more. -/
structure Streams (H : Handler σ) : Prop where
  go : ∀ s s' x y, y ≠ [] → H.raw s x = (s', .go) → H.raw s (x ++ y) = H.raw s' y
  line : ∀ s s' x e y, H.raw s x = (s', .line e) → H.raw s (x ++ y) = (s', .line (e ++ y))
  part : ∀ s s' x e, H.raw s x = (s', .line e) → e.length ≤ x.length
  lineGoes : ∀ s l, (H.line s l).2 ≠ .stop
  rawGoes : ∀ s x, (H.raw s x).2 ≠ .stop

/-- A protocol of lines, each of which is followed by as many raw bytes as it says (as in HTTP). -/
structure Items where
  done : List (Bytes × Bytes)      -- lines with their bodies
  head : Bytes                     -- the last line
  body : Bytes                     -- what there is of its body
  deriving DecidableEq

/-- Such a subclass, where `size` reads the number from the line. -/
def bodies (size : Bytes → Nat) : Handler Items where
  line s l := if size l = 0 then ({ s with done := s.done ++ [(l, [])] }, .go) else (⟨s.done, l, []⟩, .raw)
  raw s x :=
    let need := size s.head - s.body.length
    if x.length < need then ({ s with body := s.body ++ x }, .go)
    else ({ s with done := s.done ++ [(s.head, s.body ++ x.take need)], body := [] }, .line (x.drop need))

/-- What its peer sends for a list of lines with their bodies. -/
def sent (d : Bytes) (l : List (Bytes × Bytes)) : Bytes := l.flatMap fun p => p.1 ++ d ++ p.2

end Verif.RawLines
