import Verif.Model.Unreliable
/-! # Specification of the unreliable transports -/
namespace Verif.Unrel

/-- The data, starting at offset `off`, with the bytes at the offsets in `S` inverted. -/
def flip (S : Nat → Prop) [DecidablePred S] (off : Nat) (w : Bytes) : Bytes := w.mapIdx fun i b => if S (off + i) then b ^^^ 0xFF else b

/-- The offsets drawn for period `j`: each period draws `errors` numbers. -/
def Sel (rnd : Nat → Nat → Nat) (cfg : Settings) (j p : Nat) : Prop := ∃ i, i < cfg.errors ∧ rnd (j * cfg.errors + i) cfg.horizon = p

instance (rnd : Nat → Nat → Nat) (cfg : Settings) (j : Nat) : DecidablePred (Sel rnd cfg j) := fun p =>
  decidable_of_iff (∃ i ∈ List.range cfg.errors, rnd (j * cfg.errors + i) cfg.horizon = p) (by simp [Sel])

/-- What is written: in period `j`, of which `off` bytes have been written. A period ends with the write that exceeds the horizon. -/
def expected (rnd : Nat → Nat → Nat) (cfg : Settings) : Nat → Nat → List Bytes → List Bytes
  | _, _, [] => []
  | j, off, w :: ws => flip (Sel rnd cfg j) off w ::
      (if off + w.length > cfg.horizon then expected rnd cfg (j + 1) 0 ws else expected rnd cfg j (off + w.length) ws)

/-- The writes that are not delayed. -/
def direct : List DEv → List Bytes
  | [] => []
  | .write d false :: h => d :: direct h
  | _ :: h => direct h

/-- All writes. -/
def allWrites : List DEv → List Bytes
  | [] => []
  | .write d _ :: h => d :: allWrites h
  | .timer _ :: h => allWrites h

end Verif.Unrel
