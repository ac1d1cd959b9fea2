import Verif.Model.Address
import Verif.Spec.IntLit
/-! # Specification of addresses -/
namespace Verif

/-- The address with the four numbers. -/
def addr (z n d i : Nat) : Addr := ⟨.num z, .num n, .num d, .num i⟩

/-- `"z.n.d.i"` for given strings. -/
def dotted (z n d i : Str) : Str := z ++ '.' :: (n ++ '.' :: (d ++ '.' :: i))

/-- `s` denotes the part `p` of an address: an integer literal of non-negative value. -/
def DenotesNum (s : Str) (p : APart) : Prop := ∃ n : Nat, p = .num n ∧ IntLit s n ∧ '.' ∉ s

/-- `s` denotes the part `p` of a block: `*` or an integer literal of non-negative value. -/
def DenotesBlock (s : Str) (p : APart) : Prop := (s = ['*'] ∧ p = .star) ∨ DenotesNum s p

/-- A block that can occur: every part is a wild card or a non-negative number. -/
def Addr.Valid (a : Addr) : Prop := ∀ p ∈ a.parts, p = .star ∨ ∃ n : Nat, p = .num n

/-- The `k`-th part. -/
def Addr.at (a : Addr) : Fin 4 → APart
  | 0 => a.zone
  | 1 => a.network
  | 2 => a.device
  | 3 => a.index

end Verif
