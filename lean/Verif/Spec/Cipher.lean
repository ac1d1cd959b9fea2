import Verif.Model.Cipher
/-! # What is assumed of the primitives -/
namespace Verif.Cipher

/-- Decryption of a block inverts its encryption. -/
structure GoodBlock (B : Block) : Prop where
  length : ∀ b, b.length = 16 → (B.enc b).length = 16
  inverse : ∀ b, b.length = 16 → B.dec (B.enc b) = b

/-- Tags have the announced length and verify. -/
structure GoodMac (M : Mac) : Prop where
  length : ∀ c, (M.mac c).length = M.size
  verify : ∀ c, M.verify c (M.mac c) = true

end Verif.Cipher
