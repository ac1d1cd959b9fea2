import Verif.Model.Bare
/-! # `decode` (PlaygroundStandardPacketEncoder.py:133-136) with common/ReturnOrientedGenerator.py: the loop behind `Deserialize`

`for waitingForStream in g: pass` resumes the decoder again and again on a stream that does not grow. Not modelled: other users of the generator object. -/
namespace Verif

/-- A `ReturnOrientedGenerator` (ReturnOrientedGenerator.py:3-13): the generator, where the stream stands, and `_result`; `none` is GENERATOR_RUNNING. -/
structure Rog (α : Type) where
  gen : Dec α
  pos : Nat
  result : Option α

/-- `__init__` (ReturnOrientedGenerator.py:5-7). -/
def Rog.make {α} (d : Dec α) (pos : Nat) : Rog α := ⟨d, pos, none⟩

/-- What one step of `for x in g` does. -/
inductive Step (α : Type) where
  | yielded (g : Rog α)
  | ended (g : Rog α)
  | raised (e : Err)

/-- One step of the iteration (ReturnOrientedGenerator.py:9-10) over the contents `buf`. -/
def Rog.next {α} (buf : Bytes) (g : Rog α) : Step α := match g.gen.run buf g.pos with
  | (.wait d, p) => .yielded { g with gen := d, pos := p }
  | (.done a, p) => .ended { g with pos := p, result := some a }
  | (.error e, _) => .raised e

/-- The first `n` turns of the loop of `decode`, and then `g.result()`; `none`: it is still running. -/
def Rog.loop {α} (buf : Bytes) : Nat → Rog α → Option (Except Err (Option α))
  | 0, _ => none
  | n + 1, g => match g.next buf with
    | .yielded g' => g'.loop buf n
    | .ended g' => some (.ok g'.result)
    | .raised e => some (.error e)

/-- The first `n` turns of `PacketType.Deserialize(buffer)` (PacketType.py:149-158). -/
def deserializeFor (env : Env) (depth : Nat) (base : Cls) (buffer : Bytes) (n : Nat) : Option (Except Err (Option (Val × Nat))) :=
  (Rog.make (decPacket env depth base 0) 0).loop buffer n

/-- The first `n` turns of `Serializable.Deserialize(buffer)` (PacketType.py:105-111). -/
def bareDeserializeFor (env : Env) (depth : Nat) (ds : FDecls) (buffer : Bytes) (n : Nat) : Option (Except Err (Option (Val × Nat))) :=
  (Rog.make (decT env (decPacket env depth) (.struct ds) none 0) 0).loop buffer n

end Verif
