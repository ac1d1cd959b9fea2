import Verif.Model.Decode
/-! # `Serializable` objects (network/packet/PacketType.py:94-119): structs that are written and read without a header -/
namespace Verif

/-- `__serialize__` (PacketType.py:113-119) of an object of a class with the fields `ds`. -/
def bareSerialize (env : Env) (ds : FDecls) (fs : FVals) : Except Err Bytes := encV env (.struct fs) (.struct ds)

/-- `Deserialize` (PacketType.py:105-111). `wait`: the Python code spins forever (`decode` ignores the "waiting" yields,
PlaygroundStandardPacketEncoder.py:133-136). There is no limit on sizes at first (`max_size=None`, PlaygroundStandardPacketEncoder.py:32-34). -/
def bareDeserialize (env : Env) (depth : Nat) (ds : FDecls) (buffer : Bytes) : Out (Val × Nat) × Nat :=
  (decT env (decPacket env depth) (.struct ds) none 0).run buffer 0

end Verif
