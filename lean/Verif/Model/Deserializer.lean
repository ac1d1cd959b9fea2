import Verif.Model.Decode
/-!
# `PacketType.Deserializer` (PacketType.py:174-225) over its own `UpdateableBytesIO`
-/
namespace Verif

/-- State of a `ConcreteDeserializer`: the stream (contents and position) and the current
generator. PacketType.py:177-184. -/
structure DState where
  buf : Bytes
  pos : Nat
  gen : Dec (Val × Nat)

/-- What `nextPackets()` shows to the outside: a packet yielded, or an exception passed to the
error handler (PacketType.py:213, 221). -/
inductive Event where
  | packet (v : Val)
  | error (e : Err)
  deriving DecidableEq

/-- A new generator `cls.DeserializeStream(stream)` (PacketType.py:160-172). The `isinstance` check
of lines 170-171 cannot fail: `setData` (ComplexFieldType.py:25-28) has already checked it. -/
def freshGen (env : Env) (depth : Nat) (cls : Cls) : Dec (Val × Nat) := decPacket env depth cls 0

def DState.init (env : Env) (depth : Nat) (cls : Cls) : DState := ⟨[], 0, freshGen env depth cls⟩

/-- `update(buffer)` (PacketType.py:186-187, HighPerformanceStreamIO.py:19-23): append at the end,
position unchanged. -/
def DState.update (st : DState) (b : Bytes) : DState := { st with buf := st.buf ++ b }

/-- One iteration of the `while` loop of `nextPackets` (PacketType.py:194-221); `none` = exhausted. -/
def DState.iter (env : Env) (depth : Nat) (cls : Cls) (st : DState) : Option Event × DState :=
  let pfx := window st.buf st.pos 8
  match st.gen.run st.buf st.pos with
  | (.wait g, p) => (none, { st with pos := p, gen := g })
  | (.done (v, _), p) => (some (.packet v), ⟨st.buf.drop p, 0, freshGen env depth cls⟩)
  | (.error e, p) =>
    let p' := if window st.buf p 8 = pfx then Nat.min st.buf.length (p + 1) else p
    (some (.error e), { st with pos := p', gen := freshGen env depth cls })

/-- `nextPackets()` run to exhaustion; the fuel bounds the number of iterations. The last component
tells whether the loop came to its end (it always does: `nextPackets_terminates`). -/
def nextLoop (env : Env) (depth : Nat) (cls : Cls) : Nat → DState → List Event × DState × Bool
  | 0, st => ([], st, false)
  | f + 1, st =>
    match st.iter env depth cls with
    | (none, st') => ([], st', true)
    | (some ev, st') =>
      let r := nextLoop env depth cls f st'
      (ev :: r.1, r.2)

def DState.next (env : Env) (depth : Nat) (cls : Cls) (st : DState) : List Event × DState × Bool :=
  nextLoop env depth cls (st.buf.length + 1) st

/-- Calls a user can make. -/
inductive DOp where
  | update (b : Bytes)
  | next

/-- Run a history of calls; all events in order, and the final state. -/
def runOps (env : Env) (depth : Nat) (cls : Cls) : DState → List DOp → List Event × DState
  | st, [] => ([], st)
  | st, .update b :: ops => runOps env depth cls (st.update b) ops
  | st, .next :: ops =>
    let r := st.next env depth cls
    let r' := runOps env depth cls r.2.1 ops
    (r.1 ++ r'.1, r'.2)

/-- All bytes handed to `update`. -/
def received : List DOp → Bytes
  | [] => []
  | .update b :: ops => b ++ received ops
  | .next :: ops => received ops

end Verif
