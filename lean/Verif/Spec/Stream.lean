import Verif.Model.StreamIO
/-! # Specification of an update stream: a queue of bytes -/
namespace Verif

/-- Calls on an update stream. -/
inductive SOp where
  | update (d : Bytes)
  | read (size : Int)
  | peek (size : Int)
  deriving DecidableEq

/-- How many bytes a request for `size` bytes gets from a queue holding `n` (negative: all). -/
def wanted (size : Int) (n : Nat) : Nat := if size < 0 then n else min size.toNat n

/-- A queue of bytes: results of `read`/`peek`, and the bytes left. -/
def fifo : Bytes → List SOp → List Bytes × Bytes
  | q, [] => ([], q)
  | q, .update d :: ops => fifo (q ++ d) ops
  | q, .read n :: ops =>
    let r := fifo (q.drop (wanted n q.length)) ops
    (q.take (wanted n q.length) :: r.1, r.2)
  | q, .peek n :: ops =>
    let r := fifo q ops
    (q.take (wanted n q.length) :: r.1, r.2)

/-- The standard stream: results, and the final stream. -/
def Bio.ops : Bio → List SOp → List Bytes × Bio
  | s, [] => ([], s)
  | s, .update d :: ops => Bio.ops (s.update d) ops
  | s, .read n :: ops => let r := Bio.ops (s.read n).2 ops; ((s.read n).1 :: r.1, r.2)
  | s, .peek n :: ops => let r := Bio.ops s ops; (s.peek n :: r.1, r.2)

/-- The minimum copying stream: results (`none` = the string `''`), and the final stream. -/
def MinCopy.ops : MinCopy → List SOp → List (Option Bytes) × MinCopy
  | s, [] => ([], s)
  | s, .update d :: ops => MinCopy.ops (s.update d) ops
  | s, .read n :: ops => let r := MinCopy.ops (s.read n).2 ops; ((s.read n).1 :: r.1, r.2)
  | s, .peek n :: ops => let r := MinCopy.ops s ops; (s.peek n :: r.1, r.2)

/-- All bytes given to `update`. -/
def updated : List SOp → Bytes
  | [] => []
  | .update d :: ops => d ++ updated ops
  | _ :: ops => updated ops

/-- What the reads return: from the list of results select those of `read`. -/
def readResults : List SOp → List Bytes → Bytes
  | .update _ :: ops, rs => readResults ops rs
  | .read _ :: ops, r :: rs => r ++ readResults ops rs
  | .peek _ :: ops, _ :: rs => readResults ops rs
  | _, _ => []

end Verif
