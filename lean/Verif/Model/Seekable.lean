import Verif.Model.StreamIO
/-! # common/io/HighPerformanceStreamIO.py: `MinimumCopyingStreamIO(initialBuffer, seekable=True)`

The buffers, `__calculateBufferAndOffset` and the loop of `peek` are those of Model/StreamIO.lean; here nothing is released,
the position can be set, also behind the end or below zero, and the stream can be closed. -/
namespace Verif.Seekable
open Verif (MinCopy)

/-- The object (HighPerformanceStreamIO.py:60-73) with `__seekable = True`. -/
structure Stream where
  bufs : List (Nat × Bytes)
  streamEnd : Nat
  pos : Int
  closed : Bool
  deriving DecidableEq, Repr

/-- What a call gives. -/
inductive Out where
  | data (d : Bytes)     -- `bytes`
  | text                 -- the string `''`
  | num (n : Int)
  | nothing              -- `None`
  | raised
  deriving DecidableEq, Repr

inductive Op where
  | update (d : Bytes)
  | read (n : Int)
  | peek (n : Int)
  | seek (offset whence : Int)
  | tell
  | available
  | close
  deriving DecidableEq, Repr

/-- `__init__` (HighPerformanceStreamIO.py:60-73). -/
def init : Option Bytes → Stream
  | none => ⟨[], 0, 0, false⟩
  | some b => ⟨[(0, b)], b.length, 0, false⟩

/-- `__calculateBufferAndOffset` (HighPerformanceStreamIO.py:75-85); `none` is `(-1, -1)`. A negative position is before the first
buffer. -/
def locate (s : Stream) : Option (Nat × Nat) :=
  if s.pos < 0 then none else MinCopy.locate ⟨s.bufs, s.streamEnd, 0⟩ s.pos.toNat

/-- `available` (HighPerformanceStreamIO.py:190-191). -/
def available (s : Stream) : Int := s.streamEnd - s.pos

/-- `size <= self.available() and size or self.available()` (HighPerformanceStreamIO.py:143). -/
def clip (s : Stream) (n : Int) : Int := if n ≤ available s ∧ n ≠ 0 then n else available s

/-- `peek` (HighPerformanceStreamIO.py:115-153), for sizes from -1 on; `none` is the string `''` of line 117.
Simplification: smaller sizes are treated as -1. -/
def peek (s : Stream) (n : Int) : Option Bytes :=
  match locate s with
  | none => none
  | some (i, off) =>
    let first := ((s.bufs[i]?).map (·.2)).getD []
    if n < 0 then some (first.drop off ++ ((s.bufs.drop (i + 1)).map (·.2)).flatten)
    else
      let piece := (first.drop off).take (clip s n).toNat
      some (piece ++ MinCopy.gather s.bufs ((clip s n).toNat - piece.length))

def out : Option Bytes → Out
  | some d => .data d
  | none => .text

/-- `seek` (HighPerformanceStreamIO.py:193-208); line 202 adds `whence`, which is 1. Another `whence` leaves the new position
undefined, so line 208 raises. -/
def seek (s : Stream) (offset whence : Int) : Out × Stream :=
  if s.closed then (.raised, s)
  else if whence = 0 then
    if offset < 0 then (.raised, s) else (.nothing, { s with pos := offset })
  else if whence = 1 then (.nothing, { s with pos := s.pos + whence })
  else if whence = 2 then (.nothing, { s with pos := if s.bufs = [] then 0 else s.streamEnd + offset })
  else (.raised, s)

/-- One call: `update` (87-90), `read` (173-185, the branch 176 is not taken), `peek`, `seek`, `tell` (210-213), `available`,
`close` (92-96). Only `seek` looks at `__closed`. -/
def step (s : Stream) : Op → Out × Stream
  | .update d => (.nothing, { s with bufs := s.bufs ++ [(s.streamEnd, d)], streamEnd := s.streamEnd + d.length })
  | .read n => (out (peek s n), { s with pos := s.pos + ((peek s n).getD []).length })
  | .peek n => (out (peek s n), s)
  | .seek o w => seek s o w
  | .tell => (.num s.pos, s)
  | .available => (.num (available s), s)
  | .close => (.nothing, { s with bufs := [], closed := true })

/-- A program that uses the stream: the results of its calls, and the stream behind it. -/
def run (s : Stream) : List Op → List Out × Stream
  | [] => ([], s)
  | o :: h => ((step s o).1 :: (run (step s o).2 h).1, (run (step s o).2 h).2)

end Verif.Seekable
