import Verif.Model.Bytes
/-!
# common/io/HighPerformanceStreamIO.py: the two update streams
-/
namespace Verif

/-- An `io.BytesIO` / `UpdateableBytesIO`: contents and position. HighPerformanceStreamIO.py:18. -/
structure Bio where
  buf : Bytes
  pos : Nat
  deriving DecidableEq, Repr

namespace Bio

/-- `UpdateableBytesIO.available` (HighPerformanceStreamIO.py:32-36); negative if the position is
beyond the end. -/
def available (s : Bio) : Int := (s.buf.length : Int) - s.pos

/-- `io.BytesIO.write(data)`: overwrite from the position on, extend at the end (a gap is filled with
zeros), position behind the data. -/
def write (s : Bio) (d : Bytes) : Bio :=
  if d = [] then s else
  ⟨s.buf.take s.pos ++ List.replicate (s.pos - s.buf.length) 0 ++ d ++ s.buf.drop (s.pos + d.length),
   s.pos + d.length⟩

/-- `UpdateableBytesIO.update` (HighPerformanceStreamIO.py:19-23): seek to the end, write, seek back. -/
def update (s : Bio) (d : Bytes) : Bio :=
  let before := s.pos
  let s := { s with pos := s.buf.length }
  let s := s.write d
  { s with pos := before }

/-- `io.BytesIO.read(size)`: everything that is left when `size` is negative. -/
def read (s : Bio) (size : Int) : Bytes × Bio :=
  let n := if size < 0 then s.buf.length - s.pos else min size.toNat (s.buf.length - s.pos)
  ((s.buf.drop s.pos).take n, { s with pos := s.pos + n })

/-- `UpdateableBytesIO.peek(size=-1)` (HighPerformanceStreamIO.py:25-30). The slice
`[tell:tell+size]` of `getbuffer()` is empty when the position is beyond the end. -/
def peek (s : Bio) (size : Int) : Bytes :=
  let size := if size ≤ 0 then s.available else size
  (s.buf.drop s.pos).take size.toNat

end Bio

/-- `MinimumCopyingStreamIO` in non-seekable mode: `__buffers` zipped with `__bufferPos`,
`__streamEnd`, `__streamPosition`. HighPerformanceStreamIO.py:60-73 (the two lists always have the
same length). Seekable mode and `close` are in Model/Seekable.lean; `readinto` is not modelled. -/
structure MinCopy where
  bufs : List (Nat × Bytes)
  streamEnd : Nat
  pos : Nat
  deriving DecidableEq, Repr

namespace MinCopy

/-- `__init__(initialBuffer, seekable=False)` (HighPerformanceStreamIO.py:60-73). -/
def init : Option Bytes → MinCopy
  | none => ⟨[], 0, 0⟩
  | some b => ⟨[(0, b)], b.length, 0⟩

/-- The loop of `__calculateBufferAndOffset` (HighPerformanceStreamIO.py:80-85), `i` being the index
of the first buffer of the list. -/
def findBuf (position : Nat) : List (Nat × Bytes) → Nat → Option (Nat × Nat)
  | [], _ => none
  | (bp, b) :: r, i =>
    if bp + b.length > position then some (i, position - bp) else findBuf position r (i + 1)

/-- `__calculateBufferAndOffset` (HighPerformanceStreamIO.py:75-85); `none` = `(-1, -1)`. -/
def locate (s : MinCopy) (position : Nat) : Option (Nat × Nat) :=
  match s.bufs with
  | [] => none
  | (bp, _) :: _ => if bp > position then none else findBuf position s.bufs 0

/-- `update` (HighPerformanceStreamIO.py:87-90). -/
def update (s : MinCopy) (d : Bytes) : MinCopy :=
  ⟨s.bufs ++ [(s.streamEnd, d)], s.streamEnd + d.length, s.pos⟩

/-- `available` (HighPerformanceStreamIO.py:190-191). -/
def available (s : MinCopy) : Int := (s.streamEnd : Int) - s.pos

/-- The loop of `peek` (HighPerformanceStreamIO.py:146-150) over *all* buffers. -/
def gather : List (Nat × Bytes) → Nat → Bytes
  | [], _ => []
  | (_, b) :: r, size =>
    if size = 0 then []
    else
      let piece := if b.length < size then b else b.take size
      piece ++ gather r (size - piece.length)

/-- `peek(size)` (HighPerformanceStreamIO.py:115-153) for `size = -1` or `size ≥ 0`. `none` stands
for the *string* `''` returned on line 117. Simplification: sizes below -1 are treated as -1. -/
def peek (s : MinCopy) (size : Int) : Option Bytes :=
  match s.locate s.pos with
  | none => none
  | some (i, off) =>
    let first := ((s.bufs[i]?).map (·.2)).getD []
    if size < 0 then
      some (first.drop off ++ ((s.bufs.drop (i + 1)).map (·.2)).flatten)
    else
      -- `size <= self.available() and size or self.available()`: 0 means everything
      let size := if size ≤ s.available ∧ size ≠ 0 then size else s.available
      let piece := (first.drop off).take size.toNat
      some (piece ++ gather s.bufs (size.toNat - piece.length))

/-- `read(size)` (HighPerformanceStreamIO.py:173-185), non-seekable: used buffers are released. -/
def read (s : MinCopy) (size : Int) : Option Bytes × MinCopy :=
  let data := s.peek size
  let pos := s.pos + (data.getD []).length
  let bufs := match MinCopy.locate ⟨s.bufs, s.streamEnd, pos⟩ pos with
    | none => []
    | some (i, _) => s.bufs.drop i
  (data, ⟨bufs, s.streamEnd, pos⟩)

end MinCopy

end Verif
