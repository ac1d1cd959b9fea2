import Verif.Model.Bytes
/-! # common/io/ui/CLIShell.py: `LineReceiver`

In line mode, with any delimiter and maximal length. `why` says for which lines the handler `line_received` returns something that counts
as true (or the transport is disconnecting afterwards). The handler does not call `data_received` or change the mode. -/
namespace Verif.Lines

structure St where
  buffer : Bytes                   -- _buffer
  lines : List Bytes               -- the lines given to line_received
  exceeded : List Bytes            -- the data given to lineLengthExceeded
  deriving DecidableEq

def St.init : St := ⟨[], [], []⟩

/-- The first occurrence of `d` in `b`: what is before and after it. -/
def cutAt (d : Bytes) : Bytes → Option (Bytes × Bytes)
  | [] => if d.isPrefixOf [] then some ([], []) else none
  | x :: b => if d.isPrefixOf (x :: b) then some ([], (x :: b).drop d.length)
    else match cutAt d b with
      | none => none
      | some (l, r) => some (x :: l, r)

/-- `self._buffer.split(self.delimiter, 1)` (CLIShell.py:394-396); `none`: `ValueError`, from the unpacking of a list of one element, or
because the delimiter is empty. -/
def splitOnce (d b : Bytes) : Option (Bytes × Bytes) := if d = [] then none else cutAt d b

/-- The loop (CLIShell.py:391-412), at most `fuel` turns. -/
def loop (d : Bytes) (max : Nat) (why : Bytes → Bool) : Nat → St → St
  | 0, s => s
  | fuel + 1, s =>
    if s.buffer = [] then s
    else match splitOnce d s.buffer with
      | none => if s.buffer.length > max then { s with buffer := [], exceeded := s.exceeded ++ [s.buffer] } else s
      | some (line, rest) =>
        if line.length > max then { s with buffer := [], exceeded := s.exceeded ++ [line ++ d ++ rest] }
        else if why line then { s with buffer := rest, lines := s.lines ++ [line] }
        else loop d max why fuel { s with buffer := rest, lines := s.lines ++ [line] }

/-- `data_received` (CLIShell.py:378-419). Each turn shortens the buffer, so that the fuel is enough (`loop_fuel`). -/
def dataReceived (d : Bytes) (max : Nat) (why : Bytes → Bool) (s : St) (data : Bytes) : St :=
  loop d max why ((s.buffer ++ data).length + 1) { s with buffer := s.buffer ++ data }

/-- `sendLine` (CLIShell.py:457-463): what is written. -/
def sendLine (d line : Bytes) : Bytes := line ++ d

/-- A sequence of chunks. -/
def receive (d : Bytes) (max : Nat) (why : Bytes → Bool) : St → List Bytes → St
  | s, [] => s
  | s, c :: cs => receive d max why (dataReceived d max why s c) cs

end Verif.Lines
