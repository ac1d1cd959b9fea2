import Verif.Model.Lines
/-! # common/io/ui/CLIShell.py:346-463: `LineReceiver` with raw mode

A subclass: what `line_received` and `rawDataReceived` do to its state, and whether they change the mode. `line_received` calls `setLineMode` with no data (as its comment
asks for); `rawDataReceived` may give it back what belongs to the lines. -/
namespace Verif.RawLines
open Lines (splitOnce)

/-- What `line_received` does at the end. -/
inductive LineAct where
  | go
  | raw                            -- `setRawMode()`
  | stop                           -- it returns something that counts as true
  deriving DecidableEq

/-- What `rawDataReceived` does at the end. -/
inductive RawAct where
  | go
  | line (extra : Bytes)           -- `setLineMode(extra)`
  | stop
  deriving DecidableEq

structure Handler (σ : Type) where
  line : σ → Bytes → σ × LineAct
  raw : σ → Bytes → σ × RawAct

structure St (σ : Type) where
  h : σ
  buffer : Bytes                   -- _buffer
  rawMode : Bool                   -- not line_mode
  exceeded : List Bytes            -- the data given to lineLengthExceeded
  deriving DecidableEq

variable {σ : Type}

/-- The loop of `data_received` (CLIShell.py:391-417), at most `fuel` turns. A `setLineMode` with data in a handler adds them to the buffer, because the receiver is
busy (CLIShell.py:384-386, 431-433). -/
def loop (H : Handler σ) (d : Bytes) (max : Nat) : Nat → St σ → St σ
  | 0, s => s
  | fuel + 1, s =>
    if s.buffer = [] then s
    else if s.rawMode then
      match H.raw s.h s.buffer with
      | (h, .go) => loop H d max fuel { s with h := h, buffer := [] }
      | (h, .line extra) => loop H d max fuel { s with h := h, buffer := extra, rawMode := false }
      | (h, .stop) => { s with h := h, buffer := [] }
    else match splitOnce d s.buffer with
      | none => if s.buffer.length > max then { s with buffer := [], exceeded := s.exceeded ++ [s.buffer] } else s
      | some (line, rest) =>
        if line.length > max then { s with buffer := [], exceeded := s.exceeded ++ [line ++ d ++ rest] }
        else match H.line s.h line with
          | (h, .go) => loop H d max fuel { s with h := h, buffer := rest }
          | (h, .raw) => loop H d max fuel { s with h := h, buffer := rest, rawMode := true }
          | (h, .stop) => { s with h := h, buffer := rest }

/-- How many turns there can be, if the raw handler gives back no more than it gets (`loop_fuel`). -/
def turns (s : St σ) : Nat := 2 * s.buffer.length + if s.rawMode then 1 else 0

/-- `data_received` (CLIShell.py:378-419). -/
def dataReceived (H : Handler σ) (d : Bytes) (max : Nat) (s : St σ) (data : Bytes) : St σ :=
  let s' := { s with buffer := s.buffer ++ data }
  loop H d max (turns s' + 1) s'

/-- A sequence of chunks. -/
def receive (H : Handler σ) (d : Bytes) (max : Nat) : St σ → List Bytes → St σ
  | s, [] => s
  | s, c :: cs => receive H d max (dataReceived H d max s c) cs

end Verif.RawLines
