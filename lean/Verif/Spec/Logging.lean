import Verif.Model.Logging
/-! # What the log levels mean -/
namespace Verif.Logging

/-- A logger below module `m`. -/
def Under (m name : Str) : Prop := ∃ r, name = m ++ '.' :: r

/-- A logger with a tag (`GetTaggedLoggerName`): `base.__playlogtag__tag`, or the last part alone. -/
def HasTag (name tag : Str) : Prop :=
  tag ≠ [] ∧ '.' ∉ tag ∧ (name = "__playlogtag__".toList ++ tag ∨ ∃ base, name = base ++ '.' :: ("__playlogtag__".toList ++ tag))

/-- The least level that goes to stderr (comments at logging.py:208-214). -/
def toStderr : Preset → Option Nat
  | .verbose => some 40
  | .dbg | .test | .max => some 0
  | _ => none

/-- The least level that goes to the log file. -/
def toFile : Preset → Option Nat
  | .minimal => some 40
  | .quiet => some 20
  | .verbose | .max => some 10
  | .dbg => some 0
  | _ => none

/-- The calls of `EnablePresetLogging` in a history, with what happens to the log file. -/
def calls (h : List Ev) : List (Preset × Bool) := h.filterMap fun
  | .preset p ok => some (p, ok)
  | .cmd n ok => match n with
    | 0 => some (.off, ok) | 1 => some (.minimal, ok) | 2 => some (.quiet, ok) | 3 => some (.verbose, ok) | 4 => some (.dbg, ok)
    | 5 => some (.test, ok) | 6 => some (.max, ok) | _ => none
  | .log _ _ => none

/-- The modules that a level adds to `playground`; `none`: it leaves those that were added before. -/
def adds (aux : List Str) : Preset → Option (List Str)
  | .verbose | .dbg | .test => some ["asyncio".toList]
  | .max => some ("asyncio".toList :: aux)
  | _ => none

/-- The modules in force besides `playground`: those of the last level that added some. -/
def added (aux : List Str) (cs : List (Preset × Bool)) : List Str := ((cs.filterMap fun c => adds aux c.1).getLast?).getD []

/-- The lists of modules of all levels so far that wrote to stderr. -/
def stderrLists (aux : List Str) (cs : List (Preset × Bool)) : List (List Str) := cs.filterMap fun c =>
  match toStderr c.1 with
  | none => none
  | some _ => (adds aux c.1).map ("playground".toList :: ·)

/-- The handlers that write a message of level `l` of logger `name` after history `h` (0 is stderr, the others log files), read off from
what is written. -/
def writtenTo (aux : List Str) (h : List Ev) (name : Str) (l : Nat) : List Nat :=
  ((exec aux .init (h ++ [.log name l])).out.drop (exec aux .init h).out.length).map (·.1)

end Verif.Logging
