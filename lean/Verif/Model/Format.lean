import Verif.Model.PyStr
import Verif.Model.Dict
/-! # common/logging.py:72-91: `PlaygroundLoggingFormatter` and log records with special data

A record goes to all handlers, one after the other (logging.py:137-140), and each of them formats it. Of Python's `%` with a mapping only `%%` and `%(key)s` are modelled: with
anything else after a `%`, `fmt` says that there is an exception (for a `%s` Python shows the mapping itself). The fields of the handler's own format (time, name, level) are
left out; a special value is what the converter makes of it, the same every time (that a key without a converter raises is left out). -/
namespace Verif.Format

/-- Where the reading of a format is. -/
inductive Mode where
  | text
  | pct                            -- after a `%`
  | key (depth : Nat) (acc : Str)  -- in the parentheses
  | conv (key : Str)               -- after them

/-- `template % mapping`, where the mapping gives a text for every key or raises; `none`: it raises. -/
def fmt (get : Str → Option Str) : Mode → Str → Option Str
  | .text, [] => some []
  | .text, '%' :: r => fmt get .pct r
  | .text, c :: r => (fmt get .text r).map (c :: ·)
  | .pct, '%' :: r => (fmt get .text r).map ('%' :: ·)
  | .pct, '(' :: r => fmt get (.key 1 []) r
  | .pct, _ => none
  | .key _ _, [] => none
  | .key d acc, '(' :: r => fmt get (.key (d + 1) (acc ++ ['('])) r
  | .key d acc, ')' :: r => if d = 1 then fmt get (.conv acc) r else fmt get (.key (d - 1) (acc ++ [')'])) r
  | .key d acc, c :: r => fmt get (.key d (acc ++ [c])) r
  | .conv k, 's' :: r => match get k with
    | none => none
    | some v => (fmt get .text r).map (v ++ ·)
  | .conv _, _ => none

/-- `PartialConverter.__getitem__` (logging.py:76-78). -/
def partialGet (d : Dict Str Str) (k : Str) : Option Str := match d.get k with
  | some v => some v
  | none => some ("%(".toList ++ k ++ ")s".toList)

/-- A record: `msg`, the mapping in `args`, if there is one, and `__playground_special__` after conversion, if it is there. -/
structure Record where
  msg : Str
  args : Dict Str Str
  special : Option (Dict Str Str)
  deriving DecidableEq

/-- `LogRecord.getMessage`: without arguments, nothing is replaced. -/
def message (r : Record) : Option Str := if r.args = [] then some r.msg else fmt r.args.get .text r.msg

/-- `PlaygroundLoggingFormatter.format` (logging.py:85-91): it changes the record; `none`: it raises, and the handler reports that and writes nothing. -/
def format (r : Record) : Record × Option Str := match r.special with
  | none => (r, message r)
  | some d => match fmt (partialGet d) .text r.msg with
    | none => (r, none)
    | some m => ({ r with msg := m }, message { r with msg := m })

/-- The handlers of a record (logging.py:137-140): what each of `n` writes. -/
def handlers : Nat → Record → List (Option Str)
  | 0, _ => []
  | n + 1, r => (format r).2 :: handlers n (format r).1

end Verif.Format
