import Verif.Model.PyStr
/-! # Splitting a command line (`shlex.split`, used in common/io/ui/CLIShell.py:594)

The Python 3 standard library's `shlex.split(line)`: POSIX mode, `whitespace_split`, no comments. One call of `read_token` and the next one are one loop here; the
states are those of `read_token`. -/
namespace Verif.Shlex

/-- The white space of `shlex`. -/
def sep (c : Char) : Bool := c == ' ' || c == '\t' || c == '\r' || c == '\n'

def isQuote (c : Char) : Bool := c == '\'' || c == '"'

inductive LexErr where
  | noClosingQuotation
  | noEscapedCharacter
  deriving DecidableEq

/-- `self.state` of `read_token`: `' '`, `'a'`, the quote character, or the escape character with `escapedstate`. -/
inductive State where
  | gap
  | word
  | quote (q : Char)
  | esc (back : State)
  deriving DecidableEq

/-- A word before the others. -/
def more (t : Str) : Except LexErr (List Str) → Except LexErr (List Str)
  | .ok l => .ok (t :: l)
  | .error e => .error e

/-- `read_token` until the end of the input; `t` is `self.token`, `q` is `quoted`. -/
def lex : State → Str → Bool → Str → Except LexErr (List Str)
  | .gap, t, q, [] => .ok (if t ≠ [] ∨ q = true then [t] else [])
  | .gap, t, q, c :: cs =>
    if sep c then (if t ≠ [] ∨ q = true then more t (lex .gap [] false cs) else lex .gap t q cs)
    else if c = '\\' then lex (.esc .word) t q cs
    else if isQuote c then lex (.quote c) t q cs
    else lex .word [c] q cs
  | .quote _, _, _, [] => .error .noClosingQuotation
  | .quote k, t, _, c :: cs =>
    if c = k then lex .word t true cs
    else if c = '\\' ∧ k = '"' then lex (.esc (.quote k)) t true cs
    else lex (.quote k) (t ++ [c]) true cs
  | .esc _, _, _, [] => .error .noEscapedCharacter
  | .esc back, t, q, c :: cs =>
    match back with
    | .quote k => if c ≠ '\\' ∧ c ≠ k then lex back (t ++ ['\\', c]) q cs else lex back (t ++ [c]) q cs
    | _ => lex back (t ++ [c]) q cs
  | .word, t, q, [] => .ok (if t ≠ [] ∨ q = true then [t] else [])
  | .word, t, q, c :: cs =>
    if sep c then (if t ≠ [] ∨ q = true then more t (lex .gap [] false cs) else lex .gap t q cs)
    else if isQuote c then lex (.quote c) t q cs
    else if c = '\\' then lex (.esc .word) t q cs
    else lex .word (t ++ [c]) q cs

/-- `shlex.split(line)` (CLIShell.py:594). -/
def split (line : Str) : Except LexErr (List Str) := lex .gap [] false line

/-- What `str.strip()` removes: the characters with `isspace()`. -/
def pySpace (c : Char) : Bool :=
  let n := c.toNat
  (9 ≤ n && n ≤ 13) || (28 ≤ n && n ≤ 32) || n == 0x85 || n == 0xa0 || n == 0x1680 || (0x2000 ≤ n && n ≤ 0x200a) || n == 0x2028 || n == 0x2029 || n == 0x202f ||
    n == 0x205f || n == 0x3000

/-- `line.strip()` (CLIShell.py:591). -/
def stripLine (s : Str) : Str := ((s.dropWhile pySpace).reverse.dropWhile pySpace).reverse

end Verif.Shlex
