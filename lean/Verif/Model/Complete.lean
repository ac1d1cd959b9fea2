import Verif.Model.Shell
/-! # Tab completion of the shell (common/io/ui/CLIShell.py: `FileArgCompleter` 131-149, `completeKeys` 157-169, `CLICommand.complete` 329-343, `CLIShell.complete` 572-573)

`readline` calls `complete(text, state)` with `state` = 0, 1, 2, ... (the whole line is the text: the delimiters are set to "" in CLIShell.py:107) until it does not get a string; an exception
counts as that. Simplifications: the file system does not change during these calls; POSIX paths (`os.path` is `posixpath`); the argument completers of a command are those of its constructor
(`f://` only), as no method changes them. -/
namespace Verif.Shell

/-- What completion sees of the file system: `os.path.expanduser`, `os.getcwd()`, and for a path: it does not exist, `os.listdir` raises (not a directory, not readable), or the names in it
(CLIShell.py:137-145). -/
structure Files where
  expand : Str → Str
  cwd : Str
  dir : Str → Option (Option (List Str))

/-- What a call of a completer does: returns None, raises, or returns a string (CLIShell.py:131-169). -/
inductive Cand where
  | nothing
  | raised
  | text (c : Str)
  deriving DecidableEq

/-- The part after the last character `x`, and what is before it, with it (`rfind` and slices in `posixpath`; `s.split(" ")[-1]` in CLIShell.py:333-335). -/
def lastPart (x : Char) (p : Str) : Str := (p.reverse.takeWhile (· ≠ x)).reverse

def headPart (x : Char) (p : Str) : Str := (p.reverse.dropWhile (· ≠ x)).reverse

/-- `s.rstrip('/')`. -/
def rstripSlash (p : Str) : Str := (p.reverse.dropWhile (· = '/')).reverse

/-- `os.path.dirname` (called in CLIShell.py:138): up to the last `/`, without slashes at the end unless there is nothing else. -/
def dirname (p : Str) : Str :=
  let h := headPart '/' p
  if h.all (· = '/') then h else rstripSlash h

/-- `os.path.basename` (called in CLIShell.py:139). -/
def basename (p : Str) : Str := lastPart '/' p

/-- `os.path.join(a, b)` (called in CLIShell.py:147). -/
def joinPath (a b : Str) : Str :=
  if b.head? = some '/' then b
  else if a = [] ∨ a.getLast? = some '/' then a ++ b
  else a ++ '/' :: b

/-- The loop over `os.listdir` (CLIShell.py:143-148). -/
def fileLoop (d inc : Str) (state : Nat) : List Str → Nat → Cand
  | [], _ => .nothing
  | f :: fs, i =>
    if inc.isPrefixOf f then
      if i = state then .text (joinPath d f) else fileLoop d inc state fs (i + 1)
    else fileLoop d inc state fs i

/-- The directory to look into (CLIShell.py:138-141). -/
def lookIn (fs : Files) (path : Str) : Str := if dirname path = [] then fs.cwd else dirname path

/-- `FileArgCompleter` (CLIShell.py:131-149). -/
def fileArg (fs : Files) (p : Str) (state : Nat) : Cand :=
  let path := fs.expand p
  match fs.dir (lookIn fs path) with
  | none => .nothing
  | some none => .raised
  | some (some l) => fileLoop (lookIn fs path) (basename path) state l 0

/-- `str + completion` (CLIShell.py:164, 341): with None this is a `TypeError`. -/
def glue (p : Str) : Cand → Cand
  | .text c => .text (p ++ c)
  | .nothing => .raised
  | .raised => .raised

def fileKey : Str := ['f', ':', '/', '/']

/-- `CLICommand.complete` in standard and in singleton mode (CLIShell.py:332-343). -/
def completeArgs (fs : Files) (t : Str) (state : Nat) : Cand :=
  let tab := lastPart ' ' t
  if fileKey.isPrefixOf tab then glue (headPart ' ' t ++ fileKey) (fileArg fs (tab.drop fileKey.length) state)
  else .nothing

/-- The loop of `completeKeys` (CLIShell.py:157-169); `down` is `d[k].complete(_, state)`. -/
def keyLoop (down : Nat → Str → Cand) (t : Str) (state : Nat) : List (Str × Nat) → Nat → Cand
  | [], _ => .nothing
  | (k, o) :: r, i =>
    if (k ++ [' ']).isPrefixOf t then glue (k ++ [' ']) (down o (t.drop (k.length + 1)))
    else if t.isPrefixOf k then
      if i = state then .text k else keyLoop down t state r (i + 1)
    else keyLoop down t state r i

/-- `CLICommand.complete` (CLIShell.py:329-343). The number bounds the depth; every level takes at least a blank from the text, so the length of the text will do. -/
def complete (fs : Files) (s : St) (state : Nat) : Nat → Nat → Str → Cand
  | 0, o, t => match (s.obj o).mode with
    | .sub => .nothing
    | _ => completeArgs fs t state
  | n + 1, o, t => match (s.obj o).mode with
    | .sub => keyLoop (complete fs s state n) t state (s.obj o).subs 0
    | _ => completeArgs fs t state

/-- `CLIShell.complete` (CLIShell.py:572-573). -/
def shellComplete (fs : Files) (s : St) (t : Str) (state : Nat) : Cand :=
  keyLoop (complete fs s state t.length) t state s.commands 0

end Verif.Shell
