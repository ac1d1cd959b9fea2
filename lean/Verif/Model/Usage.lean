import Verif.Model.Shell
/-! # What `help` prints (common/io/ui/CLIShell.py: `CLICommand.usageHelp` 207-225 and `help` 227-242, `CLIShell.help` 516-529)

`usageHelp` and `help` are one function but for the text that follows a way of using the command, which is a parameter here. They call themselves on the subcommands: the
number is how many nested calls Python still allows (its recursion limit), and `none` is the `RecursionError`. Simplifications: the recursion limit counts these calls
only; the help texts of argument counts are those that `formatText` (textwrap) returns. -/
namespace Verif.Shell

/-- The texts that the shell does nothing with but print: `helpTxt` of a `CLICommand` (CLIShell.py:196), and `usage` and `formatText(helpTxt)` of what was configured for
a number of arguments (CLIShell.py:264-267). `usage` may be missing or empty. -/
structure Texts where
  help : Nat → Str
  usage : Nat → Nat → Option Str
  podHelp : Nat → Nat → Str

/-- The lines for the subcommands, in their order; an exception for one of them ends the call (CLIShell.py:221-224, 238-241). -/
def gather (f : Nat → Option (List Str)) : List Nat → Option (List Str)
  | [] => some []
  | o :: l => match f o with
    | none => none
    | some a => match gather f l with
      | none => none
      | some b => some (a ++ b)

/-- The line for the default callback (CLIShell.py:209-213, 229-233). -/
def dfltLines (d : Nat → Str) (s : St) (i : Nat) : List Str := match (s.obj i).dflt with
  | none => []
  | some _ => match (s.obj i).mode with
    | .single => [(s.obj i).txt ++ '/' :: '*' :: d i]
    | _ => [(s.obj i).txt ++ '/' :: '0' :: d i]

/-- The line for a number of arguments (CLIShell.py:216-219, 235-238). -/
def podLine (x : Texts) (p : Nat → Nat → Str) (s : St) (i n : Nat) : Str := match x.usage i n with
  | some (c :: u) => (s.obj i).txt ++ ' ' :: (c :: u ++ p i n)
  | _ => (s.obj i).txt ++ '/' :: (natStr n ++ p i n)

/-- `usageHelp` (CLIShell.py:207-225) and `help` (CLIShell.py:227-242), with the texts `d` and `p` at the end of the lines. -/
def listing (x : Texts) (d : Nat → Str) (p : Nat → Nat → Str) (s : St) : Nat → Nat → Option (List Str)
  | 0, _ => none
  | k + 1, i => match (s.obj i).mode with
    | .single => some (dfltLines d s i)
    | .standard => some (dfltLines d s i ++ (s.obj i).pods.keys.map (podLine x p s i))
    | .sub => match gather (listing x d p s k) (s.obj i).subs.vals with
      | none => none
      | some ls => some (dfltLines d s i ++ ls.map fun l => (s.obj i).txt ++ ' ' :: l)

/-- `usageHelp` (CLIShell.py:207-225). -/
def usageHelp (x : Texts) (s : St) (k i : Nat) : Option (List Str) := listing x (fun _ => []) (fun _ _ => []) s k i

/-- The text under a usage (CLIShell.py:231, 236). -/
def under (t : Str) : Str := '\n' :: ' ' :: ' ' :: t

/-- `CLICommand.help` (CLIShell.py:227-242). -/
def helpLines (x : Texts) (s : St) (k i : Nat) : Option (List Str) := listing x (fun i => under (x.help i)) (fun i n => under (x.podHelp i n)) s k i

/-- `"\n\n".join(...)` (CLIShell.py:521). -/
def paragraphs : List Str → Str
  | [] => []
  | [l] => l
  | l :: m => l ++ '\n' :: '\n' :: paragraphs m

/-- The list of all commands (CLIShell.py:524-529): what is written, and whether the call returns. The object `0` is `__helpCmdHandler`. -/
def helpAll (x : Texts) (s : St) (k : Nat) : List Nat → List Str × Bool
  | [] => ([], true)
  | o :: l =>
    if o = 0 then (("  help [cmd]\n".toList) :: (helpAll x s k l).1, (helpAll x s k l).2)
    else match usageHelp x s k o with
      | none => ([], false)
      | some ls => (ls.map (fun u => ' ' :: ' ' :: (u ++ ['\n'])) ++ (helpAll x s k l).1, (helpAll x s k l).2)

/-- `CLIShell.help` (CLIShell.py:516-529): the writes, and whether it returns (or raises), if they do not raise. -/
def helpOut (x : Texts) (s : St) (k : Nat) : Option Str → List Str × Bool
  | none | some [] => helpAll x s k s.commands.vals
  | some c => match s.commands.get c with
    | none => (["No such command ".toList ++ c ++ ['\n']], true)
    | some o => match helpLines x s k o with
      | none => ([], false)
      | some ls => ([paragraphs ls, ['\n']], true)

/-- Some calls of `AdvancedStdio.write` (CLIShell.py:45-50): the text that is shown, and whether they return. `buf[-1]` of an empty text is an `IndexError`, which ends the
calls. `reading i` says whether the terminal waits for input at the `i`-th (then a line is begun first). -/
def screen (reading : Nat → Bool) : List Str → Str × Bool
  | [] => ([], true)
  | b :: l =>
    if b = [] then ((if reading 0 then ['\n'] else []), false)
    else ((if reading 0 then ['\n'] else []) ++ b ++ (screen (fun i => reading (i + 1)) l).1, (screen (fun i => reading (i + 1)) l).2)

/-- `help` at the terminal (CLIShell.py:516-529 with the `write` of `AdvancedStdio`): what is shown, and whether it returns. -/
def helpShown (reading : Nat → Bool) (x : Texts) (s : St) (k : Nat) (c : Option Str) : Str × Bool :=
  ((screen reading (helpOut x s k c).1).1, (screen reading (helpOut x s k c).1).2 && (helpOut x s k c).2)

end Verif.Shell
