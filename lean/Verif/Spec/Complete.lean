import Verif.Model.Complete
import Verif.Spec.Shell
/-! # What completion should offer

Vocabulary of C89. -/
namespace Verif.Shell

/-- What the user sees of a call of a completer: `readline` takes a string, and anything else (None, an exception) as "no more". -/
def shown : Cand → Option Str
  | .text c => some c
  | _ => none

/-- The completions of a text are the list `L`: `readline` gets them for 0, 1, ..., and then no more, for any higher number. -/
def Offers (f : Nat → Cand) (L : List Str) : Prop := ∀ n, shown (f n) = L[n]?

/-- `Path s d c o`: the names in `c`, separated by one blank each, lead from the commands `d` through subcommands to the command object `o`. -/
inductive Path (s : St) : Dict Str Nat → Str → Nat → Prop
  | last (d : Dict Str Nat) (k : Str) (o : Nat) : d.get k = some o → Path s d k o
  | down (d : Dict Str Nat) (k : Str) (o : Nat) (c : Str) (o' : Nat) : d.get k = some o → (s.obj o).mode = .sub → Path s (s.obj o).subs c o' → Path s d (k ++ ' ' :: c) o'

/-- `InArgs s d t p r`: the text `t` begins with `p`, the names of a command that takes no subcommand, and a blank; `r`, the rest, is in its arguments. -/
inductive InArgs (s : St) : Dict Str Nat → Str → Str → Str → Prop
  | here (d : Dict Str Nat) (k : Str) (o : Nat) (r : Str) : d.get k = some o → (s.obj o).mode ≠ .sub → InArgs s d (k ++ ' ' :: r) (k ++ [' ']) r
  | down (d : Dict Str Nat) (k : Str) (o : Nat) (t p r : Str) : d.get k = some o → (s.obj o).mode = .sub → InArgs s (s.obj o).subs t p r →
      InArgs s d (k ++ ' ' :: t) (k ++ ' ' :: p) r

/-- No blank in the names of commands that the application makes. -/
def OneWord : Ev → Prop
  | .new txt _ _ => ' ' ∉ txt
  | _ => True

/-- The argument being typed: what comes after the last blank. -/
def LastWord (r fin w : Str) : Prop := r = fin ++ w ∧ ' ' ∉ w ∧ (fin = [] ∨ fin.getLast? = some ' ')

/-- The names in directory `D` that begin with `b`. -/
def entries (fs : Files) (D b : Str) : List Str := match fs.dir D with
  | some (some l) => l.filter (b.isPrefixOf ·)
  | _ => []

/-- `q` is directory `D` as it is written before the name of a file in it: `D/`, or `/`. (Not `D//`.) -/
inductive Before : Str → Str → Prop
  | dir (D : Str) : D ≠ [] → D.getLast? ≠ some '/' → Before (D ++ ['/']) D
  | root : Before ['/'] ['/']

/-- `Looks fs e q D b`: path `e` means names that begin with `b` in directory `D`, and `q` is how that directory is written: as in the path, or, if there is none in it, the current one. -/
inductive Looks (fs : Files) : Str → Str → Str → Str → Prop
  | written (q D b : Str) : Before q D → '/' ∉ b → Looks fs (q ++ b) q D b
  | current (q b : Str) : Before q fs.cwd → '/' ∉ b → Looks fs b q fs.cwd b

/-- What any file system says: there is no slash in the name of a file in a directory. -/
def Files.Sane (fs : Files) : Prop := ∀ D l, fs.dir D = some (some l) → ∀ f ∈ l, '/' ∉ f

end Verif.Shell
