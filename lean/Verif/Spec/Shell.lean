import Verif.Model.Shell
import Verif.Spec.Shlex
/-! # What a line means to the shell

Vocabulary of C66 and C67. -/
namespace Verif.Shell
open Verif.Shlex (Line pySpace)

/-- An argument without the marker of a file name. -/
def bare (w : Str) : Str := if "f://".toList <+: w then w.drop 4 else w

/-- `Means s o ws p args`: the words `ws` after command object `o` mean the callback (with its argument handler) `p` on the arguments `args`. A singleton command takes
any words; a command alone means its default; a standard command means what was configured for the number of words; a subcommand means what it means itself. -/
inductive Means (s : St) : Nat → List Str → Pod → List Str → Prop
  | single (o : Nat) (ws : List Str) (p : Pod) : (s.obj o).mode = .single → (s.obj o).dflt = some p → Means s o ws p (ws.map bare)
  | alone (o : Nat) (p : Pod) : (s.obj o).mode ≠ .single → (s.obj o).dflt = some p → Means s o [] p []
  | count (o : Nat) (ws : List Str) (p : Pod) : (s.obj o).mode = .standard → ws ≠ [] → (s.obj o).pods.get ws.length = some p → Means s o ws p (ws.map bare)
  | sub (o o' : Nat) (w : Str) (ws : List Str) (p : Pod) (args : List Str) : (s.obj o).mode = .sub → (s.obj o).subs.get w = some o' → Means s o' ws p args →
      Means s o (w :: ws) p args

/-- The characters with `isspace()`, which `str.strip()` removes (Unicode's white space, and 28 to 31). -/
def whitespace : List Nat := [0x09, 0x0a, 0x0b, 0x0c, 0x0d, 0x1c, 0x1d, 0x1e, 0x1f, 0x20, 0x85, 0xa0, 0x1680, 0x2000, 0x2001, 0x2002, 0x2003, 0x2004, 0x2005, 0x2006, 0x2007, 0x2008, 0x2009, 0x200a,
  0x2028, 0x2029, 0x202f, 0x205f, 0x3000]

/-- `m` is `l` without the white space at its ends. -/
def Trim (l m : Str) : Prop := ∃ a b, l = a ++ m ++ b ∧ (∀ c ∈ a, pySpace c = true) ∧ (∀ c ∈ b, pySpace c = true) ∧
  (∀ c, m.head? = some c → pySpace c = false) ∧ (∀ c, m.getLast? = some c → pySpace c = false)

/-- The line `l` means the callback `p` on `args`: it consists of the name of a registered command and further words; empty words do not count. -/
def Commands (s : St) (l : Str) (p : Pod) (args : List Str) : Prop :=
  ∃ m ws c rest o, Trim l m ∧ Line m ws ∧ ws.filter (· ≠ []) = c :: rest ∧ s.commands.get c = some o ∧ Means s o rest p args

/-- The argument handler of `p` makes `vs` of the words; without one they are handed on. -/
inductive Hands (e : Env) : Pod → List Str → List Val → Prop
  | plain (c : Cb) (args : List Str) : Hands e ⟨c, none⟩ args (args.map .text)
  | handler (c : Cb) (k : Nat) (args : List Str) (vs : List Val) : e.arg k args = .args vs → Hands e ⟨c, some k⟩ args vs

/-- The callbacks called in a list of effects. -/
def called : List Eff → List (Cb × List Val)
  | [] => []
  | .ran c vs :: l => (c, vs) :: called l
  | _ :: l => called l

/-- The callbacks called between two states. -/
def calls (s s' : St) : List (Cb × List Val) := called (s'.out.drop s.out.length)

/-- The lines that batch task `t` has fed to the shell. -/
def fedBy (t : Nat) : List Eff → List Str
  | [] => []
  | .fed u l :: r => (if u = t then [l] else []) ++ fedBy t r
  | _ :: r => fedBy t r

/-- The results it got. -/
def results (t : Nat) : List Eff → List Res
  | [] => []
  | .gave u x :: r => (if u = t then [x] else []) ++ results t r
  | _ :: r => results t r

/-- What was awaited is done, with a result. -/
def Completed (s : St) : Fut → Prop
  | .user n => s.fin.get n = some true
  | .batch t => (s.task t).wait = .over

/-- A future of the application that is done with an exception. -/
def Failed (s : St) : Fut → Prop
  | .user n => s.fin.get n = some false
  | .batch _ => False

end Verif.Shell
