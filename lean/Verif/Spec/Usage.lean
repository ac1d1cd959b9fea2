import Verif.Model.Usage
/-! # Ways of using a command

Vocabulary of C112. -/
namespace Verif.Shell

/-- How many words may follow. -/
inductive Form where
  | any
  | count (n : Nat)
  deriving DecidableEq

/-- The words have this form. -/
def Fits : Form → List Str → Prop
  | .any, _ => True
  | .count n, ws => ws.length = n

/-- `Way s o ws f i`: after command object `o` the subcommands `ws` lead to the object `i`, which has a callback for words of the form `f`. -/
inductive Way (s : St) : Nat → List Str → Form → Nat → Prop
  | single (i : Nat) : (s.obj i).mode = .single → (s.obj i).dflt ≠ none → Way s i [] .any i
  | alone (i : Nat) : (s.obj i).mode ≠ .single → (s.obj i).dflt ≠ none → Way s i [] (.count 0) i
  | count (i n : Nat) (p : Pod) : (s.obj i).mode = .standard → (s.obj i).pods.get n = some p → Way s i [] (.count n) i
  | sub (o o' i : Nat) (w : Str) (ws : List Str) (f : Form) : (s.obj o).mode = .sub → (s.obj o).subs.get w = some o' → Way s o' ws f i → Way s o (w :: ws) f i

/-- What the usage says about the further words: `/*` (any), `/0` (none), the text that was configured for their number, or else `/` and the number. -/
inductive Suffix (x : Texts) (i : Nat) : Form → Str → Prop
  | any : Suffix x i .any "/*".toList
  | alone : Suffix x i (.count 0) "/0".toList
  | usage (n : Nat) (u : Str) : 0 < n → x.usage i n = some u → u ≠ [] → Suffix x i (.count n) (' ' :: u)
  | number (n : Nat) : 0 < n → (x.usage i n = none ∨ x.usage i n = some []) → Suffix x i (.count n) ('/' :: natStr n)

/-- The words with blanks between them. -/
def spaced : List Str → Str
  | [] => []
  | [w] => w
  | w :: ws => w ++ ' ' :: spaced ws

/-- The help text that belongs to a way: for a number of words that of `configure`, else that of the command. -/
def helpFor (x : Texts) (i : Nat) : Form → Str
  | .count (n + 1) => x.podHelp i (n + 1)
  | _ => x.help i

/-- A way from object `o` down `k` subcommands. -/
def Deep (s : St) : Nat → Nat → Prop
  | 0, _ => True
  | k + 1, o => (s.obj o).mode = .sub ∧ ∃ w o', (s.obj o).subs.get w = some o' ∧ Deep s k o'

end Verif.Shell
