import Verif.Model.PyStr
/-! # What a command line means

A line is a sequence of words separated by white space. A word is written as pieces: plain characters, characters after a backslash, text in single quotes, and
text in double quotes (where a backslash counts only before `"` and before a backslash). Nothing here refers to the model. -/
namespace Verif.Shlex

/-- White space between words. -/
def Space (c : Char) : Prop := c = ' ' ∨ c = '\t' ∨ c = '\r' ∨ c = '\n'

/-- In double quotes. -/
inductive Item where
  | plain (c : Char)
  | esc (c : Char)

namespace Item

def text : Item → Str
  | plain c => [c]
  | esc c => ['\\', c]

def value : Item → Str
  | plain c => [c]
  | esc c => if c = '"' ∨ c = '\\' then [c] else ['\\', c]

def Ok : Item → Prop
  | plain c => c ≠ '"' ∧ c ≠ '\\'
  | esc _ => True

end Item

inductive Piece where
  | plain (c : Char)
  | esc (c : Char)
  | single (s : Str)
  | double (l : List Item)

namespace Piece

/-- As it is written. -/
def text : Piece → Str
  | plain c => [c]
  | esc c => ['\\', c]
  | single s => '\'' :: s ++ ['\'']
  | double l => '"' :: l.flatMap Item.text ++ ['"']

/-- What it stands for. -/
def value : Piece → Str
  | plain c => [c]
  | esc c => [c]
  | single s => s
  | double l => l.flatMap Item.value

def Ok : Piece → Prop
  | plain c => ¬ Space c ∧ c ≠ '\\' ∧ c ≠ '\'' ∧ c ≠ '"'
  | esc _ => True
  | single s => '\'' ∉ s
  | double l => ∀ i ∈ l, i.Ok

end Piece

/-- `Line s ws`: the text `s` is the words `ws`. -/
inductive Line : Str → List Str → Prop
  | nil (g : Str) : (∀ c ∈ g, Space c) → Line g []
  | cons (g : Str) (ps : List Piece) (r : Str) (ws : List Str) : (∀ c ∈ g, Space c) → ps ≠ [] → (∀ p ∈ ps, p.Ok) → (∀ c, r.head? = some c → Space c) → Line r ws →
      Line (g ++ (ps.flatMap Piece.text ++ r)) (ps.flatMap Piece.value :: ws)

/-- The word `w` in single quotes, each `'` in it as `'"'"'`. -/
def quoted (w : Str) : Str := '\'' :: w.flatMap (fun c => if c = '\'' then ['\'', '"', '\'', '"', '\''] else [c]) ++ ['\'']

/-- Characters that need no quotes (`shlex.quote`). -/
def Safe (c : Char) : Prop := c.isAlphanum = true ∨ c ∈ ['_', '@', '%', '+', '=', ':', ',', '.', '/', '-']

instance (c : Char) : Decidable (Safe c) := inferInstanceAs (Decidable (_ ∨ _))

/-- `shlex.quote(w)`. -/
def quote (w : Str) : Str := if w = [] then ['\'', '\''] else if ∀ c ∈ w, Safe c then w else quoted w

/-- The words, quoted, with one blank between each two (`shlex.join`). -/
def typed : List Str → Str
  | [] => []
  | [w] => quote w
  | w :: ws => quote w ++ ' ' :: typed ws

end Verif.Shlex
