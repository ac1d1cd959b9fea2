import Verif.Model.Stdio
/-! # What the user of the terminal sees

Vocabulary of C90. -/
namespace Verif.Stdio

/-- The lines that were typed, in order. -/
def typed : List Eff → List Str
  | [] => []
  | .typed l :: r => l :: typed r
  | _ :: r => typed r

/-- The lines that the protocol got, in order. -/
def fed : List Eff → List Str
  | [] => []
  | .fed l _ :: r => l :: fed r
  | _ :: r => fed r

/-- What the protocol is told: that it is connected, a line, that the connection is lost. -/
inductive Told where
  | conn
  | line (l : Str)
  | lost
  deriving DecidableEq

def told : List Eff → List Told
  | [] => []
  | .conn :: r => .conn :: told r
  | .fed l _ :: r => .line l :: told r
  | .lost :: r => .lost :: told r
  | _ :: r => told r

/-- The command that gave `o` is complete: it gave no future, or its future is done. -/
def Complete (log : List Eff) : Outcome → Prop
  | .plain => True
  | .fut n => .futDone n ∈ log
  | .other => False

/-- All that was typed has been given to the protocol, and all its commands are complete. -/
def Settled (log : List Eff) : Prop := fed log = typed log ∧ ∀ l o, .fed l o ∈ log → Complete log o

/-- The number of lines that are being typed. -/
def typing : Phase → Nat
  | .reading => 1
  | _ => 0

end Verif.Stdio
