import Verif.Model.Spmp
import Verif.Spec.Codec
/-! # Specification of the management protocol -/
namespace Verif.Spmp

/-- The outcome of a request: the result, and the error if there is one. A function that raises an exception without a message looks as if it
had returned nothing. -/
inductive Outcome {σ : Type} (c : Cfg σ) (w : σ) (cmd : Str) (args : List Str) : σ → List Act → Str → Option Str → Prop where
  | unknown : c.api cmd = none → Outcome c w cmd args w [] [] (some ("Unknown request '".toList ++ cmd ++ "' to device [".toList ++ c.device ++ "]".toList))
  | value (f w' s) : c.api cmd = some f → f args w = (w', .value s) → Outcome c w cmd args w' [.call cmd args] s none
  | failed (f w' e) : c.api cmd = some f → f args w = (w', .raised e) → e ≠ [] → Outcome c w cmd args w' [.call cmd args] [] (some e)
  | failedSilently (f w') : c.api cmd = some f → f args w = (w', .raised []) → Outcome c w cmd args w' [.call cmd args] [] none

/-- Requests as `query` sends them: the id, the command and its arguments. -/
structure Query where
  id : Nat
  cmd : Str
  args : List Str

def Query.packet (q : Query) : Packet := request q.id q.cmd q.args

/-- The response to a query. -/
def Query.response (q : Query) (result : Str) (error : Option Str) : Packet :=
  ⟨some q.id, some q.cmd, some q.args, some result, error, none, none⟩

/-- The queries are carried out one after the other, each once, and each gets one response. `rs` are the results and errors. -/
inductive Served {σ : Type} (c : Cfg σ) : σ → List Query → σ → List Act → List (Str × Option Str) → Prop where
  | nil (w) : Served c w [] w [] []
  | cons {w w' w'' q qs acts b acts' result error rs} :
      Outcome c w q.cmd q.args w' acts result error →
      serialize c.env 0 ((q.response result error).val c.cls) = .ok b →
      Served c w' qs w'' acts' rs →
      Served c w (q :: qs) w'' (acts ++ .write b :: acts') ((result, error) :: rs)

/-- What is written to the connection. -/
def written : List Act → Bytes
  | [] => []
  | .write b :: l => b ++ written l
  | _ :: l => written l

/-- The packet survives the codec: its parts are within the limits of the format, and its strings are ASCII. -/
def Plain (env : Env) (cls : Cls) (p : Packet) : Prop := Sendable env cls (p.val cls) ∧ asciiV (p.val cls) = true

/-- A string that survives: ASCII, and its length fits into 16 bits. -/
def OkStr (s : Str) : Prop := isAscii s = true ∧ s.length < 2 ^ 16

/-- Requests and responses within the limits of the format. -/
structure Fits (p : Packet) : Prop where
  requestId : ∃ i, p.requestId = some i ∧ 0 ≤ i ∧ i < 2 ^ 16
  request : ∃ s, p.request = some s ∧ OkStr s
  args : ∃ l, p.args = some l ∧ l.length < 2 ^ 16 ∧ ∀ s ∈ l, OkStr s
  result : ∃ s, p.result = some s ∧ OkStr s
  error : ∀ s, p.error = some s → OkStr s
  securityType : ∀ s, p.securityType = some s → OkStr s
  security : p.security = none

end Verif.Spmp
