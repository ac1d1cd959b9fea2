import Verif.Model.SpmpHidden
import Verif.Spec.Spmp
/-! # Specification of management requests on a connection of another protocol -/
namespace Verif.Spmp

/-- What is sent on the connection: management requests and packets of the main protocol. -/
inductive Item where
  | query (q : Query)
  | other (v : Val)

/-- The packet that carries it. -/
def Item.val (cls : Cls) : Item → Val
  | .query q => q.packet.val cls
  | .other v => v

/-- The items are dealt with one after the other, each once: a request is carried out and gets one response, any other packet is given to the main protocol, with the
bytes it had. `rs` are the results and errors of the requests. -/
inductive Handled {σ : Type} (c : Cfg σ) (main : Main σ) : σ → List Item → σ → List Act → List (Str × Option Str) → Prop where
  | nil (w) : Handled c main w [] w [] []
  | query {w w' w'' q is acts b acts' result error rs} :
      Outcome c w q.cmd q.args w' acts result error →
      serialize c.env 0 ((q.response result error).val c.cls) = .ok b →
      Handled c main w' is w'' acts' rs →
      Handled c main w (.query q :: is) w'' (acts ++ .write b :: acts') ((result, error) :: rs)
  | other {w w' w'' v is acts acts' rs} :
      main w (ser c.env v) = (w', acts, false) →
      Handled c main w' is w'' acts' rs →
      Handled c main w (.other v :: is) w'' (acts ++ acts') rs

end Verif.Spmp
