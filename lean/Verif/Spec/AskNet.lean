import Verif.Model.AskNet
import Verif.Spec.Spmp
import Verif.Spec.Query
/-! # Specification of `query` against a server (C91) -/
namespace Verif.Spmp.AskNet

/-- The calls of `query` in a history. -/
def asked (h : List Ev) : List Query := h.filterMap fun e => match e with | .query id cmd args => some ⟨id, cmd, args⟩ | _ => none

/-- The calls can be carried out: no two have the same id, they are authorized, requests and responses are within the limits of the format. The server,
carrying them out one after the other in the order in which they were made, answers `rs` and does `acts`. -/
structure Good {σ : Type} (c : Cfg σ) (w : σ) (qs : List Query) (w' : σ) (acts : List Act) (rs : List (Str × Option Str)) : Prop where
  registered : c.env.Registered
  depth : 0 < c.depth
  different : (qs.map (·.id)).Nodup
  authorized : ∀ q ∈ qs, c.authorized q.packet = true
  requests : ∀ q ∈ qs, Plain c.env c.cls q.packet
  served : Served c w qs w' acts rs
  responses : ∀ x ∈ qs.zip rs, Plain c.env c.cls (x.1.response x.2.1 x.2.2)

/-- Nothing is under way: all bytes have arrived, and the event loop of the client has nothing to do. -/
structure Quiet {σ : Type} (s : Net σ) : Prop where
  server : s.atServer = s.cli.out.flatten.length
  client : s.atClient = (written s.acts).length
  idle : Ask.Idle s.cli

/-- A step that can happen by itself and is not void. -/
def Due {σ : Type} (s : Net σ) : Ev → Prop
  | .query _ _ _ => False
  | .notify => s.cli.notes ≠ 0
  | .resume i => i ∈ s.cli.woken
  | .toServer n => 0 < n ∧ s.atServer < s.cli.out.flatten.length
  | .toClient n => 0 < n ∧ s.atClient < (written s.acts).length

end Verif.Spmp.AskNet
