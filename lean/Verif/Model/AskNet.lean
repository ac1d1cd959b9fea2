import Verif.Model.Query
/-! # `query` against an SPMP server: both ends of one connection (protocols/spmp.py)

The connection is a pair of byte streams: what is written at one end arrives at the other end in order, in pieces of any size, at any time. The
event loops of both ends and the arrival of the bytes interleave arbitrarily. Not modelled here: that the server closes the connection after a
request that is not authorized (nothing more is carried out then on the part of the server, see `C44`), the loss of the connection, the
cancellation of a call (`C88`). -/
namespace Verif.Spmp.AskNet

/-- The two ends, what the server did so far, and how many bytes have arrived at the server and at the client. -/
structure Net (σ : Type) where
  cli : Ask.St
  srv : Server σ
  acts : List Act
  atServer : Nat
  atClient : Nat

/-- A connection that was just made (spmp.py:42-43, 79-81). -/
def Net.init {σ : Type} (c : Cfg σ) (w : σ) : Net σ := ⟨.init c.env c.depth c.cls, .init c w, [], 0, 0⟩

/-- The bytes in the calls of `write` of the server (spmp.py:116). -/
def bytesOut : List Act → Bytes
  | [] => []
  | .write b :: l => b ++ bytesOut l
  | .call _ _ :: l => bytesOut l
  | .close :: l => bytesOut l

inductive Ev where
  | query (id : Nat) (cmd : Str) (args : List Str)    -- a call of `query` at the client
  | notify                                            -- an `awaitNotify` task runs
  | resume (i : Nat)                                  -- a woken call goes on
  | toServer (n : Nat)                                -- up to `n` bytes arrive at the server
  | toClient (n : Nat)                                -- up to `n` bytes arrive at the client

/-- One step (spmp.py:48-68, 89-116, SimpleCondition.py:7-20). -/
def step {σ : Type} (c : Cfg σ) (s : Net σ) : Ev → Net σ
  | .query id cmd args => { s with cli := Ask.query c.env c.cls s.cli id cmd args }
  | .notify => { s with cli := Ask.notify s.cli }
  | .resume i => { s with cli := Ask.resume s.cli i }
  | .toServer n =>
    let b := (s.cli.out.flatten.drop s.atServer).take n
    let r := s.srv.data c b
    { s with srv := r.1, acts := s.acts ++ r.2, atServer := s.atServer + b.length }
  | .toClient n =>
    let b := ((bytesOut s.acts).drop s.atClient).take n
    { s with cli := Ask.data c.env c.depth c.cls s.cli b, atClient := s.atClient + b.length }

def run {σ : Type} (c : Cfg σ) (s : Net σ) (h : List Ev) : Net σ := h.foldl (step c) s

end Verif.Spmp.AskNet
