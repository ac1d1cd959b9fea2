import Verif.Model.VnicClient
/-! # What a user of the VNIC client can expect -/
namespace Verif.Cli

/-- Number of requests in a history. -/
def requests : List Ev → Nat
  | [] => 0
  | .request _ _ :: h => requests h + 1
  | _ :: h => requests h

/-- What becomes of the `n`-th future (from 0), a request of kind `k` with id `n + 1`, in the history after the request: it is
decided by the first event that concerns it. A failure ends both kinds; a listen request is completed by its response, a
connect request by the announcement of the connection. -/
def outcome (k : Kind) (n : Nat) : List Ev → Fut
  | [] => .pending
  | .cancel m :: h => if m = n then .cancelled else outcome k n h
  | .response id r :: h =>
    if id = n + 1 then
      match r, k with
      | .failure c, _ => .error c
      | .port p, .listen => .result id p
      | .port _, .connect => outcome k n h
    else outcome k n h
  | .spawned id _ p :: h => if id = n + 1 ∧ k = .connect then .result id p else outcome k n h
  | .request _ _ :: h => outcome k n h

/-- The ids of the requests sent. -/
def sentIds : List Eff → List Nat
  | [] => []
  | .request id _ :: l => id :: sentIds l
  | _ :: l => sentIds l

/-- A history without the cancellations. -/
def uncancelled (h : List Ev) : List Ev := h.filter fun e => match e with | .cancel _ => false | _ => true

end Verif.Cli
