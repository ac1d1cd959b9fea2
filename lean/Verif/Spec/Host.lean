import Verif.Model.Host
import Verif.Spec.Connector
/-! # Vocabulary for an application and its socket -/
namespace Verif.Host
open Verif.Cli (Kind)

/-- Bytes handed to the stack on callback protocol `m`. -/
def pushed (m : Nat) : List Callback.Eff → Bytes
  | [] => []
  | .push n d :: l => (if n = m then d else []) ++ pushed m l
  | _ :: l => pushed m l

/-- What the application on callback protocol `m` has got. -/
def appGot (s : St) (m : Nat) : Bytes := pushed m s.side.con.cb.out

/-- What happens in the VNIC in a history. -/
def vnicHist (want : Nat → Str × Nat) : St → List Ev → List Vnic.Ev
  | _, [] => []
  | s, e :: h => vnicEv s.vnic s.side e ++ vnicHist want (step want s e) h

/-- The bytes that arrive at the VNIC on callback connection `n`. -/
def heard (n : Nat) : List Vnic.Ev → Bytes
  | [] => []
  | .reverse m d :: h => (if m = n then d else []) ++ heard n h
  | _ :: h => heard n h

/-- Socket `k` at the VNIC with address `a` is one for a call with destination `dst` and port `p`: for `create_connection`, it goes to `dst` and port `p`, and
for `create_server`, it is at port `p`. -/
def For (a : Str) : Kind → Str × Nat → Vnic.Key → Prop
  | .connect, w, k => k.source = a ∧ k.destination = w.1 ∧ k.destinationPort = w.2
  | .listen, w, k => k.sourcePort = w.2

/-- The application of call `f` is on callback connection `n` of the VNIC. -/
def AppOn (s : St) (f n : Nat) : Prop := ∃ m, s.side.peer n = some m ∧ Connect.RunsFor s.side.con m f

end Verif.Host
