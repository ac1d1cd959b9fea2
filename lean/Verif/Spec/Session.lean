import Verif.Spec.Control
import Verif.Model.Session
/-! # Specification vocabulary for C94 -/
namespace Verif.Session

/-- The definitions belong to the classes. -/
structure Cfg.Ok (c : Cfg) : Prop where
  classes : c.c.Ok
  respIs : c.c.env.classDef c.respC = some respDef
  spawnIs : c.c.env.classDef c.spawnC = some spawnDef
  subs : c.c.env.isSub c.respC c.base = true ∧ c.c.env.isSub c.spawnC c.base = true
  differ : c.respC ≠ c.spawnC
  depth : 0 < c.depth
  callback : Link.Text c.callback.1 ∧ c.callback.2 < 2 ^ 16
  tcp : ∀ n, c.tcp n < 2 ^ 16

/-- An event at the VNIC that is not one of control connection `p`. -/
def foreign (p : Nat) : Vnic.Ev → Bool
  | .ctlMade q => decide (q ≠ p)
  | .ctlLost q => decide (q ≠ p)
  | .openSocket q _ _ => decide (q ≠ p)
  | .closeSocket q _ => decide (q ≠ p)
  | .startDump q => decide (q ≠ p)
  | .stopDump q => decide (q ≠ p)
  | .rawWire q _ _ => decide (q ≠ p)
  | _ => true

/-- What fits into the packets: ASCII strings of less than 2^16 characters, ports of 16 bits. -/
def fitsReq : Vnic.Req → Prop
  | .connect dst dport => Link.Text dst ∧ dport < 2 ^ 16
  | .listen port => port < 2 ^ 16
  | .other => True

def fitsKey (k : Vnic.Key) : Prop := Link.Text k.source ∧ k.sourcePort < 2 ^ 16 ∧ Link.Text k.destination ∧ k.destinationPort < 2 ^ 16

/-- Nothing is cancelled, and everything that comes from a packet or goes into one fits. -/
def Ev.Fits (p : Nat) : Ev → Prop
  | .connect dst dport _ => fitsReq (.connect dst dport)
  | .listen port _ => fitsReq (.listen port)
  | .close i => i < 2 ^ 32
  | .cancel _ => False
  | .vnic e => foreign p e = true ∧ match e with
    | .openSocket _ _ r => fitsReq r
    | .data k _ => fitsKey k
    | _ => True
  | _ => True

/-- The calls of `connect` and `listen`, in order. The call at place `n` (from 0) has future `n` and connection id `n + 1`. -/
def calls : List Ev → List (Vnic.Req × Nat)
  | [] => []
  | .connect dst dport f :: h => (.connect dst dport, f) :: calls h
  | .listen port f :: h => (.listen port, f) :: calls h
  | _ :: h => calls h

/-- The commands that the calls stand for, at a client with `n` calls before. -/
def commands (p : Nat) : Nat → List Ev → List Vnic.Ev
  | _, [] => []
  | n, .connect dst dport _ :: h => .openSocket p (n + 1) (.connect dst dport) :: commands p (n + 1) h
  | n, .listen port _ :: h => .openSocket p (n + 1) (.listen port) :: commands p (n + 1) h
  | n, .close i :: h => .closeSocket p i :: commands p n h
  | n, _ :: h => commands p n h

/-- The other events at the VNIC. -/
def foreigns : List Ev → List Vnic.Ev
  | [] => []
  | .vnic e :: h => e :: foreigns h
  | _ :: h => foreigns h

/-- The requests of the client library. -/
def requestsOf (l : List (Vnic.Req × Nat)) : List Cli.Ev := l.map fun x => .request (match x.1 with | .listen _ => .listen | _ => .connect) x.2

/-- A message of the VNIC as the client library takes it. -/
def heard : Msg → Cli.Ev
  | .response i (.port q) => .response i (.port q)
  | .response i .busy => .response i (.failure 1)
  | .spawned i t k => .spawned i t k.sourcePort

/-- An event is a request of the program. -/
def isRequest : Cli.Ev → Bool
  | .request _ _ => true
  | _ => false

/-- Nothing is on the way. -/
def Quiet (s : Net) : Prop := s.toVnic = [] ∧ s.toCli = []

end Verif.Session
