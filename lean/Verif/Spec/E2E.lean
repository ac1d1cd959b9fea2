import Verif.Model.E2E
import Verif.Spec.LinkNet
import Verif.Spec.Vnic
/-! # Vocabulary for sockets between VNICs -/
namespace Verif.E2E

/-- What happens on the connections and in the switch in a history. -/
def netHist (c : Link.Classes) : World → List Ev → List Link.Ev
  | _, [] => []
  | w, e :: h => netEv w e ++ netHist c (w.step c e) h

/-- What happens in VNIC `u` in a history. -/
def vnicHist (c : Link.Classes) (u : Nat) : World → List Ev → List Vnic.Ev
  | _, [] => []
  | w, e :: h => vnicEv c w u e ++ vnicHist c u (w.step c e) h

/-- The callback connection `n` of a VNIC is open. -/
def Live (s : Vnic.St) (n : Nat) : Prop := n < s.nSpawn ∧ (s.spawn n).stage ≠ .connecting ∧ (s.spawn n).lost = false

instance (s : Vnic.St) (n : Nat) : Decidable (Live s n) := by unfold Live; infer_instance

/-- What the applications on VNIC `v` send: data on an open callback connection, for the socket it belongs to, or a packet on a control connection; while
the VNIC is attached to the switch. -/
def sentNow (w : World) (v : Nat) : Ev → List (Vnic.Key × Bytes)
  | .own u (.reverse n d) _ => if u = v ∧ w.link v ≠ none ∧ Live (w.vnic v) n then [(((w.vnic v).spawn n).key, d)] else []
  | .own u (.rawWire p k d) _ => if u = v ∧ w.link v ≠ none ∧ p ∈ (w.vnic v).up then [(k, d)] else []
  | _ => []

/-- The same in a history, in order. -/
def sentBy (c : Link.Classes) (v : Nat) : World → List Ev → List (Vnic.Key × Bytes)
  | _, [] => []
  | w, e :: h => sentNow w v e ++ sentBy c v (w.step c e) h

/-- The bytes sent with the key `k`. -/
def bytesOn (k : Vnic.Key) (l : List (Vnic.Key × Bytes)) : Bytes := (l.filter fun x => x.1 = k).flatMap (·.2)

/-- What the application has got, or will get when its callback connection is there, on connection object `i` of a VNIC. -/
def received (s : Vnic.St) (i : Nat) : Bytes :=
  if i < s.nConn then (match (s.conn i).writer with
    | .buf b => b
    | .tr t => Vnic.written s.out t) else []

/-- VNIC `v` is attached to the switch with connection `l` after `h1` and during `h2`; the switch did not lose this connection; the VNIC is not promiscuous;
its address is one. -/
structure OnSwitch (c : Link.Classes) (addr : Nat → Str) (h1 h2 : List Ev) (v l : Nat) : Prop where
  attached : ((World.init addr).exec c h1).link v = some l
  stays : .detach v ∉ h2
  kept : .lostSwitch l ∉ h1 ++ h2
  plain : ∀ a, .announce v a ∉ h1 ++ h2
  address : BlockText (addr v)

/-- All bytes have arrived at the switch, and at the link side of connection `l`. -/
def Quiet (w : World) (l : Nat) : Prop := Link.Drained w.net l

/-- What VNICs hand to the switch fits into the packets. -/
def Sound (c : Link.Classes) (addr : Nat → Str) (h : List Ev) : Prop := ∀ e ∈ netHist c (.init addr) h, Link.Fits e

/-- No destination makes the switch raise. -/
def Calm (c : Link.Classes) (addr : Nat → Str) (h : List Ev) : Prop := Link.Calm (netHist c (.init addr) h)

/-- From `s1` to `s2` the VNIC has, or accepts, the connection `i` with the key `k`, and it is open all the time: it is open at the end, and at the
beginning it is open, or else a socket is listening that is still open at the end, and no other connection with this key was made. -/
structure Holds (s1 s2 : Vnic.St) (k : Vnic.Key) (i : Nat) : Prop where
  now : s2.conns.get k = some i
  before : s1.conns.get k = some i ∨ (s1.conns.get k = none ∧
    (∃ c, Vnic.OpenOn s1 c k.sourcePort ∧ (s1.ctl c).listener = true ∧ (s2.ctl c).closed = false) ∧
    ∀ j, s1.nConn ≤ j → j < s2.nConn → (s2.conn j).key = k → j = i)

/-- The string fits into a packet, and is an address or block or does not look like one. -/
def Plain (x : Str) : Prop := Link.Text x ∧ ((∃ a, Addr.blockFromString x = .ok a) ∨ ¬ BlockText x)

/-- Its parts fit into a packet. -/
def GoodKey (k : Vnic.Key) : Prop := Plain k.source ∧ k.sourcePort < 2 ^ 16 ∧ Plain k.destination ∧ k.destinationPort < 2 ^ 16

/-- What the applications give to a VNIC fits into the packets. -/
def GoodInput : Vnic.Ev → Prop
  | .openSocket _ _ (.connect dst dport) => Plain dst ∧ dport < 2 ^ 16
  | .rawWire _ k d => GoodKey k ∧ d.length < 2 ^ 64
  | .reverse _ d => d.length < 2 ^ 64
  | _ => True

/-- What comes from outside the network fits into the packets. -/
def Proper : Ev → Prop
  | .announce _ a => Link.Text a
  | .own _ e id => GoodInput e ∧ id < 2 ^ 32
  | _ => True

/-- The event is a packet that an application gives to its VNIC as it is. -/
def IsRaw : Ev → Prop
  | .own _ (.rawWire _ _ _) _ => True
  | _ => False

end Verif.E2E
