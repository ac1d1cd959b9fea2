import Verif.Model.Apps
import Verif.Spec.E2E
import Verif.Spec.Host
import Verif.Spec.E2E
import Verif.Spec.LinkNet
/-! # Vocabulary for applications on VNICs on a switch -/
namespace Verif.Apps

/-- What other processes may do at a VNIC: no raw packets; what they send fits into the packets, and comes in pieces of at most 65536 bytes. -/
def Calm : Vnic.Ev → Prop
  | .rawWire _ _ _ => False
  | .reverse _ d => d.length ≤ 2 ^ 16
  | .openSocket _ _ (.connect dst dport) => E2E.Plain dst ∧ dport < 2 ^ 16
  | _ => True

/-- No VNIC is promiscuous, and other processes are calm; bytes arrive at a VNIC in pieces of at most 65536. -/
def Ok : Ev → Prop
  | .net (.announce _ _) => False
  | .net _ => True
  | .host _ (.other e) id => Calm e ∧ id < 2 ^ 32
  | .host _ (.toSock _ k) id => k ≤ 2 ^ 16 ∧ id < 2 ^ 32
  | .host _ _ id => id < 2 ^ 32

/-- The VNICs have addresses. -/
structure Addresses (addr : Nat → Str) : Prop where
  plain : ∀ v, E2E.Plain (addr v)
  block : ∀ v, BlockText (addr v)
  self : ∀ v, Link.Reaches (addr v) (addr v)

/-- No VNIC that is ever attached to the switch has the address of VNIC `a` (see `E2E.C60_distinct`). -/
def Unique (addr : Nat → Str) (h : List Ev) (a : Nat) : Prop := ∀ v l x, .net (.attach v l) ∈ h → Link.Reaches x (addr v) → Link.Reaches x (addr a) → v = a

/-- Destinations and ports given to calls fit into the packets. -/
def Sane (want : Nat → Nat → Str × Nat) : Prop := ∀ v i, E2E.Plain (want v i).1 ∧ (want v i).2 < 2 ^ 16

/-- VNIC `v` is attached to the switch with connection `l` after `h1` and during `h2`, and the switch did not lose this connection. -/
structure Attached (c : Link.Classes) (want : Nat → Nat → Str × Nat) (addr : Nat → Str) (h1 h2 : List Ev) (v l : Nat) : Prop where
  up : ((World.init addr).exec c want h1).net.link v = some l
  stays : .net (.detach v) ∉ h2
  kept : .net (.lostSwitch l) ∉ h1 ++ h2

/-- The only callback connection that VNIC `a` ever had for socket `k` is `n`, and it goes to the process with the connector, which at `s1` had not yet written
to it. -/
structure Talks (s1 s2 : World) (a n : Nat) (k : Vnic.Key) : Prop where
  peer : (s2.side a).peer n ≠ none
  key : ((s2.net.vnic a).spawn n).key = k
  only : ∀ m, m < (s2.net.vnic a).nSpawn → ((s2.net.vnic a).spawn m).key = k → m = n
  fresh : (s1.side a).wrote n = []

/-- From `s1` to `s2` VNIC `b` has, or accepts, the connection with socket `k`, for which nothing had arrived at `s1`, and it is open with callback connection
`n`. -/
structure Listens (s1 s2 : World) (b n : Nat) (k : Vnic.Key) : Prop where
  conn : ∃ i, E2E.Holds (s1.net.vnic b) (s2.net.vnic b) k i ∧ ((s2.net.vnic b).conn i).writer = .tr n ∧ E2E.received (s1.net.vnic b) i = []

/-- The setting of the theorems: VNICs `a` and `b` are attached to the switch after `h1` and during `h2`, and after `h1` no bytes are on their way to `b`; the
process at `a` writes on its callback connection `n` with socket `k`, and the one at `b` gets on its callback connection `m`. -/
structure Setting (c : Link.Classes) (want : Nat → Nat → Str × Nat) (addr : Nat → Str) (h1 h2 : List Ev) (a n b m : Nat) (k : Vnic.Key) : Prop where
  classes : c.Ok
  addresses : Addresses addr
  unique : Unique addr (h1 ++ h2) a
  sane : Sane want
  ok : ∀ e ∈ h1 ++ h2, Ok e
  a_on : ∃ l, Attached c want addr h1 h2 a l
  b_on : ∃ l, Attached c want addr h1 h2 b l ∧ E2E.Quiet ((World.init addr).exec c want h1).net l
  talks : Talks ((World.init addr).exec c want h1) ((World.init addr).exec c want (h1 ++ h2)) a n k
  listens : Listens ((World.init addr).exec c want h1) ((World.init addr).exec c want (h1 ++ h2)) b m k.inverse

/-- Socket `k` goes from `a` to `b`. -/
def Between (addr : Nat → Str) (a b : Nat) (k : Vnic.Key) : Prop := Link.Reaches k.source (addr a) ∧ Link.Reaches k.destination (addr b)

/-- What the application on callback protocol `m` at VNIC `b` has got. -/
def appGot (w : World) (b m : Nat) : Bytes := Host.appGot (w.host b) m

end Verif.Apps
