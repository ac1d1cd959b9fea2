import Verif.Model.LinkNet
import Verif.Spec.Framed
import Verif.Spec.Switch
import Verif.Spec.Fragment
/-! # Vocabulary for a switch and its links on byte streams -/
namespace Verif.Link

/-- The classes are as in the code: registered, the packets of switching_packets.py, subclasses of `FramedPacketType`. -/
structure Classes.Ok (c : Classes) : Prop where
  registered : c.env.Registered
  wireIs : c.env.classDef c.wire = some wireDef
  announceIs : c.env.classDef c.announce = some announceDef
  wireFramed : c.env.isSub c.wire c.framed = true
  announceFramed : c.env.isSub c.announce c.framed = true
  wireSelf : c.env.isSub c.wire c.wire = true

/-- A string the codec can carry: ASCII, less than 2^16 characters. -/
def Text (s : Str) : Prop := isAscii s = true ∧ s.length < 2 ^ 16

/-- The arguments of what the link sides do fit into their fields. -/
def Fits : Ev → Prop
  | .connect _ a => Text a
  | .announce _ a => Text a
  | .write _ h id data => Text h.source ∧ Text h.destination ∧ h.sourcePort < 2 ^ 16 ∧ h.destinationPort < 2 ^ 16 ∧ id < 2 ^ 32 ∧
      data.length < 2 ^ 64
  | _ => True

/-- The packets the link side of connection `l` writes in a history, in order; `up`: it has a transport at the beginning. -/
def sent (up : Bool) (l : Nat) : List Ev → List Pkt
  | [] => []
  | .connect k a :: h => if k = l then .announce a :: sent true l h else sent up l h
  | .announce k a :: h => if k = l ∧ up then .announce a :: sent up l h else sent up l h
  | .write k hd id data :: h => if k = l ∧ up then (Frag.write hd id data).map .wire ++ sent up l h else sent up l h
  | .lostHost k :: h => if k = l then sent false l h else sent up l h
  | _ :: h => sent up l h

/-- The link side of connection `l` has a transport after the history. -/
def upAfter (up : Bool) (l : Nat) : List Ev → Bool
  | [] => up
  | .connect k _ :: h => upAfter (if k = l then true else up) l h
  | .lostHost k :: h => upAfter (if k = l then false else up) l h
  | _ :: h => upAfter up l h

/-- What the switch sees: a packet from a connection, or the end of a connection. -/
inductive Act where
  | handled (l : Nat) (p : Pkt)
  | lost (l : Nat)
  deriving DecidableEq

/-- The packets from connection `l`, in order. -/
def handledFrom (l : Nat) : List Act → List Pkt
  | [] => []
  | .handled k p :: t => if k = l then p :: handledFrom l t else handledFrom l t
  | .lost _ :: t => handledFrom l t

/-- The connections that ended, in order. -/
def losses : List Act → List Nat
  | [] => []
  | .handled _ _ :: t => losses t
  | .lost l :: t => l :: losses t

/-- The same for a history of events. -/
def lossesIn : List Ev → List Nat
  | [] => []
  | .lostSwitch l :: h => l :: lossesIn h
  | _ :: h => lossesIn h

/-- The registrations and unregistrations in what the switch sees. -/
def ops : List Act → List Switch.Op
  | [] => []
  | .handled l (.announce a) :: t => .register a l :: ops t
  | .handled _ (.wire _) :: t => ops t
  | .lost l :: t => .unregister l :: ops t

/-- A packet to `dst` is for links registered as `addr`: `dst` denotes an address or block, and `addr` is the string of it or of a block enclosing it. -/
def Reaches (dst addr : Str) : Prop := ∃ a, Addr.blockFromString dst = .ok a ∧ addr ∈ (Addr.ancestors 5 a).map Addr.str

instance (dst addr : Str) : Decidable (Reaches dst addr) :=
  match h : Addr.blockFromString dst with
  | .error _ => .isFalse (by rintro ⟨a, ha, _⟩; rw [h] at ha; cases ha)
  | .ok a => if e : addr ∈ (Addr.ancestors 5 a).map Addr.str then .isTrue ⟨a, h, e⟩
    else .isFalse (by rintro ⟨b, hb, he⟩; rw [h] at hb; cases hb; exact e he)

/-- After `before`, the packet is for connection `l`: it is registered with an address the destination reaches. -/
def Receives (before : List Act) (l : Nat) (w : Frag.Wire) : Prop :=
  ∃ a, RegisteredAs (ops before) l a ∧ Reaches w.header.destination a

/-- `ws` are the wire packets among what the switch sees that are for connection `l`, in order, each judged by the registrations before it. -/
inductive Routed (l : Nat) : List Act → List Frag.Wire → Prop where
  | nil : Routed l [] []
  | gets {log ws s w} : Routed l log ws → Receives log l w → Routed l (log ++ [.handled s (.wire w)]) (ws ++ [w])
  | ignored {log ws s w} : Routed l log ws → ¬ Receives log l w → Routed l (log ++ [.handled s (.wire w)]) ws
  | announce {log ws s a} : Routed l log ws → Routed l (log ++ [.handled s (.announce a)]) ws
  | lost {log ws s} : Routed l log ws → Routed l (log ++ [.lost s]) ws

/-- What happens at the link side of `l`: `none` for a chunk of data, `some i` for a timeout of the storage `i`. -/
def inputs (up : Bool) (l : Nat) : List Ev → List (Option Nat)
  | [] => []
  | .connect k _ :: h => if k = l then inputs true l h else inputs up l h
  | .toHost k _ :: h => if k = l ∧ up then none :: inputs up l h else inputs up l h
  | .timeout k i :: h => if k = l then some i :: inputs up l h else inputs up l h
  | .lostHost k :: h => if k = l then inputs false l h else inputs up l h
  | _ :: h => inputs up l h

/-- The kinds of a history of the reassembly. -/
def kinds : List Frag.Ev → List (Option Nat)
  | [] => []
  | .data _ :: h => none :: kinds h
  | .timeout i :: h => some i :: kinds h

/-- The destination does not look like an address without being one. -/
def CalmPkt : Pkt → Prop
  | .announce _ => True
  | .wire w => (∃ a, Addr.blockFromString w.header.destination = .ok a) ∨ ¬ BlockText w.header.destination

/-- The wire packets among packets. -/
def wires : List Pkt → List Frag.Wire
  | [] => []
  | .announce _ :: t => wires t
  | .wire w :: t => w :: wires t

/-- `log` is an account of what the switch has seen in the history `h`, `W` of the wire packets it has routed to each connection, `E` of the wire
packets (chunk by chunk) and timeouts the link side of each connection has seen. -/
structure Explains (c : Classes) (h : List Ev) (log : List Act) (W : Nat → List Frag.Wire) (E : Nat → List Frag.Ev) : Prop where
  /-- what the switch has seen from a connection is what was sent on it, up to some point -/
  handled : ∀ l, handledFrom l log <+: sent false l h
  /-- and all of it, once all bytes have arrived, if no destination makes the switch raise -/
  all : ∀ l, (∀ p ∈ sent false l h, CalmPkt p) → (Net.init.exec c h).toSwitch l = [] → handledFrom l log = sent false l h
  lost : losses log = lossesIn h
  /-- a wire packet is routed to exactly the connections registered, at that point, with an address its destination reaches -/
  routed : ∀ l, Routed l log (W l)
  /-- a link side has seen what was routed to it, up to some point -/
  taken : ∀ l, Frag.packets (E l) <+: W l
  /-- and all of it, once all bytes have arrived -/
  arrived : ∀ l, (Net.init.exec c h).toHost l = [] → Frag.packets (E l) = W l
  happened : ∀ l, kinds (E l) = inputs false l h
  /-- the demuxer's calls are those of the reassembly -/
  got : ∀ l, ((Net.init.exec c h).tx l).got = (Frag.exec [] (E l)).2

/-- Of the announcements among the packets, the last with an address or block that the switch accepts is `a`. -/
def Announced (ps : List Pkt) (a : Str) : Prop :=
  BlockText a ∧ ∃ before after, ps = before ++ .announce a :: after ∧ ∀ a', BlockText a' → .announce a' ∉ after

/-- The wire packets written on connection `s` during `h2`, after `h1`. -/
def written (h1 h2 : List Ev) (s : Nat) : List Frag.Wire := wires (sent (upAfter false s h1) s h2)

/-- Connection `l` is registered as `a` at the end of `h1` and stays so during `h2`: announced, not lost, and neither announced nor lost again. -/
structure Stays (h1 h2 : List Ev) (l : Nat) (a : Str) : Prop where
  announced : Announced (sent false l h1) a
  kept : l ∉ lossesIn h1
  keeps : l ∉ lossesIn h2
  quiet : ∀ x, .connect l x ∉ h2 ∧ .announce l x ∉ h2

/-- All bytes have arrived at the switch, and at the link side of `l`. -/
def Drained (n : Net) (l : Nat) : Prop := (∀ s, n.toSwitch s = []) ∧ n.toHost l = []

/-- No destination makes the switch raise. -/
def Calm (h : List Ev) : Prop := ∀ s, ∀ p ∈ sent false s h, CalmPkt p

end Verif.Link
