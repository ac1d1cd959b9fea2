import Verif.Model.Address
/-! # The VNIC's link to the switch and its promiscuous level (devices/vnic/VNIC.py:62-119, protocols/switching.py:93-108, 162-164)

The `PlaygroundSwitchTxProtocol` objects are numbered in the order of their creation. An announcement is the string in the
`AnnounceLinkPacket` (the STRING field stores `str` of the address object, PacketFieldType.py). What the control protocol does with
a `VNICPromiscuousLevelPacket` (vsockets.py:203-213) is the event `setLevel` and the function `promiscuousLevel`. -/
namespace Verif.Prom

inductive Eff where
  | announce (tx : Nat) (address : Str)     -- AnnounceLinkPacket written on the link of `tx`
  | close (tx : Nat)                        -- transport closed
  | raised                                  -- AttributeError: None has no attribute
  deriving DecidableEq

structure St where
  address : Addr
  mode : Option Nat        -- _promiscuousMode
  connected : Bool         -- _connectedToNetwork
  link : Option Nat        -- _linkTx
  up : Nat → Bool          -- transport of each Tx protocol is not None
  nTx : Nat
  out : List Eff

/-- `VNIC(address)` (VNIC.py:44-57). -/
def St.init (a : Addr) : St := ⟨a, none, false, none, fun _ => false, 0, []⟩

def St.emit (s : St) (e : Eff) : St := { s with out := s.out ++ [e] }

/-- `promiscuousLevel` (VNIC.py:65-67). -/
def promiscuousLevel (s : St) : Nat := match s.mode with
  | none => 0
  | some l => l

/-- `for i in range(level): listeningBlock = listeningBlock.getParentBlock()` (VNIC.py:90-91); `none` when it raises because a
block without parent was reached. -/
def parents : Nat → Addr → Option Addr
  | 0, a => some a
  | n + 1, a => match a.getParentBlock with
    | none => none
    | some b => parents n b

/-- `PlaygroundSwitchTxProtocol.changeRegisteredAddress` (switching.py:105-108). -/
def change (s : St) (tx : Nat) (a : Str) : St := if s.up tx then s.emit (.announce tx a) else s.emit .raised

/-- `_updateRegisteredAddress` (VNIC.py:86-92). -/
def update (s : St) (level : Nat) : St :=
  if s.connected then
    match parents level s.address, s.link with
    | some b, some tx => change s tx b.str
    | _, _ => s.emit .raised
  else s

/-- The level that `setPromiscuousLevel` uses (VNIC.py:81-82). -/
def clampLevel : Option Int → Nat
  | none => 0
  | some l => if l < 0 then 0 else if l > 4 then 4 else l.toNat

/-- `setPromiscuousLevel` (VNIC.py:69-85). -/
def setLevel (s : St) (l : Option Int) : St :=
  if s.mode ≠ some (clampLevel l) then update { s with mode := some (clampLevel l) } (clampLevel l) else s

/-- `switchConnectionFactory` (VNIC.py:100-104). -/
def factory (s : St) : St :=
  let s1 := match s.link with
    | some tx => if s.up tx then s.emit (.close tx) else s
    | none => s
  { s1 with link := some s.nTx, nTx := s.nTx + 1 }

/-- `PlaygroundSwitchTxProtocol.connection_made` (switching.py:100-103) and `VNIC.connectionMade` (VNIC.py:115-119). -/
def made (s : St) (tx : Nat) : St :=
  let s1 := change { s with up := fun n => if n = tx then true else s.up n } tx s.address.str
  let s2 := { s1 with connected := true }
  if promiscuousLevel s2 ≠ 0 then update s2 (promiscuousLevel s2) else s2

/-- `PlaygroundSwitchTxProtocol.connection_lost` (switching.py:162-164) and `VNIC.connectionLost` (VNIC.py:121-124). -/
def lost (s : St) (tx : Nat) : St :=
  { s with up := fun n => if n = tx then false else s.up n, connected := false, link := none }

inductive Ev where
  | setLevel (l : Option Int)
  | factory              -- a new connection to the switch is being opened
  | made (tx : Nat)
  | lost (tx : Nat)
  deriving DecidableEq

def step (s : St) : Ev → St
  | .setLevel l => setLevel s l
  | .factory => factory s
  | .made tx => made s tx
  | .lost tx => lost s tx

def exec (s : St) : List Ev → St
  | [] => s
  | e :: h => exec (step s e) h

end Verif.Prom
