import Verif.Model.Dict
import Verif.Model.StreamIO
import Verif.Model.PyStr
/-! # network/devices/vnic/VNIC.py and the VNIC side of network/protocols/vsockets.py

Python objects are numbers into heaps (`ctl`: `SocketControl`, `conn`: `ConnectionData`, `spawn`: the task opening a
callback connection together with its `ReverseOutboundSocketProtocol` and transport). Control connections
(`VNICSocketControlProtocol`) are numbered by the environment. Each packet of a control connection and each packet
given to `demux` is one event. `transport.close()` is asynchronous as in asyncio: the resulting `connection_lost` is
a later event. Everything visible outside is appended to `out`. -/
namespace Verif.Vnic

/-- `PortKey` (PortKey.py:3-8); `__eq__`/`__hash__` (19-31) compare the four parts. -/
structure Key where
  source : Str
  sourcePort : Nat
  destination : Str
  destinationPort : Nat
  deriving DecidableEq

/-- `inverseKey` (PortKey.py:10-11). -/
def Key.inverse (k : Key) : Key := ⟨k.destination, k.destinationPort, k.source, k.sourcePort⟩

/-- `SocketControl` (vsockets.py:26-34); `listener`: the type is `SOCKET_TYPE_LISTEN`. -/
structure Ctl where
  connectionId : Nat
  listener : Bool
  proto : Nat
  port : Option Nat
  spawned : List Key
  closed : Bool
  deriving DecidableEq

/-- `ConnectionData.writer`: a `BytesIO`, later the transport of the callback connection (VNIC.py:21, 28). -/
inductive Writer where
  | buf (b : Bytes)
  | tr (n : Nat)
  deriving DecidableEq

/-- `ConnectionData` (VNIC.py:17-22). -/
structure Conn where
  key : Key
  control : Nat
  writer : Writer
  deriving DecidableEq

/-- Progress of `loop.create_connection` and its done callback (vsockets.py:98-102). -/
inductive Stage where
  | connecting
  | connected       -- connection_made was called, `_spawnFinished` not yet
  | finished        -- `_spawnFinished` was called
  deriving DecidableEq

/-- One call of `SocketControl.spawnConnection` (vsockets.py:92-102). -/
structure Spawn where
  control : Nat
  key : Key
  stage : Stage
  lost : Bool       -- connection_lost of the callback connection was called
  deriving DecidableEq

/-- Answer in a `VNICSocketOpenResponsePacket` (vsockets.py:222-262). -/
inductive Resp where
  | port (p : Nat)
  | busy            -- errorCode 1
  deriving DecidableEq

/-- What can be seen from outside. -/
inductive Eff where
  | write (t : Nat) (d : Bytes)                            -- data written to callback transport `t`
  | close (t : Nat)                                        -- callback transport `t` closed
  | respond (proto id : Nat) (r : Resp)                    -- VNICSocketOpenResponsePacket
  | announce (proto id t : Nat) (k : Key)                  -- VNICConnectionSpawnedPacket
  | link (k : Key) (d : Bytes)                             -- handed to the link (`PlaygroundSwitchTxProtocol.write`)
  | dump (proto : Nat) (k : Key) (d : Bytes)               -- WirePacket to a dumping control connection
  | raised                                                 -- an exception left the handler
  | hang                                                   -- the free port generator never yields
  deriving DecidableEq

structure St where
  address : Str
  ports : Dict Nat Nat              -- _ports: port → control object
  conns : Dict Key Nat              -- _connections: key → ConnectionData object
  cursor : Nat                      -- state of the generator _freePorts
  ctl : Nat → Ctl
  nCtl : Nat
  conn : Nat → Conn
  nConn : Nat
  spawn : Nat → Spawn
  nSpawn : Nat
  up : List Nat                     -- control connections with a transport
  ids : Nat → Dict Nat Nat          -- _control of each control connection
  dumps : List Nat                  -- _dumps
  linkUp : Bool                     -- _linkTx and its transport are there
  out : List Eff

/-- `VNIC(address)` (VNIC.py:44-57). -/
def St.init (address : Str) : St where
  address := address
  ports := []
  conns := []
  cursor := 2000
  ctl := fun _ => ⟨0, false, 0, none, [], true⟩
  nCtl := 0
  conn := fun _ => ⟨⟨[], 0, [], 0⟩, 0, .buf []⟩
  nConn := 0
  spawn := fun _ => ⟨0, ⟨[], 0, [], 0⟩, .finished, true⟩
  nSpawn := 0
  up := []
  ids := fun _ => []
  dumps := []
  linkUp := false
  out := []

/-- Assignment to one cell of a heap. -/
def upd {α} (f : Nat → α) (i : Nat) (x : α) : Nat → α := fun j => if j = i then x else f j

def St.emit (s : St) (e : Eff) : St := { s with out := s.out ++ [e] }

def St.setCtl (s : St) (c : Nat) (x : Ctl) : St := { s with ctl := upd s.ctl c x }

/-! ## Closing (the functions call each other) -/

/-- `ConnectionData.close`, first part (VNIC.py:34-37). -/
def closeWriter (s : St) : Writer → St
  | .buf _ => s
  | .tr t => s.emit (.close t)

/-- `SocketControl.spawnedConnectionClosed` (vsockets.py:71-81); `close` is `SocketControl.close`. -/
def spawnedClosed (close : St → Nat → St) (s : St) (c : Nat) (k : Key) : St :=
  let s1 := s.setCtl c { s.ctl c with spawned := (s.ctl c).spawned.erase k }
  if (s.ctl c).closed = false ∧ (s.ctl c).listener = false then close s1 c else s1

/-- `VNIC.closeConnection` (VNIC.py:184-192) with `ConnectionData.close` (VNIC.py:33-38). -/
def closeConnWith (close : St → Nat → St) (s : St) (k : Key) : St :=
  match s.conns.get k with
  | none => s
  | some i =>
    spawnedClosed close (closeWriter { s with conns := s.conns.del k } (s.conn i).writer) (s.conn i).control (s.conn i).key

/-- `for portKey in portKeys: self.device().closeConnection(portKey)` (vsockets.py:53-55). -/
def closeConnsWith (close : St → Nat → St) : St → List Key → St
  | s, [] => s
  | s, k :: ks => closeConnsWith close (closeConnWith close s k) ks

/-- `VNIC.closePort` (VNIC.py:194-198). -/
def closePortWith (close : St → Nat → St) (s : St) (p : Nat) : St :=
  match s.ports.get p with
  | none => s
  | some c => close { s with ports := s.ports.del p } c

/-- `(self._port != None) and self.device().closePort(self._port)` (vsockets.py:56). -/
def closeOwnPort (close : St → Nat → St) (s : St) : Option Nat → St
  | none => s
  | some p => closePortWith close s p

/-- `SocketControl.close` (vsockets.py:45-56), at most `fuel` calls deep. Each level marks one more control object as
closed, so `nCtl + 1` levels are enough (`close_fuel`). -/
def closeFuel : Nat → St → Nat → St
  | 0, s, _ => s
  | f + 1, s, c =>
    if (s.ctl c).closed then s
    else
      let s1 := s.setCtl c { s.ctl c with closed := true, spawned := [] }
      closeOwnPort (closeFuel f) (closeConnsWith (closeFuel f) s1 (s.ctl c).spawned) (s.ctl c).port

/-- `SocketControl.close` (vsockets.py:45-56). -/
def close (s : St) (c : Nat) : St := closeFuel (s.nCtl + 1) s c

/-- `VNIC.closeConnection`. -/
def closeConnection (s : St) (k : Key) : St := closeConnWith close s k

/-- `SocketControl.closeSpawnedConnection` (vsockets.py:58-69). -/
def closeSpawned (s : St) (c : Nat) (k : Key) : St :=
  if (s.ctl c).listener then closeConnection s k else close s c

/-! ## Opening -/

/-- First free port in `[lo, 65535)` (VNIC.py:61-63). -/
def firstFree (ports : Dict Nat Nat) (lo : Nat) : Option Nat :=
  (List.range' lo (65535 - lo)).find? fun i => !ports.has i

/-- `next(self._freePorts)` (VNIC.py:59-63): from the place where the generator stopped to the end of the range, then from its
beginning; `none`: it loops for ever. -/
def nextPort (s : St) : Option Nat :=
  match firstFree s.ports s.cursor with
  | some p => some p
  | none => firstFree s.ports 2000

/-- `SocketControl.spawnConnection` (vsockets.py:92-102). The exception for a second connection of an outbound socket
(93-94) cannot occur: it is called once, directly after the creation of the socket (VNIC.py:172). -/
def startSpawn (s : St) (c : Nat) (k : Key) : St :=
  { s with spawn := upd s.spawn s.nSpawn ⟨c, k, .connecting, false⟩, nSpawn := s.nSpawn + 1 }

/-- `self._connections[k] = ConnectionData(k, control)`, and `write(data)` (VNIC.py:153-154, 171). -/
def newConn (s : St) (c : Nat) (k : Key) (d : Bytes) : St :=
  { s with conn := upd s.conn s.nConn ⟨k, c, .buf d⟩, nConn := s.nConn + 1, conns := s.conns.set k s.nConn }

/-- `SocketControl(...)`, stored in the dictionary of the control connection (vsockets.py:230-234, 248-252). -/
def newCtl (s : St) (proto id : Nat) (listener : Bool) : St :=
  { s with ctl := upd s.ctl s.nCtl ⟨id, listener, proto, none, [], false⟩, nCtl := s.nCtl + 1,
           ids := upd s.ids proto ((s.ids proto).set id s.nCtl) }

/-- `control.setPort(port)` (vsockets.py:39-40). -/
def setPort (s : St) (c p : Nat) : St := s.setCtl c { s.ctl c with port := some p }

/-- The connect branch of `socketOpenReceived` (vsockets.py:229-245) with `createOutboundSocket` (VNIC.py:165-174). -/
def openConnect (s : St) (proto id : Nat) (dst : Str) (dport : Nat) : St :=
  match nextPort s with
  | none => (newCtl s proto id false).emit .hang
  | some p =>
    let s1 := { newCtl s proto id false with cursor := p + 1, ports := s.ports.set p s.nCtl }
    let k : Key := ⟨s.address, p, dst, dport⟩
    (setPort (startSpawn (newConn s1 s.nCtl k []) s.nCtl k) s.nCtl p).emit (.respond proto id (.port p))

/-- The listen branch of `socketOpenReceived` (vsockets.py:247-262) with `createInboundSocket` (VNIC.py:176-182). -/
def openListen (s : St) (proto id : Nat) (p : Nat) : St :=
  if s.ports.has p then (newCtl s proto id true).emit (.respond proto id .busy)
  else
    let s1 := { newCtl s proto id true with ports := s.ports.set p s.nCtl }
    (setPort s1 s.nCtl p).emit (.respond proto id (.port p))

/-- What an open packet asks for (vsocket_packets.py:39-43); `other`: both or none of `connectData`, `listenData`. -/
inductive Req where
  | connect (dst : Str) (dport : Nat)
  | listen (port : Nat)
  | other
  deriving DecidableEq

/-- `socketOpenReceived` (vsockets.py:221-265). For `other` the response lacks its port and serializing it raises. -/
def openSocket (s : St) (proto id : Nat) (r : Req) : St :=
  if (s.ids proto).has id then s.emit (.respond proto id .busy)
  else match r with
    | .connect dst dport => openConnect s proto id dst dport
    | .listen p => openListen s proto id p
    | .other => s.emit .raised

/-- `controlLost` (vsockets.py:150-154). -/
def closeId (s : St) (proto id : Nat) : St :=
  match (s.ids proto).get id with
  | none => s
  | some c =>
    let s1 := close s c
    { s1 with ids := upd s1.ids proto ((s1.ids proto).del id) }

/-- The loop of `connection_lost` (vsockets.py:171-176). -/
def closeAll : St → List Nat → St
  | s, [] => s
  | s, c :: cs => closeAll (close s c) cs

/-- `VNICSocketControlProtocol.connection_lost` (vsockets.py:166-178). -/
def ctlLost (s : St) (proto : Nat) : St :=
  let s1 := closeAll { s with dumps := s.dumps.erase proto } (s.ids proto).vals
  { s1 with ids := upd s1.ids proto [], up := s1.up.erase proto }

/-! ## Data -/

/-- The first loop of `demux` (VNIC.py:128-132). -/
def dumpAll (s : St) (k : Key) (d : Bytes) : St :=
  { s with out := s.out ++ s.dumps.map fun p => .dump p k d }

/-- `ConnectionData.write` (VNIC.py:30-31). -/
def writeConn (s : St) (i : Nat) (d : Bytes) : St :=
  match (s.conn i).writer with
  | .buf b => { s with conn := upd s.conn i { s.conn i with writer := .buf (b ++ d) } }
  | .tr t => s.emit (.write t d)

/-- `demux` after the dumps (VNIC.py:134-158); `k` is the local key. -/
def demuxLocal (s : St) (k : Key) (d : Bytes) : St :=
  match s.conns.get k with
  | some i => writeConn s i d
  | none =>
    match s.ports.get k.sourcePort with
    | none => s
    | some c => if (s.ctl c).listener then startSpawn (newConn s c k d) c k else s

/-- `demux` (VNIC.py:126-158); `k` is the remote key. -/
def demux (s : St) (k : Key) (d : Bytes) : St := demuxLocal (dumpAll s k d) k.inverse d

/-- `sendConnectionSpawned` (vsockets.py:268-278). -/
def announce (s : St) (c t : Nat) (k : Key) : St :=
  if (s.ctl c).proto ∈ s.up then s.emit (.announce (s.ctl c).proto (s.ctl c).connectionId t k) else s.emit .raised

/-- `ConnectionData.setProtocol` (VNIC.py:24-28), then the rest of `_spawnFinished` (vsockets.py:118-121). -/
def attach (s : St) (i n : Nat) : Writer → St
  | .tr _ => s.emit .raised
  | .buf b =>
    let s1 := if b = [] then s else s.emit (.write n b)
    announce { s1 with conn := upd s1.conn i { s1.conn i with writer := .tr n } } (s.spawn n).control n (s.spawn n).key

/-- `_spawnFinished` for a connection that was made (vsockets.py:112-121). -/
def spawnFinished (s : St) (n : Nat) : St :=
  let c := (s.spawn n).control
  let k := (s.spawn n).key
  let s1 := { s with spawn := upd s.spawn n { s.spawn n with stage := .finished } }
  let s2 := s1.setCtl c { s1.ctl c with spawned := if k ∈ (s1.ctl c).spawned then (s1.ctl c).spawned else (s1.ctl c).spawned ++ [k] }
  match s2.conns.get k with
  | none => s2.emit .raised
  | some i => attach s2 i n (s2.conn i).writer

/-- `VNIC.write` (VNIC.py:207-211). -/
def linkWrite (s : St) (k : Key) (d : Bytes) : St := if s.linkUp then s.emit (.link k d) else s

/-! ## Events -/

inductive Ev where
  | ctlMade (proto : Nat)                           -- connection_made of a control connection
  | ctlLost (proto : Nat)
  | openSocket (proto id : Nat) (r : Req)           -- VNICSocketOpenPacket
  | closeSocket (proto id : Nat)                    -- VNICSocketClosePacket
  | startDump (proto : Nat)
  | stopDump (proto : Nat)
  | rawWire (proto : Nat) (k : Key) (d : Bytes)     -- WirePacket on a control connection
  | data (k : Key) (d : Bytes)                      -- demux
  | connected (n : Nat)                             -- callback connection n made
  | failed (n : Nat)                                -- callback connection n could not be made
  | finished (n : Nat)                              -- done callback of task n
  | lost (n : Nat)                                  -- callback connection n lost
  | reverse (n : Nat) (d : Bytes)                   -- data received on callback connection n
  | linkUp
  | linkDown
  deriving DecidableEq

/-- One event. Events that cannot occur (for instance a packet on a control connection that is not there) change nothing. -/
def step (s : St) : Ev → St
  | .ctlMade p => if p ∈ s.up then s else { s with up := s.up ++ [p] }
  | .ctlLost p => if p ∈ s.up then ctlLost s p else s
  | .openSocket p i r => if p ∈ s.up then openSocket s p i r else s
  | .closeSocket p i => if p ∈ s.up then closeId s p i else s
  | .startDump p => if p ∈ s.up ∧ p ∉ s.dumps then { s with dumps := s.dumps ++ [p] } else s
  | .stopDump p => { s with dumps := s.dumps.erase p }
  | .rawWire p k d => if p ∈ s.up then linkWrite s k d else s
  | .data k d => demux s k d
  | .connected n => if n < s.nSpawn ∧ (s.spawn n).stage = .connecting then
      { s with spawn := upd s.spawn n { s.spawn n with stage := .connected } } else s
  | .failed n => if n < s.nSpawn ∧ (s.spawn n).stage = .connecting then
      close { s with spawn := upd s.spawn n { s.spawn n with stage := .finished, lost := true } } (s.spawn n).control else s
  | .finished n => if n < s.nSpawn ∧ (s.spawn n).stage = .connected then spawnFinished s n else s
  | .lost n => if n < s.nSpawn ∧ (s.spawn n).stage ≠ .connecting ∧ (s.spawn n).lost = false then
      closeSpawned { s with spawn := upd s.spawn n { s.spawn n with lost := true } } (s.spawn n).control (s.spawn n).key else s
  | .reverse n d => if n < s.nSpawn ∧ (s.spawn n).stage ≠ .connecting ∧ (s.spawn n).lost = false then
      linkWrite s (s.spawn n).key d else s
  | .linkUp => { s with linkUp := true }
  | .linkDown => { s with linkUp := false }

/-- A history. -/
def exec (s : St) : List Ev → St
  | [] => s
  | e :: h => exec (step s e) h

end Verif.Vnic
