import Verif.Model.Switch
import Verif.Model.Wan
/-! # network/devices/routing/HierarchyRouter.py and the links of HierarchyWAN.py

Prefixes are integers, as in launch_wan.py. The connection of device `i` is the protocol instance `dev i`, the `j`-th end of a direct link
`lnk j`. A LAN switch is made by `registerLANSwitch(prefix)` without the second argument and is never replaced, so that a switch object is
identified by its prefix. Writing to a direct link calls `data_received` at the other end at once; one `write` is one packet, and the packet
comes out of the Deserializer there (`C54_any_chunking`). The depth of such calls is bounded by the fuel (Python: by the recursion limit).
What is written to the transport of a device is collected in `out`. Logging and `print` are not modelled. -/
namespace Verif.WanNet

/-- The protocol instance of a device. -/
def dev (i : Nat) : Nat := 2 * i
/-- The protocol instance at one end of a direct link. -/
def lnk (j : Nat) : Nat := 2 * j + 1

/-- `"{}.0.0.0".format(prefix)` (HierarchyRouter.py:100, HierarchyWAN.py:88-89). -/
def hub (p : Int) : Str := intStr p ++ ['.', '0', '.', '0', '.', '0']

/-- `HierarchyRouter` (HierarchyRouter.py:25-30); `lan` is the prefix of the switch object `_switch`. -/
structure Router where
  loc : Option Int    -- _prefix
  lan : Option Int    -- _switch
  own : Switch        -- its own tables
  deriving DecidableEq

structure Net where
  routes : Wan.Table Int
  lans : Dict Int Switch             -- _switches
  direct : Dict Int (Dict Int Nat)   -- _directLinks, with the number of the end
  routers : Dict Nat Router          -- the router of each device that ever connected
  conns : List Nat                   -- the keys of _connections
  peers : Nat → Option (Int × Nat)   -- of an end of a direct link: the prefix of its switch, and the other end
  up : List Nat                      -- the instances whose `transport` is not `None`
  out : List (Nat × SPkt)            -- written to the devices
  ends : Nat                         -- number of ends made so far
  draws : Nat                        -- number of calls of `random.random()` so far

/-- A new WAN (HierarchyWAN.py:20-25). -/
def Net.new : Net := ⟨[], [], [], [], [], fun _ => none, [], [], 0, 0⟩

/-- The result of each `random.random() < self._WAN.getRoutingLossRate()` (HierarchyWAN.py:14) and the depth of calls. -/
structure Cfg where
  loss : Nat → Bool
  depth : Nat

namespace Net

/-- A call of `registerLink` or `unregisterLink` of the switch at `p`. That these never raise (`KeyError`) is `C56_no_key_error`. -/
def lanDo (n : Net) (p : Int) (f : Switch → Except SwErr Switch) : Net :=
  match n.lans.get p with
  | none => n
  | some s => match f s with
    | .error _ => n
    | .ok s' => { n with lans := n.lans.set p s' }

/-! ## The router of a device -/

/-- The first half of `setPrefix` (HierarchyRouter.py:33-36). -/
def leave (n : Net) (r : Router) : Net :=
  match r.lan with
  | none => n
  | some p => r.own.linkToAddress.keys.foldl (fun n k => n.lanDo p (·.unregisterLink k)) n

/-- The second half of `setPrefix` (HierarchyRouter.py:41-44). -/
def enter (n : Net) (r : Router) : Net :=
  match r.lan with
  | none => n
  | some p => r.own.linkToAddress.foldl (fun n e => n.lanDo p (·.registerLink e.2 e.1)) n

/-- `setPrefix(prefix, switch)` (HierarchyRouter.py:32-44) of the router of device `i`. -/
def setPrefix (n : Net) (i : Nat) (loc lan : Option Int) : Net :=
  match n.routers.get i with
  | none => n
  | some r =>
    let r' : Router := { r with loc := loc, lan := lan }
    let n := n.leave r
    enter { n with routers := n.routers.set i r' } r'

/-- `super().unregisterLink(protocol)` or `super().registerLink` on the own tables of a router. -/
def ownDo (n : Net) (i : Nat) (f : Switch → Except SwErr Switch) : Net :=
  match n.routers.get i with
  | none => n
  | some r => match f r.own with
    | .error _ => n
    | .ok s => { n with routers := n.routers.set i { r with own := s } }

/-- `unregisterLink` (HierarchyRouter.py:46-62); `release` is `not self._hack_dontReleaseConnection`. -/
def routerUnregister (n : Net) (i : Nat) (release : Bool) : Net :=
  let n := n.setPrefix i none none
  let n := if release then { n with conns := n.conns.erase i } else n
  n.ownDo i (·.unregisterLink (dev i))

/-- `registerLink` (HierarchyRouter.py:64-74, Switch.py:27-38, with `unregisterLink` overridden). -/
def routerRegister (n : Net) (i : Nat) (a : Str) : Net :=
  if Addr.isValidBlockString a then
    (n.routerUnregister i false).ownDo i fun s => .ok (s.addLink a (dev i))
  else n

/-- `nextHop` as used in `getOutboundLinks` (HierarchyRouter.py:95-98): a wild card is no prefix, and the number 0 counts as no hop. -/
def hop (n : Net) (loc : Option Int) (dst : APart) : Option Int :=
  match loc, dst with
  | some p, .num q =>
    match Wan.nextHop n.routes p q with
    | some h => if h = 0 then none else some h
    | none => none
  | _, _ => none

/-- The switch at a prefix. -/
def lan (n : Net) (p : Int) : Switch := (n.lans.get p).getD Switch.new

/-- `dstPrefix != self._prefix` (HierarchyRouter.py:93). -/
def foreign (loc : Option Int) (dst : APart) : Bool :=
  match loc with
  | some p => decide (dst ≠ .num p)
  | none => true

/-- The links towards the next hop (HierarchyRouter.py:95-102). -/
def viaHop (n : Net) (p : Int) (loc : Option Int) (dst : APart) (ls : List Nat) : Except SwErr (List Nat) :=
  match n.hop loc dst with
  | none => .ok ls
  | some h => match (n.lan p).getOutboundLinks (hub h) with
    | .error e => .error e
    | .ok ms => .ok (Switch.union ls ms)

/-- `getOutboundLinks` (HierarchyRouter.py:79-103) of a router. -/
def outbound (n : Net) (r : Router) (d : Str) : Except SwErr (List Nat) :=
  if Addr.isValidBlockString d then
    match r.lan with
    | none => .ok []
    | some p =>
      match Addr.blockFromString d with
      | .error _ => .error .invalidAddress
      | .ok a =>
        match (n.lan p).getOutboundLinks d with
        | .error e => .error e
        | .ok ls => if foreign r.loc a.zone then n.viaHop p r.loc a.zone ls else .ok ls
  else .ok []

/-! ## Packets on the links -/

/-- `for destinationProtocol in destinations: destinationProtocol.transport.write(...)` (switching.py:47-52). The exception that ends the
loop is caught in `data_received` (switching.py:33-37). -/
def writeEach (wr : Net → Nat → Option Net) (n : Net) : List Nat → Net
  | [] => n
  | l :: ls => match wr n l with
    | none => n
    | some n' => writeEach wr n' ls

/-- The end `k` of a direct link receives a packet (switching.py:39-54). -/
def receive (wr : Net → Nat → SPkt → Option Net) (n : Net) (k : Nat) (p : SPkt) : Net :=
  match n.peers k with
  | none => n
  | some (pfx, _) => match p with
    | .announce a => n.lanDo pfx (·.registerLink a k)
    | .wire d x => match (n.lan pfx).getOutboundLinks d with
      | .error _ => n
      | .ok ls => writeEach (fun n l => wr n l (.wire d x)) n ls
    | .other => n

/-- `protocol.transport.write(...)`; `none`: there is no transport. On a direct link (HierarchyWAN.py:13-16) the packet may be lost. -/
def write (c : Cfg) : Nat → Net → Nat → SPkt → Option Net
  | fuel, n, l, p =>
    if l ∈ n.up then
      match n.peers l with
      | none => some { n with out := n.out ++ [(l, p)] }
      | some (_, k) =>
        if c.loss n.draws then some { n with draws := n.draws + 1 }
        else match fuel with
          | 0 => some { n with draws := n.draws + 1 }
          | fuel + 1 => some (receive (write c fuel) { n with draws := n.draws + 1 } k p)
    else none

/-! ## Direct links -/

/-- `connection_lost` of an end (switching.py:26-28). -/
def endLost (n : Net) (k : Nat) : Net :=
  let n := { n with up := n.up.erase k }
  match n.peers k with
  | none => n
  | some (pfx, _) => n.lanDo pfx (·.unregisterLink k)

/-- `transport and transport.close()` (HierarchyWAN.py:96, 100; 17-18): the other end is told. -/
def close (n : Net) (k : Nat) : Net :=
  if k ∈ n.up then
    match n.peers k with
    | none => n
    | some (_, k') => n.endLost k'
  else n

/-- `self._directLinks[p]`. -/
def row (n : Net) (p : Int) : Dict Int Nat := (n.direct.get p).getD []

/-- One half of `destroyDirectLink` (HierarchyWAN.py:94-97). -/
def destroyHalf (n : Net) (p q : Int) : Net :=
  match (n.row p).get q with
  | none => n
  | some k =>
    let n := n.close k
    { n with direct := n.direct.set p ((n.row p).del q) }

/-- `destroyDirectLink` (HierarchyWAN.py:93-101). -/
def destroy (n : Net) (p q : Int) : Net := (n.destroyHalf p q).destroyHalf q p

/-- `createDirectLink` (HierarchyWAN.py:83-91). Both writes find a transport. -/
def create (c : Cfg) (n : Net) (p q : Int) : Net :=
  let a := lnk n.ends
  let b := lnk (n.ends + 1)
  let n := { n with
    ends := n.ends + 2
    peers := fun k => if k = a then some (p, b) else if k = b then some (q, a) else n.peers k
    up := n.up ++ [a, b] }
  let n := (write c c.depth n a (.announce (hub p))).getD n
  let n := (write c c.depth n b (.announce (hub q))).getD n
  let n := { n with direct := n.direct.set p ((n.row p).set q a) }
  { n with direct := n.direct.set q ((n.row q).set p b) }

/-- `registerLANSwitch(prefix)` (HierarchyWAN.py:33-43). -/
def register (n : Net) (p : Int) : Net :=
  match Wan.registerLANSwitch n.routes p with
  | (_, some _) => n
  | (t, none) => { n with routes := t, lans := n.lans.set p .new, direct := n.direct.set p [] }

/-- `setDirectConnections` (HierarchyWAN.py:45-81). The routes and the links do not influence each other in the loops. -/
def connect (c : Cfg) (n : Net) (r : Int) (ds : List Int) : Net :=
  if n.routes.has r then
    let n' := n.routes.keys.foldl (fun n p => n.destroy r p) n
    match Wan.setDirectConnections n.routes r ds with
    | (t, some _) => { n' with routes := t }
    | (t, none) =>
      (Wan.row t r).keys.foldl (fun n d => if n.lans.has d then n.create c r d else n) { n' with routes := t }
  else n

/-! ## Devices -/

/-- `ProtocolFactory()` and `connection_made` (HierarchyWAN.py:149-153, switching.py:30-31). -/
def accept (n : Net) (i : Nat) : Net :=
  if n.routers.has i then n
  else { n with routers := n.routers.set i ⟨none, none, .new⟩, conns := n.conns ++ [i], up := n.up ++ [dev i] }

/-- `setLocation` (HierarchyWAN.py:158-160); for an unknown connection it raises. -/
def setLocation (n : Net) (i : Nat) (p : Int) : Net :=
  if i ∈ n.conns then n.setPrefix i (some p) (if n.lans.has p then some p else none) else n

/-- `connection_lost` of a device (switching.py:26-28). -/
def lost (n : Net) (i : Nat) : Net :=
  if dev i ∈ n.up then ({ n with up := n.up.erase (dev i) }).routerUnregister i true else n

/-- A device sends a packet (switching.py:39-54). asyncio calls `data_received` only while connected. -/
def send (c : Cfg) (n : Net) (i : Nat) (d : Str) (x : Nat) : Net :=
  if dev i ∈ n.up then
    match n.routers.get i with
    | none => n
    | some r => match n.outbound r d with
      | .error _ => n
      | .ok ls => writeEach (fun n l => write c c.depth n l (.wire d x)) n ls
  else n

/-- A device announces its address. -/
def announce (n : Net) (i : Nat) (a : Str) : Net := if dev i ∈ n.up then n.routerRegister i a else n

end Net

/-- What happens to a WAN. -/
inductive Ev where
  | register (p : Int)
  | connect (r : Int) (ds : List Int)
  | accept (i : Nat)
  | locate (i : Nat) (p : Int)
  | announce (i : Nat) (a : Str)
  | send (i : Nat) (d : Str) (x : Nat)
  | lost (i : Nat)
  deriving DecidableEq

def step (c : Cfg) (n : Net) : Ev → Net
  | .register p => n.register p
  | .connect r ds => n.connect c r ds
  | .accept i => n.accept i
  | .locate i p => n.setLocation i p
  | .announce i a => n.announce i a
  | .send i d x => n.send c i d x
  | .lost i => n.lost i

/-- A WAN after a history. -/
def exec (c : Cfg) (n : Net) : List Ev → Net
  | [] => n
  | e :: h => exec c (step c n e) h

end Verif.WanNet
