import Verif.Model.Unreliable
import Verif.Model.Switch
import Verif.Model.WanApi
/-! # entry_points/launch_switch.py, network/devices/switch/UnreliableSwitch.py: a switch under its management API

A switch with its links and, if it is unreliable, the transports stacked on them. Each announcement puts another pair of transports on top
(UnreliableSwitch.py:96-98). The state has the class attributes (`Settings`), which all links share.

Simplifications: packets are events (`C29` is about packets that arrive together; an exception drops the packet that caused it and lets those behind
it wait for the next chunk); `random.randint` is an arbitrary function of the link, the layer and the number of the draw, and so is whether
`random.random() < .01`; timers may fire in any order and at any time; the text of Python's exceptions, `float` and `EnablePresetLogging` are as in
`Model/WanApi.lean`. A write on the transport of a closed connection does nothing (asyncio). -/
namespace Verif.SwitchApi
open Verif.Spmp (Res)
open Verif.WanApi (Exc commas noneText levels)

/-- `DelayTransport.Rate`: `.01`, or the integer that was set. -/
inductive Rate where
  | hundredth
  | int (k : Int)
  deriving DecidableEq

def Rate.text : Rate → Str
  | .hundredth => "0.01".toList
  | .int k => intStr k

/-- The class attributes `ErrorsPerHorizon`, `ErrorHorizon`, `Rate`, `Delay` (the latter as `format` prints it). -/
structure Settings where
  errors : Int
  horizon : Int
  rate : Rate
  delay : Str
  deriving DecidableEq

/-- UnreliableSwitch.py:27-28, 65-66. -/
def Settings.init : Settings := ⟨1, 100 * 1024, .hundredth, "1.0".toList⟩

structure Cfg where
  unreliable : Bool
  text : Exc → Str
  float : Str → Option Str
  levelOk : Str → Bool
  rnd : Nat → Nat → Nat → Nat → Nat     -- link, layer, number of the draw, n: `random.randint(0, n)`
  coin : Nat → Nat → Nat → Bool         -- link, layer, number of the draw: `random.random() < .01`

/-! ## The transports -/

/-- `ConstantErrorTransport`. -/
structure Err where
  byteIndex : Nat
  bad : List Nat          -- bytesToCorrupt
  cur : Int × Int         -- curSettings
  draws : Nat
  deriving DecidableEq

/-- `resetBytesToCorrupt` (UnreliableSwitch.py:36-43). `range(n)` is empty for negative `n`; `randint(0, n)` raises for negative `n`
(the second component tells so). -/
def Err.reset (rnd : Nat → Nat → Nat) (s : Settings) (e : Err) : Err × Bool :=
  if s.errors > 0 ∧ s.horizon < 0 then ({ e with bad := [] }, true)
  else (⟨e.byteIndex, Unrel.sortList (Unrel.pick rnd s.horizon.toNat s.errors.toNat e.draws []), (s.errors, s.horizon),
    e.draws + s.errors.toNat⟩, false)

/-- `ConstantErrorTransport(...)` (UnreliableSwitch.py:30-34); `none` if it raises. -/
def Err.make (rnd : Nat → Nat → Nat) (s : Settings) : Option Err := match Err.reset rnd s ⟨0, [], (0, 0), 0⟩ with
  | (_, true) => none
  | (e, false) => some e

/-- The end of `write` (UnreliableSwitch.py:54-58): what is written on the lower transport, `none` if an exception comes before. -/
def Err.finish (rnd : Nat → Nat → Nat) (s : Settings) (e : Err) (data : Bytes) : Err × Option Bytes :=
  if ((e.byteIndex + data.length : Nat) : Int) > s.horizon then
    match Err.reset rnd s { e with byteIndex := 0 } with
    | (e', true) => (e', none)
    | (e', false) => (e', some data)
  else ({ e with byteIndex := e.byteIndex + data.length }, some data)

/-- The loop of `write` and what follows (UnreliableSwitch.py:49-58). -/
def Err.body (rnd : Nat → Nat → Nat) (s : Settings) (e : Err) (data : Bytes) : Err × Option Bytes :=
  match Unrel.corrupt e.byteIndex (data.length + e.byteIndex) e.bad data with
  | (l, none) => ({ e with bad := l }, none)
  | (l, some d) => Err.finish rnd s { e with bad := l } d

/-- `ConstantErrorTransport.write` (UnreliableSwitch.py:46-58). -/
def Err.write (rnd : Nat → Nat → Nat) (s : Settings) (e : Err) (data : Bytes) : Err × Option Bytes :=
  if e.cur ≠ (s.errors, s.horizon) then
    match Err.reset rnd s e with
    | (e', true) => (e', none)
    | (e', false) => Err.body rnd s e' data
  else Err.body rnd s e data

/-- A `DelayTransport` on a `ConstantErrorTransport`. -/
structure Layer where
  err : Err
  coins : Nat                      -- the draws of `random.random()`
  pending : List (Nat × Bytes)     -- the delayed writes, with their numbers
  next : Nat
  deriving DecidableEq

/-- `random.random() < self.Rate` (UnreliableSwitch.py:69): a number from 0 (included) to 1 (excluded). -/
def delays (coin : Nat → Bool) (n : Nat) : Rate → Bool
  | .hundredth => coin n
  | .int k => decide (1 ≤ k)

/-- `raw_write` (UnreliableSwitch.py:74-78) of layer `l`; `below` is the write on the transport beneath. An exception is caught and logged. -/
def pass (rnd : Nat → Nat → Nat) (s : Settings) (below : Bytes → List Layer × Option Bytes) (l : Layer) (ls : List Layer) (data : Bytes) :
    List Layer × Option Bytes :=
  match Err.write rnd s l.err data with
  | (e, none) => ({ l with err := e } :: ls, none)
  | (e, some d) => match below d with
    | (ls', o) => ({ l with err := e } :: ls', o)

/-- `DelayTransport.write` (UnreliableSwitch.py:68-72) on a stack, outermost layer first; what reaches the connection. A layer is known by the number of
layers beneath it. -/
def write (c : Cfg) (s : Settings) (i : Nat) : List Layer → Bytes → List Layer × Option Bytes
  | [], data => ([], some data)
  | l :: ls, data =>
    if delays (c.coin i ls.length) l.coins s.rate then
      ({ l with coins := l.coins + 1, pending := l.pending ++ [(l.next, data)], next := l.next + 1 } :: ls, none)
    else pass (c.rnd i ls.length) s (write c s i ls) { l with coins := l.coins + 1 } ls data

/-- The event loop calls `raw_write` for delayed write `n` of layer `k` (UnreliableSwitch.py:70). -/
def fire (c : Cfg) (s : Settings) (i k n : Nat) : List Layer → List Layer × Option Bytes
  | [] => ([], none)
  | l :: ls =>
    if ls.length = k then
      match l.pending.find? (fun e => decide (e.1 = n)) with
      | none => (l :: ls, none)
      | some e => pass (c.rnd i ls.length) s (write c s i ls) { l with pending := l.pending.filter (fun e => decide (e.1 ≠ n)) } ls e.2
    else match fire c s i k n ls with
      | (ls', o) => (l :: ls', o)

/-! ## The switch -/

/-- A connection is used once. -/
inductive Phase where
  | fresh | up | gone
  deriving DecidableEq

/-- A link: the layers on its transport, and what was written on the connection itself. -/
structure Link where
  phase : Phase
  stack : List Layer
  out : List Bytes
  deriving DecidableEq

/-- The outcome of a write. -/
def Link.put (l : Link) : List Layer × Option Bytes → Link
  | (st, none) => { l with stack := st }
  | (st, some d) => { l with stack := st, out := if l.phase = .up then l.out ++ [d] else l.out }

structure St where
  switch : Switch
  link : Nat → Link
  set : Settings
  level : Str

/-- `SPMPSwitch()` (launch_switch.py:25-27, 34; Switch.py:13-18). -/
def St.init : St := ⟨.new, fun _ => ⟨.fresh, [], []⟩, .init, "NONE".toList⟩

def St.upd (s : St) (i : Nat) (f : Link → Link) : St := { s with link := fun j => if j = i then f (s.link j) else s.link j }

/-- `Switch.registerLink` (Switch.py:27-38); an exception is caught in `data_received` (switching.py:33-37). -/
def St.register (s : St) (a : Str) (i : Nat) : St := match s.switch.registerLink a i with
  | .error _ => s
  | .ok sw => { s with switch := sw }

/-- An announcement arrives on link `i` (switching.py:42-43; UnreliableSwitch.py:96-98). -/
def St.announce (c : Cfg) (s : St) (i : Nat) (a : Str) : St :=
  if (s.link i).phase = .up then
    if c.unreliable then
      match Err.make (c.rnd i (s.link i).stack.length) s.set with
      | none => s
      | some e => (s.upd i fun l => { l with stack := ⟨e, 0, [], 0⟩ :: l.stack }).register a i
    else s.register a i
  else s

/-- `destinationProtocol.transport.write(packetBytes)` (switching.py:52). -/
def St.put (c : Cfg) (data : Bytes) (s : St) (j : Nat) : St := s.upd j fun l => l.put (write c s.set j l.stack data)

/-- A packet for `d` arrives on link `i`; `data` is its serialization (switching.py:44-52). -/
def St.send (c : Cfg) (s : St) (i : Nat) (d : Str) (data : Bytes) : St :=
  if (s.link i).phase = .up then
    match s.switch.getOutboundLinks d with
    | .error _ => s
    | .ok ls => ls.foldl (St.put c data) s
  else s

/-- `connection_made` (switching.py:30-31). -/
def St.connect (s : St) (i : Nat) : St := s.upd i fun l => if l.phase = .fresh then { l with phase := .up } else l

/-- `connection_lost` (switching.py:26-28). -/
def St.lost (s : St) (i : Nat) : St :=
  if (s.link i).phase = .up then
    match s.switch.unregisterLink i with
    | .error _ => s.upd i fun l => { l with phase := .gone }
    | .ok sw => { s.upd i (fun l => { l with phase := .gone }) with switch := sw }
  else s

def St.timer (c : Cfg) (s : St) (i k n : Nat) : St := s.upd i fun l => l.put (fire c s.set i k n l.stack)

/-! ## The management API -/

def verbs : List Str := ["verbs".toList, "all-log-levels".toList, "get-log-level".toList, "set-log-level".toList]
def moreVerbs : List Str := ["get-error-rate".toList, "set-error-rate".toList, "get-delay-rate".toList, "set-delay-rate".toList]

def ask (c : Cfg) (verb : Str) (answer : St → Str) (args : List Str) (s : St) : St × Res := match args with
  | [] => (s, .value (answer s))
  | _ => (s, .raised (c.text (.arguments verb args.length)))

/-- `setLogLevel` (launch_switch.py:29-31). -/
def setLogLevel (c : Cfg) (verb : Str) (args : List Str) (s : St) : St × Res := match args with
  | [l] => if c.levelOk l then ({ s with level := l }, .value noneText) else (s, .raised (c.text (.logging l)))
  | _ => (s, .raised (c.text (.arguments verb args.length)))

/-- `self.setErrorRate(int(rate), int(horizon))` (launch_switch.py:44, UnreliableSwitch.py:82-84). -/
def setErrors (c : Cfg) (verb : Str) (args : List Str) (s : St) : St × Res := match args with
  | [a, b] => match pyInt a with
    | none => (s, .raised (c.text (.int a)))
    | some e => match pyInt b with
      | none => (s, .raised (c.text (.int b)))
      | some h => ({ s with set := { s.set with errors := e, horizon := h } }, .value noneText)
  | _ => (s, .raised (c.text (.arguments verb args.length)))

/-- `self.setDelayRate(int(rate), float(delay))` (launch_switch.py:46, UnreliableSwitch.py:92-94). -/
def setDelay (c : Cfg) (verb : Str) (args : List Str) (s : St) : St × Res := match args with
  | [a, b] => match pyInt a with
    | none => (s, .raised (c.text (.int a)))
    | some r => match c.float b with
      | none => (s, .raised (c.text (.float b)))
      | some d => ({ s with set := { s.set with rate := .int r, delay := d } }, .value noneText)
  | _ => (s, .raised (c.text (.arguments verb args.length)))

/-- `"Errors per Bytes = {}".format(self.getErrorRate())` (launch_switch.py:43, UnreliableSwitch.py:89-90). -/
def errorsText (s : St) : Str :=
  "Errors per Bytes = (".toList ++ intStr s.set.errors ++ ", ".toList ++ intStr s.set.horizon ++ ")".toList

/-- `"Every {} packets, delay {} second".format(*self.getDelayRate())` (launch_switch.py:45, UnreliableSwitch.py:86-87). -/
def delayText (s : St) : Str := "Every ".toList ++ s.set.rate.text ++ " packets, delay ".toList ++ s.set.delay ++ " second".toList

/-- `SPMPApi` (launch_switch.py:33-47). -/
def api (c : Cfg) : Dict Str (List Str → St → St × Res) :=
  ("verbs".toList, ask c "verbs".toList fun _ => commas (if c.unreliable then verbs ++ moreVerbs else verbs)) ::
  ("all-log-levels".toList, ask c "all-log-levels".toList fun _ => commas levels) ::
  ("get-log-level".toList, ask c "get-log-level".toList (·.level)) ::
  ("set-log-level".toList, setLogLevel c "set-log-level".toList) ::
  if c.unreliable then
    [("get-error-rate".toList, ask c "get-error-rate".toList errorsText),
     ("set-error-rate".toList, setErrors c "set-error-rate".toList),
     ("get-delay-rate".toList, ask c "get-delay-rate".toList delayText),
     ("set-delay-rate".toList, setDelay c "set-delay-rate".toList)]
  else []

/-- A call through the management protocol (spmp.py:107-113). -/
def call (c : Cfg) (s : St) (verb : Str) (args : List Str) : St × Option Res := match (api c).get verb with
  | none => (s, none)
  | some f => match f args s with
    | (s', r) => (s', some r)

/-- What happens to a switch. -/
inductive Ev where
  | connect (i : Nat)
  | lost (i : Nat)
  | announce (i : Nat) (a : Str)
  | send (i : Nat) (d : Str) (data : Bytes)
  | timer (i k n : Nat)
  | request (verb : Str) (args : List Str)
  deriving DecidableEq

def step (c : Cfg) (s : St) : Ev → St
  | .connect i => s.connect i
  | .lost i => s.lost i
  | .announce i a => s.announce c i a
  | .send i d data => s.send c i d data
  | .timer i k n => s.timer c i k n
  | .request v args => (call c s v args).1

/-- A switch after a history. -/
def exec (c : Cfg) (s : St) : List Ev → St
  | [] => s
  | e :: h => exec c (step c s e) h

end Verif.SwitchApi
