import Verif.Model.WanNet
import Verif.Model.Spmp
/-! # entry_points/launch_wan.py: the WAN under its management API

`SPMPWAN` is a `HierarchyWAN` whose functions can be called through the management protocol. The state is the WAN of `Model/WanNet.lean`, the
loss rate as `str` prints it, and the log level last set. Device `i` is known by `str(connection.transport.get_extra_info("peername"))`, here
`name i`; a connection that is in `_connections` has a transport (`C56`: the connections are those that are up).

Simplifications: the text of Python's own exceptions (wrong number of arguments, `int`, `float`, the logging functions) is an arbitrary function
`text`; `float` is an arbitrary function to what `format` prints; `EnablePresetLogging` is the predicate `levelOk` (`C70` is about what it does).
That the loss rate decides which packets on direct links are lost is not modelled: losses are arbitrary in `WanNet.Cfg`. -/
namespace Verif.WanApi
open Verif.Spmp (Res)

/-- Exceptions of Python. -/
inductive Exc where
  | arguments (verb : Str) (given : Nat)   -- TypeError: wrong number of arguments
  | int (s : Str)                          -- ValueError of int(s)
  | float (s : Str)                        -- ValueError of float(s)
  | logging (lvl : Str)                    -- EnablePresetLogging(lvl)
  deriving DecidableEq

structure Cfg where
  net : WanNet.Cfg
  text : Exc → Str                 -- `str(e)`
  name : Nat → Str                 -- `str(peername)` of each device
  float : Str → Option Str         -- `"{}".format(float(s))`
  levelOk : Str → Bool             -- whether `EnablePresetLogging` returns

structure St where
  net : WanNet.Net
  rate : Str
  level : Str

/-- `SPMPWAN()` (launch_wan.py:19-21, 49; HierarchyWAN.py:20-25). -/
def St.init : St := ⟨.new, "0.0001".toList, "NONE".toList⟩

/-- `sep.join(parts)` with the separator `", "`. -/
def commas : List Str → Str
  | [] => []
  | [p] => p
  | p :: q :: ps => p ++ ',' :: ' ' :: commas (q :: ps)

/-- `str` of a list whose elements print as `ps`. -/
def listText (ps : List Str) : Str := '[' :: commas ps ++ [']']

/-- `str(None)`. -/
def noneText : Str := "None".toList

def duplicateText (p : Int) : Str := "Duplicate Router for prefix ".toList ++ intStr p
def noSwitchText (p : Int) : Str := "No switch located at prefix ".toList ++ intStr p
def noDestText (p : Int) : Str := "No destination switch located at prefix ".toList ++ intStr p

/-- `[int(dst) for dst in directs]`; on the left the first that is not an integer. -/
def ints : List Str → Except Str (List Int)
  | [] => .ok []
  | a :: as => match pyInt a with
    | none => .error a
    | some i => match ints as with
      | .error e => .error e
      | .ok l => .ok (i :: l)

/-- `[self.registerLANSwitch(int(prefix)) for prefix in prefixes]` (launch_wan.py:62, HierarchyWAN.py:33-43). What was registered before an
exception stays. `done` are the results so far. -/
def addSwitches (c : Cfg) : WanNet.Net → List Str → List Str → WanNet.Net × Res
  | n, done, [] => (n, .value (listText done))
  | n, done, a :: as => match pyInt a with
    | none => (n, .raised (c.text (.int a)))
    | some p => if n.routes.has p then (n, .raised (duplicateText p)) else addSwitches c (n.register p) (done ++ [noneText]) as

/-- `[self.unregisterLANSwitch(int(prefix)) for prefix in prefixes]` (launch_wan.py:63, HierarchyWAN.py:103-104). -/
def removeSwitches (c : Cfg) : List Str → List Str → Res
  | done, [] => .value (listText done)
  | done, a :: as => match pyInt a with
    | none => .raised (c.text (.int a))
    | some _ => removeSwitches c (done ++ [noneText]) as

/-- `self.setDirectConnections(int(prefix), [int(dst) for dst in directs])` (launch_wan.py:64, HierarchyWAN.py:45-81). -/
def setDirect (c : Cfg) (n : WanNet.Net) (a : Str) (as : List Str) : WanNet.Net × Res := match pyInt a with
  | none => (n, .raised (c.text (.int a)))
  | some r => match ints as with
    | .error e => (n, .raised (c.text (.int e)))
    | .ok ds =>
      if n.routes.has r then
        match ds.find? (fun d => !n.routes.has d) with
        | some d => (n.connect c.net r ds, .raised (noDestText d))
        | none => (n.connect c.net r ds, .value noneText)
      else (n, .raised (noSwitchText r))

/-- `setConnectionByName` (launch_wan.py:37-42). -/
def setLocation (c : Cfg) (n : WanNet.Net) (conn : Str) (p : Int) : WanNet.Net × Res :=
  match n.conns.find? (fun i => decide (c.name i = conn)) with
  | some i => (n.setLocation i p, .value "Changed".toList)
  | none => (n, .value ("No such connection ".toList ++ conn))

/-- `"{}".format(self.getRoute(int(src), int(dst)))` (launch_wan.py:65). -/
def getRoute (c : Cfg) (n : WanNet.Net) (a b : Str) : Res := match pyInt a with
  | none => .raised (c.text (.int a))
  | some s => match pyInt b with
    | none => .raised (c.text (.int b))
    | some d => .value (listText ((Wan.getRoute n.routes s d).map intStr))

/-- `getRoutes` (HierarchyWAN.py:139-140) and its lines in `printRoutes` (launch_wan.py:33-34). -/
def routeLines (t : Wan.Table Int) (p : Int) : Str :=
  (Wan.row t p).flatMap fun e => '\t' :: intStr p ++ '-' :: '>' :: intStr e.1 ++ ':' :: ' ' :: listText (e.2.map intStr) ++ ['\n']

/-- `printRoutes` (launch_wan.py:30-35). -/
def printRoutes (n : WanNet.Net) : Str := "WAN Routes\n".toList ++ (Wan.getPrefixes n.routes).flatMap (routeLines n.routes)

/-- `router.currentPrefix()` of device `i`, printed (HierarchyRouter.py:77-78). -/
def prefixText (n : WanNet.Net) (i : Nat) : Str := match n.routers.get i with
  | some ⟨some p, _, _⟩ => intStr p
  | _ => noneText

/-- `printConnections` (launch_wan.py:23-28). -/
def printConnections (c : Cfg) (n : WanNet.Net) : Str :=
  "WAN connections\n".toList ++ n.conns.flatMap fun i => '\t' :: c.name i ++ ':' :: ' ' :: prefixText n i ++ ['\n']

/-- The keys of `SPMPApi` (launch_wan.py:51-67). -/
def verbs : List Str := ["verbs".toList, "all-log-levels".toList, "get-log-level".toList, "set-log-level".toList, "list-connections".toList,
  "set-location".toList, "get-loss-rate".toList, "set-loss-rate".toList, "add-switches".toList, "remove-switches".toList,
  "set-direct-connections".toList, "get-route".toList, "get-routes".toList]

/-- `PRESET_LEVELS` (common/logging.py:208-222). -/
def levels : List Str := ["NONE".toList, "MINIMAL".toList, "QUIET".toList, "VERBOSE".toList, "DEBUG".toList, "TEST".toList, "MAX".toList]

/-- A function without arguments that changes nothing. -/
def ask (c : Cfg) (verb : Str) (answer : St → Str) (args : List Str) (s : St) : St × Res := match args with
  | [] => (s, .value (answer s))
  | _ => (s, .raised (c.text (.arguments verb args.length)))

/-- `setLogLevel` (launch_wan.py:44-46). -/
def setLogLevel (c : Cfg) (verb : Str) (args : List Str) (s : St) : St × Res := match args with
  | [l] => if c.levelOk l then ({ s with level := l }, .value noneText) else (s, .raised (c.text (.logging l)))
  | _ => (s, .raised (c.text (.arguments verb args.length)))

/-- `self.setRoutingLossRate(float(rate))` (launch_wan.py:60, HierarchyWAN.py:30-31). -/
def setRate (c : Cfg) (verb : Str) (args : List Str) (s : St) : St × Res := match args with
  | [r] => match c.float r with
    | some f => ({ s with rate := f }, .value noneText)
    | none => (s, .raised (c.text (.float r)))
  | _ => (s, .raised (c.text (.arguments verb args.length)))

/-- `lambda conn, prefix: self.setConnectionByName(conn, int(prefix))` (launch_wan.py:58). -/
def locate (c : Cfg) (verb : Str) (args : List Str) (s : St) : St × Res := match args with
  | [conn, p] => match pyInt p with
    | none => (s, .raised (c.text (.int p)))
    | some q => match setLocation c s.net conn q with
      | (n, r) => ({ s with net := n }, r)
  | _ => (s, .raised (c.text (.arguments verb args.length)))

def add (c : Cfg) (args : List Str) (s : St) : St × Res := match addSwitches c s.net [] args with
  | (n, r) => ({ s with net := n }, r)

def remove (c : Cfg) (args : List Str) (s : St) : St × Res := (s, removeSwitches c [] args)

def connect (c : Cfg) (verb : Str) (args : List Str) (s : St) : St × Res := match args with
  | a :: as => match setDirect c s.net a as with
    | (n, r) => ({ s with net := n }, r)
  | [] => (s, .raised (c.text (.arguments verb 0)))

def route (c : Cfg) (verb : Str) (args : List Str) (s : St) : St × Res := match args with
  | [a, b] => (s, getRoute c s.net a b)
  | _ => (s, .raised (c.text (.arguments verb args.length)))

/-- `SPMPApi` (launch_wan.py:51-67). -/
def api (c : Cfg) : Dict Str (List Str → St → St × Res) := [
  ("verbs".toList, ask c "verbs".toList fun _ => commas verbs),
  ("all-log-levels".toList, ask c "all-log-levels".toList fun _ => commas levels),
  ("get-log-level".toList, ask c "get-log-level".toList (·.level)),
  ("set-log-level".toList, setLogLevel c "set-log-level".toList),
  ("list-connections".toList, ask c "list-connections".toList fun s => printConnections c s.net),
  ("set-location".toList, locate c "set-location".toList),
  ("get-loss-rate".toList, ask c "get-loss-rate".toList fun s => "Routing loss odds ".toList ++ s.rate),
  ("set-loss-rate".toList, setRate c "set-loss-rate".toList),
  ("add-switches".toList, add c),
  ("remove-switches".toList, remove c),
  ("set-direct-connections".toList, connect c "set-direct-connections".toList),
  ("get-route".toList, route c "get-route".toList),
  ("get-routes".toList, ask c "get-routes".toList fun s => printRoutes s.net)]

/-- A call through the management protocol; a verb that is not in `SPMPApi` changes nothing (spmp.py:107-108, with `SPMPWAN` as device). -/
def call (c : Cfg) (s : St) (verb : Str) (args : List Str) : St × Option Res := match (api c).get verb with
  | none => (s, none)
  | some f => match f args s with
    | (s', r) => (s', some r)

/-- What happens to a WAN: a management request, from whichever connection, or an event of its network (a device connects, announces its address,
sends a packet, or goes away). -/
inductive Ev where
  | request (verb : Str) (args : List Str)
  | accept (i : Nat)
  | announce (i : Nat) (a : Str)
  | send (i : Nat) (d : Str) (x : Nat)
  | lost (i : Nat)

def step (c : Cfg) (s : St) : Ev → St
  | .request v args => (call c s v args).1
  | .accept i => { s with net := s.net.accept i }
  | .announce i a => { s with net := s.net.announce i a }
  | .send i d x => { s with net := s.net.send c.net i d x }
  | .lost i => { s with net := s.net.lost i }

/-- A WAN after a history. -/
def exec (c : Cfg) (s : St) : List Ev → St
  | [] => s
  | e :: h => exec c (step c s e) h

end Verif.WanApi
