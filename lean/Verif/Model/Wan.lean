import Verif.Model.Dict
/-! # network/devices/routing/HierarchyWAN.py: the table of routes

Prefixes are values of any type with equality (`launch_wan.py` uses integers). `_switches` has the same keys as `_apsp` (both are set in
`registerLANSwitch` and never deleted), so that the two checks `prefix not in self._apsp or prefix not in self._switches` are one
check here. The links between the switches (`createDirectLink`, `destroyDirectLink`) do not touch the routes; they are in
`Model/WanNet.lean`. Logging is not modelled. `unregisterLANSwitch` (HierarchyWAN.py:103-104) does nothing. -/
namespace Verif.Wan
variable {P : Type} [DecidableEq P]

/-- `_apsp`: source → destination → hops (HierarchyWAN.py:21). -/
abbrev Table (P : Type) := Dict P (Dict P (List P))

inductive Err where
  | duplicate      -- Duplicate Router for prefix
  | noSwitch       -- No switch located at prefix
  | noDest         -- No destination switch located at prefix
  deriving DecidableEq, Repr

/-- `self._apsp[p]` for a prefix that is a key. -/
def row (t : Table P) (p : P) : Dict P (List P) := (t.get p).getD []

/-- `registerLANSwitch` (HierarchyWAN.py:33-43). -/
def registerLANSwitch (t : Table P) (p : P) : Table P × Option Err :=
  if t.has p then (t, some .duplicate) else (t.set p [], none)

/-- The destinations `toRemove` (HierarchyWAN.py:61-64). -/
def toRemove (r : P) (w : Dict P (List P)) : List P := w.keys.filter fun d => decide (r ∈ (w.get d).getD [])

/-- `if routerPrefix in row: del row[routerPrefix]` (HierarchyWAN.py:57-58). -/
def dropDest (r : P) (w : Dict P (List P)) : Dict P (List P) := if w.has r then w.del r else w

/-- The body of the loop for one prefix: what stays of its row (HierarchyWAN.py:56-66). -/
def clearRow (r : P) (w : Dict P (List P)) : Dict P (List P) := (toRemove r (dropDest r w)).foldl Dict.del (dropDest r w)

/-- The first loop of `setDirectConnections` (HierarchyWAN.py:50-66). -/
def clear (t : Table P) (r : P) : Table P :=
  (t.set r []).keys.foldl (fun t p => t.set p (clearRow r (row t p))) (t.set r [])

/-- `self._apsp[a][b] = path`. -/
def setEnt (t : Table P) (a b : P) (l : List P) : Table P := t.set a ((row t a).set b l)

/-- The second loop (HierarchyWAN.py:68-76). When it raises, what was done before stays. -/
def addDirect (t : Table P) (r : P) : List P → Table P × Option Err
  | [] => (t, none)
  | d :: ds => if t.has d then addDirect (setEnt (setEnt t r d [d]) d r [r]) r ds else (t, some .noDest)

/-- The body of the three loops of `updateAllPairsShortestPaths` (HierarchyWAN.py:112-120). An empty path counts as no path in
`if checkPath1 and checkPath2`. -/
def relax (i s : P) (t : Table P) (d : P) : Table P :=
  if i = s ∨ i = d ∨ s = d then t
  else match (row t s).get i, (row t i).get d with
    | some (a :: l1), some (b :: l2) => match (row t s).get d with
      | none => setEnt t s d ((a :: l1) ++ (b :: l2))
      | some cur => if cur.length > ((a :: l1) ++ (b :: l2)).length then setEnt t s d ((a :: l1) ++ (b :: l2)) else t
    | _, _ => t

/-- `updateAllPairsShortestPaths` (HierarchyWAN.py:106-120). -/
def update (t : Table P) : Table P :=
  t.keys.foldl (fun u i => t.keys.foldl (fun u s => t.keys.foldl (relax i s) u) u) t

/-- `setDirectConnections` (HierarchyWAN.py:45-77). -/
def setDirectConnections (t : Table P) (r : P) (ds : List P) : Table P × Option Err :=
  if t.has r then
    match addDirect (clear t r) r ds with
    | (u, some e) => (u, some e)
    | (u, none) => (update u, none)
  else (t, some .noSwitch)

/-- `getRoute` (HierarchyWAN.py:136-137). -/
def getRoute (t : Table P) (s d : P) : List P := ((row t s).get d).getD []

/-- `nextHop` (HierarchyWAN.py:142-147). -/
def nextHop (t : Table P) (s d : P) : Option P := match (row t s).get d with
  | some (h :: _) => some h
  | _ => none

/-- `getPrefixes` (HierarchyWAN.py:133-134). -/
def getPrefixes (t : Table P) : List P := t.keys

/-- The calls that change the routes. -/
inductive Ev (P : Type) where
  | register (p : P)
  | connect (r : P) (ds : List P)

def step (t : Table P) : Ev P → Table P
  | .register p => (registerLANSwitch t p).1
  | .connect r ds => (setDirectConnections t r ds).1

/-- A WAN after a history. -/
def exec (t : Table P) : List (Ev P) → Table P
  | [] => t
  | e :: h => exec (step t e) h

end Verif.Wan
