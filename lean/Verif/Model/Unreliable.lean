import Verif.Model.Bytes
/-! # network/devices/switch/UnreliableSwitch.py: `ConstantErrorTransport`, `DelayTransport`

The draws of `random.randint(0, n)` are given by a function `rnd`: the number of the draw (counted from 0) and `n` to the number drawn. The
class attributes `ErrorsPerHorizon` and `ErrorHorizon` are arguments of the operations, because they can be changed at any time by
`setErrorRate`. -/
namespace Verif.Unrel

structure Settings where
  errors : Nat      -- ErrorsPerHorizon
  horizon : Nat     -- ErrorHorizon
  deriving DecidableEq

structure St where
  byteIndex : Nat
  bytesToCorrupt : List Nat
  cur : Settings            -- curSettings
  draws : Nat               -- number of draws made
  out : List Bytes          -- the writes on the lower transport
  deriving DecidableEq

/-- Insertion in a sorted list (for `list.sort`). -/
def insertSorted (x : Nat) : List Nat → List Nat
  | [] => [x]
  | y :: l => if x ≤ y then x :: y :: l else y :: insertSorted x l

def sortList (l : List Nat) : List Nat := l.foldr insertSorted []

/-- The loop of `resetBytesToCorrupt` (UnreliableSwitch.py:37-41), `n` turns. -/
def pick (rnd : Nat → Nat → Nat) (H : Nat) : Nat → Nat → List Nat → List Nat
  | 0, _, l => l
  | n + 1, k, l => pick rnd H n (k + 1) (if rnd k H ∈ l then l else l ++ [rnd k H])

/-- `resetBytesToCorrupt` (UnreliableSwitch.py:36-43). -/
def reset (rnd : Nat → Nat → Nat) (cfg : Settings) (s : St) : St :=
  { s with bytesToCorrupt := sortList (pick rnd cfg.horizon cfg.errors s.draws []), cur := cfg, draws := s.draws + cfg.errors }

/-- `ConstantErrorTransport(...)` (UnreliableSwitch.py:30-34). -/
def init (rnd : Nat → Nat → Nat) (cfg : Settings) : St := reset rnd cfg ⟨0, [], cfg, 0, []⟩

/-- `data[:r] + bytes([data[r] ^ 0xFF]) + data[r+1:]` (UnreliableSwitch.py:53) with Python's meaning of negative indices; `none`:
`IndexError`. -/
def corruptByte (data : Bytes) (r : Int) : Option Bytes :=
  if 0 ≤ r then
    match data[r.toNat]? with
    | none => none
    | some b => some (data.take r.toNat ++ [b ^^^ 0xFF] ++ data.drop (r.toNat + 1))
  else if r + data.length < 0 then none
  else
    match data[(r + data.length).toNat]? with
    | none => none
    | some b => some (data.take (r + data.length).toNat ++ [b ^^^ 0xFF] ++
        (if r + 1 = 0 then data else data.drop (r + 1 + data.length).toNat))

/-- The loop of `write` (UnreliableSwitch.py:50-53): the rest of `bytesToCorrupt`, and the data, or `none` when an exception was raised. -/
def corrupt (idx range : Nat) : List Nat → Bytes → List Nat × Option Bytes
  | [], data => ([], some data)
  | p :: l, data =>
    if p < range then
      match corruptByte data ((p : Int) - idx) with
      | none => (l, none)
      | some d => corrupt idx range l d
    else (p :: l, some data)

/-- The end of `write` (UnreliableSwitch.py:54-58). -/
def finish (rnd : Nat → Nat → Nat) (cfg : Settings) (s : St) (data : Bytes) : St :=
  let s1 := { s with byteIndex := s.byteIndex + data.length }
  let s2 := if s1.byteIndex > cfg.horizon then reset rnd cfg { s1 with byteIndex := 0 } else s1
  { s2 with out := s2.out ++ [data] }

/-- `write` (UnreliableSwitch.py:46-58). After an exception (`IndexError`) nothing is written. -/
def write (rnd : Nat → Nat → Nat) (cfg : Settings) (s : St) (data : Bytes) : St :=
  let s1 := if s.cur ≠ cfg then reset rnd cfg s else s
  match corrupt s1.byteIndex (data.length + s1.byteIndex) s1.bytesToCorrupt data with
  | (l, none) => { s1 with bytesToCorrupt := l }
  | (l, some d) => finish rnd cfg { s1 with bytesToCorrupt := l } d

def writes (rnd : Nat → Nat → Nat) (cfg : Settings) : St → List Bytes → St
  | s, [] => s
  | s, d :: ds => writes rnd cfg (write rnd cfg s d) ds

/-! ## `DelayTransport` -/

/-- The delayed writes not yet made, with their numbers, and the writes made on the lower transport. -/
structure DSt where
  pending : List (Nat × Bytes)
  next : Nat
  out : List Bytes
  deriving DecidableEq

def DSt.init : DSt := ⟨[], 0, []⟩

inductive DEv where
  | write (data : Bytes) (delayed : Bool)   -- `delayed`: the draw was below the rate
  | timer (i : Nat)                         -- the loop calls `raw_write` for delayed write `i`
  deriving DecidableEq

/-- `write` (UnreliableSwitch.py:68-72) and the call by the event loop of `raw_write` (UnreliableSwitch.py:74-78). The lower transport
does not raise. -/
def dstep (s : DSt) : DEv → DSt
  | .write d true => { s with pending := s.pending ++ [(s.next, d)], next := s.next + 1 }
  | .write d false => { s with out := s.out ++ [d] }
  | .timer i => match s.pending.find? (·.1 = i) with
    | none => s
    | some (_, d) => { s with pending := s.pending.filter (·.1 ≠ i), out := s.out ++ [d] }

def dexec (s : DSt) : List DEv → DSt
  | [] => s
  | e :: h => dexec (dstep s e) h

end Verif.Unrel
