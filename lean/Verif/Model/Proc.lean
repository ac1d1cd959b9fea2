import Verif.Model.PyStr
import Verif.Model.Device
/-! # The processes of the devices: common/os.py and PNMSDevice.py:71-76, 131-157, 223-245

What C50 takes as given: how a device sees whether its process runs, how it waits for it, and how it ends it. What other processes do, in a second and because of a signal,
is arbitrary (`Env`).

Simplifications: nothing happens between two looks without a sleep; nobody else uses the three files while they are looked at; `ps` answers, and every process may be
signalled; a negative number in the file names no process. Bytes of the output of `ps` are characters here. -/
namespace Verif.Proc

inductive Err where
  | value     -- ValueError: the text in the pid file is no number
  | lookup    -- ProcessLookupError
  | couldNot  -- Could not shut down device
  deriving DecidableEq

/-- The run files of the device (PNMSDevice.py:143-150) and the processes. -/
structure OS where
  status : Bool
  pid : Option Str          -- the text in the pid file
  lock : Bool
  procs : Nat → Bool        -- the processes that are alive
  signals : List Int        -- the processes to which the manager sent SIGTERM
  slept : Nat               -- how long the manager slept

/-- What happens elsewhere in a second, and when a process gets a SIGTERM. -/
structure Env where
  tick : OS → OS
  term : Int → OS → OS

/-- What `ps` prints: a header, and a line for the process. -/
structure Ps where
  header : Str
  line : Int → Str

def live (o : OS) (p : Int) : Bool := decide (0 ≤ p) && o.procs p.toNat

def psOutput (ps : Ps) (o : OS) (p : Int) : Str := ps.header ++ '\n' :: (if live o p then ps.line p ++ ['\n'] else [])

/-- `lines[0].strip().lower().startswith(b"pid")` (os.py:13). -/
def isHeader (l : Str) : Bool := "pid".toList.isPrefixOf ((strip l).map Char.toLower)

/-- `line.strip() == b""` (os.py:16). -/
def blank (l : Str) : Bool := (strip l).isEmpty

/-- `if len(lines) > 0 and ...: lines.pop(0)` (os.py:13-14). -/
def dropHeader : List Str → List Str
  | [] => []
  | l :: ls => if isHeader l then ls else l :: ls

/-- The loop that removes blank lines at the end (os.py:16-17). -/
def dropBlank (ls : List Str) : List Str := (ls.reverse.dropWhile blank).reverse

/-- `isPidAlive` for what `ps` printed (os.py:7-20). -/
def isPidAlive (out : Str) : Bool := decide ((dropBlank (dropHeader (splitOn '\n' out))).length = 1)

/-- `isPidAlive(pid)`. -/
def alive (ps : Ps) (o : OS) (p : Int) : Bool := isPidAlive (psOutput ps o p)

/-- `getPid` (PNMSDevice.py:131-136). -/
def getPid (o : OS) : Except Err (Option Int) := match o.pid with
  | none => .ok none
  | some t => match pyInt t with
    | none => .error .value
    | some i => .ok (some i)

/-- `_running` (PNMSDevice.py:152-157). -/
def running (ps : Ps) (o : OS) : Except Err Bool :=
  if !o.status || !o.pid.isSome || !o.lock then .ok false
  else match getPid o with
    | .error e => .error e
    | .ok none => .ok false
    | .ok (some p) => .ok (decide (p ≠ 0) && alive ps o p)

/-- `os.unlink` of the run files that exist (PNMSDevice.py:73-76, 233-235). -/
def unlinkAll (o : OS) : OS := { o with status := false, pid := none, lock := false }

/-- `time.sleep(1)`. -/
def sleep (e : Env) (o : OS) : OS := { e.tick o with signals := o.signals, slept := o.slept + 1 }

/-- `os.kill(pid, signal.SIGTERM)` of a process that exists. -/
def signal (e : Env) (p : Int) (o : OS) : OS := { e.term p o with signals := o.signals ++ [p], slept := o.slept }

/-- `while isPidAlive(pid) and sleepCount > 0` (PNMSDevice.py:227-230). -/
def pollDead (e : Env) (ps : Ps) (p : Int) : Nat → OS → OS
  | 0, o => o
  | n + 1, o => if alive ps o p then pollDead e ps p n (sleep e o) else o

/-- `_shutdown` (PNMSDevice.py:223-235); the exception, if it raises. -/
def shutdown (e : Env) (ps : Ps) (timeout : Nat) (o : OS) : OS × Option Err := match getPid o with
  | .error x => (o, some x)
  | .ok none => (unlinkAll o, none)
  | .ok (some p) =>
    if p = 0 then (unlinkAll o, none)
    else if !live o p then (o, some .lookup)
    else
      let o' := pollDead e ps p timeout (signal e p o)
      if alive ps o' p then (o', some .couldNot) else (unlinkAll o', none)

/-- The loop of `_waitUntilRunning` (PNMSDevice.py:240-244). -/
def pollRunning (e : Env) (ps : Ps) : Nat → OS → OS × Option Err
  | 0, o => match running ps o with
    | .error x => (o, some x)
    | .ok _ => (o, none)
  | n + 1, o => match running ps o with
    | .error x => (o, some x)
    | .ok true => (o, none)
    | .ok false => pollRunning e ps n (sleep e o)

/-- `_waitUntilRunning` (PNMSDevice.py:240-245). -/
def waitUntilRunning (e : Env) (ps : Ps) (timeout : Nat) (o : OS) : OS × Except Err Bool := match pollRunning e ps timeout o with
  | (o', some x) => (o', .error x)
  | (o', none) => (o', running ps o')

/-- `_launch` from the command on (SwitchDevice.py:28-36, VnicDevice.py:82-89; `limit` is the default of `_shutdown`, PNMSDevice.py:223): `cmd` is what has happened when the
command has ended; the alert and what is printed are left out. -/
def launch (e : Env) (ps : Ps) (cmd : OS → OS) (timeout limit : Nat) (o : OS) : OS × Option Err := match waitUntilRunning e ps timeout (cmd o) with
  | (o', .error x) => (o', some x)
  | (o', .ok true) => (o', none)
  | (o', .ok false) => shutdown e ps limit o'

end Verif.Proc
