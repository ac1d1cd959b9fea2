import Verif.Model.Launch
import Verif.Model.Logging
import Verif.Model.WanApi
/-! # entry_points/launch_vnic.py: the VNIC daemon under its management API

`StatusVnic` (launch_vnic.py:41-76) is the VNIC of `Model/Launch.lean` whose functions can be called through the management protocol. The state has, besides
the daemon, the log level last set and the logging of the process (`Model/Logging.lean`), which is set to DEBUG before the VNIC is made.

Simplifications: the text of Python's own exceptions is an arbitrary function `text`; whether the log file can be opened is an arbitrary function of the number of
the call of `EnablePresetLogging`; what the daemon itself logs is left out (what would be logged is `Logging.writers`). -/
namespace Verif.VnicApi
open Verif.Spmp (Res)
open Verif.WanApi (commas noneText levels)

/-- Exceptions that a call can end with. -/
inductive Exc where
  | arguments (verb : Str) (given : Nat)   -- TypeError: wrong number of arguments
  | int (s : Str)                          -- ValueError of int(s)
  | logging (lvl : Str)                    -- EnablePresetLogging(lvl)
  | attribute                              -- AttributeError in setPromiscuousLevel
  deriving DecidableEq

structure Cfg where
  daemon : Launch.Cfg
  text : Exc → Str               -- `str(e)`
  aux : List Str                 -- PLAYGROUND_AUX_LOGGERS
  fileOk : Nat → Bool            -- whether the log file can be opened at each call of `EnablePresetLogging`

structure St where
  d : Launch.St
  level : Str                    -- _presetLogging
  log : Logging.St
  calls : Nat                    -- how often `EnablePresetLogging` was called

/-- The names of the presets (logging.py:207-213). -/
def preset (s : Str) : Logging.Preset :=
  if s = "NONE".toList then .off
  else if s = "MINIMAL".toList then .minimal
  else if s = "QUIET".toList then .quiet
  else if s = "VERBOSE".toList then .verbose
  else if s = "DEBUG".toList then .dbg
  else if s = "TEST".toList then .test
  else if s = "MAX".toList then .max
  else .unknown

/-- `runVnic` up to `run_forever` (launch_vnic.py:126-159): logging is set to DEBUG, then the VNIC is made (`_presetLogging` is NONE, launch_vnic.py:51), the
status is written and the first attempt begins. `none`: an exception ends the process. -/
def start (c : Cfg) (a : Addr) (old : Str) (w : Launch.Write) : Option St :=
  match Logging.enablePreset c.aux (c.fileOk 0) .init .dbg with
  | (_, true) => none
  | (log, false) => match Launch.start c.daemon a old w with
    | none => none
    | some d => some ⟨d, "NONE".toList, log, 1⟩

def ask (c : Cfg) (verb : Str) (answer : St → Str) (args : List Str) (s : St) : St × Res := match args with
  | [] => (s, .value (answer s))
  | _ => (s, .raised (c.text (.arguments verb args.length)))

/-- `setLogLevel` (launch_vnic.py:47-49): when `EnablePresetLogging` raises, what it did before stays. -/
def setLogLevel (c : Cfg) (verb : Str) (args : List Str) (s : St) : St × Res := match args with
  | [l] => match Logging.enablePreset c.aux (c.fileOk s.calls) s.log (preset l) with
    | (log, true) => ({ s with log := log, calls := s.calls + 1 }, .raised (c.text (.logging l)))
    | (log, false) => ({ s with log := log, calls := s.calls + 1, level := l }, .value noneText)
  | _ => (s, .raised (c.text (.arguments verb args.length)))

/-- `self.setPromiscuousLevel(int(lvl))` (launch_vnic.py:55). -/
def setProm (c : Cfg) (verb : Str) (args : List Str) (s : St) : St × Res := match args with
  | [a] => match pyInt a with
    | none => (s, .raised (c.text (.int a)))
    | some l =>
      let net := Prom.setLevel s.d.net (some l)
      ({ s with d := { s.d with net := net } }, if Launch.raised s.d.net net then .raised (c.text .attribute) else .value noneText)
  | _ => (s, .raised (c.text (.arguments verb args.length)))

/-- The keys of `SPMPApi` (launch_vnic.py:52-60). -/
def verbs : List Str := ["verbs".toList, "get-promiscuity-level".toList, "set-promiscuity-level".toList, "all-log-levels".toList, "get-log-level".toList,
  "set-log-level".toList, "switch-live".toList]

/-- `SPMPApi` (launch_vnic.py:52-60). -/
def api (c : Cfg) : Dict Str (List Str → St → St × Res) :=
  [("verbs".toList, ask c "verbs".toList fun _ => commas verbs),
   ("get-promiscuity-level".toList, ask c "get-promiscuity-level".toList fun s => natStr (Prom.promiscuousLevel s.d.net)),
   ("set-promiscuity-level".toList, setProm c "set-promiscuity-level".toList),
   ("all-log-levels".toList, ask c "all-log-levels".toList fun _ => commas levels),
   ("get-log-level".toList, ask c "get-log-level".toList (·.level)),
   ("set-log-level".toList, setLogLevel c "set-log-level".toList),
   ("switch-live".toList, ask c "switch-live".toList (·.d.live))]

/-- A call through the management protocol (spmp.py:107-113). -/
def call (c : Cfg) (s : St) (verb : Str) (args : List Str) : St × Option Res := match (api c).get verb with
  | none => (s, none)
  | some f => match f args s with
    | (s', r) => (s', some r)

/-- The answer to a `VNICPromiscuousLevelPacket` on a control connection (vsockets.py:202-211): `none` when the level is only asked for. That `setPromiscuousLevel` raises,
and no answer is given, is in Model/LevelNet.lean; the daemon opens a link only when there is none, and then it does not. -/
def promPacket (s : St) (set : Option Int) : St × Nat := match set with
  | none => (s, Prom.promiscuousLevel s.d.net)
  | some l =>
    let d := { s.d with net := Prom.setLevel s.d.net (some l) }
    ({ s with d := d }, Prom.promiscuousLevel d.net)

/-- What happens to the daemon. -/
inductive Ev where
  | env (e : Launch.Ev)                          -- the event loop, the switch, the status file
  | packet (set : Option Int)                    -- a packet about the level on a control connection
  | request (verb : Str) (args : List Str)       -- a management request
  deriving DecidableEq

def step (c : Cfg) (s : St) : Ev → St
  | .env e => { s with d := Launch.step c.daemon s.d e }
  | .packet set => (promPacket s set).1
  | .request v args => (call c s v args).1

def exec (c : Cfg) (s : St) : List Ev → St
  | [] => s
  | e :: h => exec c (step c s e) h

end Verif.VnicApi
