import Verif.Model.PyStr
import Verif.Model.Dict
/-! # Log levels and where messages go (common/logging.py)

The handlers are numbered, number 0 is `STDERR_HANDLER`, the others are the log files in the order of their creation. Of Python's `logging`:
a message of a logger reaches the handlers of the root logger when its level is at least the effective level of the logger, here always
that of the root logger (Playground sets no other), and a handler writes it when all filters attached to it accept it.

Simplifications: modules and tags are given as lists (or left out); formatting is left out; `None` as list of modules is the same as
leaving it out; `disableHandler` is in Model/LogHandlers. -/
namespace Verif.Logging

/-- `logging`'s levels. -/
abbrev notset : Nat := 0
abbrev debug : Nat := 10
abbrev info : Nat := 20
abbrev warning : Nat := 30
abbrev error : Nat := 40
abbrev critical : Nat := 50

/-- `TaggedLogger.TAG_KEY` (logging.py:15). -/
def tagKey : Str := "__playlogtag__".toList

/-- `TaggedLogger.GetTag` (logging.py:18-23). -/
def getTag (loggerName : Str) : Str :=
  let last := (splitOn '.' loggerName).getLast?.getD []
  if tagKey.isPrefixOf last then last.drop tagKey.length else []

/-- `TaggedLogger.GetTaggedLoggerName` (logging.py:25-27). -/
def taggedName (base tag : Str) : Str := joinWith '.' [base, tagKey ++ tag]

/-- The tags that a filter lets through (logging.py:36, 41-51): all, or those of a list (`None` is the empty list). -/
inductive Tags where
  | all
  | only (l : List Str)
  deriving DecidableEq

/-- `PlaygroundLoggingFilter` (logging.py:34-51); the modules are `none` when every logger is meant. `excludeTags` is always empty: any other
value raises a NameError (`excludTags`, logging.py:48). -/
structure Filter where
  modules : Option (List Str)
  tags : Tags
  deriving DecidableEq

/-- `PlaygroundLoggingFilter.configure` (logging.py:41-50). -/
def configure (modules : List Str) (tags : Tags) : Filter := ⟨if modules = [] then none else some modules, tags⟩

/-- `logThisTag` (logging.py:52-56). -/
def logThisTag (f : Filter) (tag : Str) : Bool :=
  if f.tags = .all ∨ tag = [] then true
  else match f.tags with
    | .all => true
    | .only l => decide (tag ∈ l)

/-- `logThisLogger` (logging.py:58-67). -/
def logThisLogger (f : Filter) (name : Str) : Bool := match f.modules with
  | none => logThisTag f (getTag name)
  | some ms => ms.any (fun m => (m ++ ['.']).isPrefixOf name) && logThisTag f (getTag name)

structure St where
  rootLevel : Nat               -- level of the root logger
  attached : Bool               -- whether Config is a handler of the root logger
  level : Nat                   -- level of Config
  additional : List Str         -- additionalModules
  handlers : Dict Nat Nat       -- handlers: the filter of each
  hLevel : Nat → Nat            -- level of each handler
  hFilters : Nat → List Nat     -- filters attached to each handler
  filter : Nat → Filter
  nFilter : Nat
  nHandler : Nat
  out : List (Nat × Str × Nat)  -- what was written: handler, logger, level

/-- Python's state before logging.py is imported, and `Config` (logging.py:106-118). -/
def St.init : St := ⟨warning, false, notset, [], [], fun _ => notset, fun _ => [], fun _ => ⟨none, .all⟩, 0, 1, []⟩

def upd {α : Type} (f : Nat → α) (k : Nat) (v : α) : Nat → α := fun j => if j = k then v else f j

/-- `enableLogging` (logging.py:142-158). -/
def enableLogging (s : St) (level : Nat) (additional : List Str) : St :=
  { s with
    rootLevel := if s.rootLevel > level then level else s.rootLevel
    attached := true
    additional := if additional = [] then s.additional else additional
    level := level }

/-- `enableHandler` (logging.py:160-179). -/
def enableHandler (s : St) (h level : Nat) (specific : Option (List Str)) (tags : Tags) : St :=
  let s1 := { s with hLevel := upd s.hLevel h level }
  let modules := match specific with
    | none => "playground".toList :: s.additional
    | some ms => ms ++ s.additional
  match s.handlers.get h with
  | none => { s1 with
      filter := upd s.filter s.nFilter (configure modules tags)
      nFilter := s.nFilter + 1
      hFilters := upd s.hFilters h (s.hFilters h ++ [s.nFilter])
      handlers := s.handlers.set h s.nFilter }
  | some f => { s1 with filter := upd s.filter f (configure modules tags) }

/-- `clearAllHandlers` (logging.py:186-187): the filters stay attached to the handlers. -/
def clearAllHandlers (s : St) : St := { s with handlers := [] }

/-- `createRotatingLogFileHandler` (logging.py:189-203); `none` when it raises (no playground path, the file cannot be opened). -/
def newFile (ok : Bool) (s : St) : Option (St × Nat) := if ok then some ({ s with nHandler := s.nHandler + 1 }, s.nHandler) else none

inductive Preset where
  | off | minimal | quiet | verbose | dbg | test | max
  | unknown
  deriving DecidableEq

/-- A file handler is made and enabled. -/
def enableFile (ok : Bool) (s : St) (level : Nat) : St × Bool := match newFile ok s with
  | none => (s, true)
  | some (s1, h) => (enableHandler s1 h level none (.only []), false)

/-- `EnablePresetLogging` (logging.py:224-258). `aux` is PLAYGROUND_AUX_LOGGERS, `ok` says whether the log file can be opened. The flag says
whether it raises. -/
def enablePreset (aux : List Str) (ok : Bool) (s0 : St) (p : Preset) : St × Bool :=
  let s := clearAllHandlers s0
  match p with
  | .off => (enableLogging s critical [], false)
  | .minimal => enableFile ok (enableLogging s notset []) error
  | .quiet => enableFile ok (enableLogging s notset []) info
  | .verbose => enableFile ok (enableHandler (enableLogging s notset ["asyncio".toList]) 0 error none (.only [])) debug
  | .dbg => enableFile ok (enableHandler (enableLogging s notset ["asyncio".toList]) 0 notset none (.only [])) notset
  | .test => (enableHandler (enableLogging s notset ["asyncio".toList]) 0 notset none (.only []), false)
  | .max => enableFile ok (enableHandler (enableLogging s notset ("asyncio".toList :: aux)) 0 notset none (.only [])) debug
  | .unknown => (s, true)

/-- `PRESET_LEVELS` (logging.py:215-222). -/
def presetLevels : List Preset := [.off, .minimal, .quiet, .verbose, .dbg, .test, .max]

/-- `CmdLineToLogging` for a string of `n` letters v (logging.py:260-262). -/
def cmdLine (aux : List Str) (ok : Bool) (s : St) (n : Nat) : St × Bool := match presetLevels[n]? with
  | some p => enablePreset aux ok s p
  | none => (s, true)

/-- `Handler.handle` of Python: all filters must accept. -/
def accepts (s : St) (h : Nat) (name : Str) : Bool := (s.hFilters h).all fun f => logThisLogger (s.filter f) name

/-- The handlers that write a message (logging.py:137-140, and Python's `Logger.log` and `callHandlers`). -/
def writers (s : St) (name : Str) (level : Nat) : List Nat :=
  if s.attached ∧ s.rootLevel ≤ level ∧ s.level ≤ level then
    s.handlers.keys.filter fun h => (decide (level = notset) || decide (s.hLevel h ≤ level)) && accepts s h name
  else []

inductive Ev where
  | preset (p : Preset) (ok : Bool)     -- EnablePresetLogging
  | cmd (n : Nat) (ok : Bool)           -- CmdLineToLogging("v" * n)
  | log (name : Str) (level : Nat)      -- a message
  deriving DecidableEq

def step (aux : List Str) (s : St) : Ev → St
  | .preset p ok => (enablePreset aux ok s p).1
  | .cmd n ok => (cmdLine aux ok s n).1
  | .log name level => { s with out := s.out ++ (writers s name level).map fun h => (h, name, level) }

def exec (aux : List Str) (s : St) : List Ev → St
  | [] => s
  | e :: h => exec aux (step aux s e) h

end Verif.Logging
