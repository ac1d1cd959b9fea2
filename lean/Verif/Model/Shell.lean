import Verif.Model.Shlex
import Verif.Model.Dict
/-! # The command shell (common/io/ui/CLIShell.py: `ArgPod` 180-185, `CLICommand` 187-327, `CLIShell` 487-602)

Objects of `CLICommand` live in a heap; their identities are numbers. What the callbacks, the argument handlers and the file system do is part of each event (an
`Env`), so that every theorem is about all of their behaviours. Simplifications: callbacks and handlers do not call the shell or configure commands themselves; what
`help` writes, and when it raises, is in Model/Usage, and here it does neither; the transport is there and its `write` does not raise; traces printed by
`traceback` and messages are effects without their text; completion is in Model/Complete; the terminal, `AdvancedStdio`, in Model/Stdio. -/
namespace Verif.Shell
open Verif.Shlex (split stripLine)

/-- What an argument handler hands on (CLIShell.py:277, 290, 314): the words themselves, or objects made from them. -/
inductive Val where
  | text (s : Str)
  | obj (n : Nat)
  deriving DecidableEq

/-- `mode` of a `CLICommand` (CLIShell.py:188-190). -/
inductive Mode where
  | single
  | standard
  | sub
  deriving DecidableEq

/-- A callback: one of the application, or `help` (CLIShell.py:516-529; for one command: the lambda of 569), `__batch` (547-554), `quit` (CLIShell.py:556-557). -/
inductive Cb where
  | user (n : Nat)
  | help (cmd : Option Str)
  | batch
  | quit
  deriving DecidableEq

/-- A callback with its argument handler (`ArgPod`, CLIShell.py:180-185; `__defaultCb` and `__defaultArgHandler`, 199-204); `none` is `lambda writer, *args: args`. -/
structure Pod where
  cb : Cb
  arg : Option Nat
  deriving DecidableEq

/-- A `CLICommand` (CLIShell.py:192-206). `self.cb` is `pods` in standard mode and `subs` in subcommand mode. `user` is false for the objects that the shell makes itself. -/
structure Obj where
  txt : Str
  mode : Mode
  dflt : Option Pod
  pods : Dict Nat Pod
  subs : Dict Str Nat
  user : Bool
  deriving DecidableEq

/-- What can be awaited (CLIShell.py:539): a future of the application, or a batch task. -/
inductive Fut where
  | user (n : Nat)
  | batch (t : Nat)
  deriving DecidableEq

/-- What a callback returns (CLIShell.py:283, 295, 322): something that can be awaited, or something that cannot (`None`, for instance). -/
inductive Ret where
  | plain
  | fut (f : Fut)
  deriving DecidableEq

/-- The result of `process` (CLIShell.py:273-327) and of `line_received` (581-587): `(False, None)` or `(True, d)`. -/
inductive Res where
  | failed
  | ok (r : Ret)
  deriving DecidableEq

inductive ArgRes where
  | raised
  | refused                    -- returned None
  | args (l : List Val)
  deriving DecidableEq

inductive RunRes where
  | raised
  | plain
  | fut (n : Nat)
  deriving DecidableEq

inductive FileRes where
  | missing
  | unreadable
  | lines (l : List Str)
  deriving DecidableEq

/-- The environment: argument handlers, callbacks, files (CLIShell.py:277, 283, 548-551). -/
structure Env where
  arg : Nat → List Str → ArgRes
  run : Nat → List Val → RunRes
  file : Str → FileRes

inductive Msg where
  | failed                     -- "Command failed."
  | requires                   -- "Command requires arguments"
  | noSuch (w : Str)           -- "No such command"
  | wrongNumber                -- "Wrong number of arguments"
  | unknown (w : Str)          -- "Unknown command"
  | noFile (w : Str)           -- "No such file"
  | batchFailed (l : Str)      -- "Batch failed on line"
  | trace                      -- traceback.format_exc()
  deriving DecidableEq

inductive Eff where
  | handler (k : Nat) (args : List Str)      -- argument handler called
  | ran (c : Cb) (args : List Val)           -- callback called
  | say (m : Msg)
  | started (t : Nat) (ls : List Str)        -- batch task made
  | fed (t : Nat) (l : Str)                  -- `line_received(line)` by the batch task
  | gave (t : Nat) (r : Res)                 -- and its result
  | raised                                   -- an exception out of a method of the API
  deriving DecidableEq

inductive Wait where
  | ready
  | on (f : Fut) (l : Str)
  | over
  deriving DecidableEq

/-- A task of `__run_batch_lines` (CLIShell.py:531-545). -/
structure Task where
  left : List Str
  wait : Wait
  deriving DecidableEq

structure St where
  nObj : Nat
  obj : Nat → Obj
  commands : Dict Str Nat
  nTask : Nat
  task : Nat → Task
  fin : Dict Nat Bool           -- futures of the application that are done; true: with a result
  out : List Eff

def upd {α} (f : Nat → α) (i : Nat) (x : α) : Nat → α := fun j => if j = i then x else f j

def emit (s : St) (l : List Eff) : St := { s with out := s.out ++ l }

/-- `CLICommand(...)` (CLIShell.py:192-206): a new object, if its arguments are right. -/
def alloc (s : St) (o : Obj) : St := { s with nObj := s.nObj + 1, obj := upd s.obj s.nObj o }

/-- `__registerCommand` (CLIShell.py:564-570). The object `0` is `__helpCmdHandler`. -/
def addCommand (s : St) (o : Nat) : St :=
  let t := (s.obj o).txt
  if s.commands.has t then emit s [.raised]
  else
    let s1 := alloc { s with commands := s.commands.set t o } ⟨t, .single, some ⟨.help (some t), none⟩, [], [], false⟩
    { s1 with obj := upd s1.obj 0 { s1.obj 0 with subs := (s1.obj 0).subs.set t s.nObj } }

def noObj : Obj := ⟨[], .standard, none, [], [], false⟩

/-- `CLIShell.__init__` (CLIShell.py:492-507). -/
def St.init : St :=
  let s0 : St := ⟨0, fun _ => noObj, [], 0, fun _ => ⟨[], .over⟩, [], []⟩
  let s1 := alloc s0 ⟨"help".toList, .sub, some ⟨.help none, none⟩, [], [], false⟩
  let s2 := alloc s1 ⟨"batch".toList, .standard, none, [(1, ⟨.batch, none⟩)], [], false⟩
  let s3 := alloc s2 ⟨"quit".toList, .standard, some ⟨.quit, none⟩, [], [], false⟩
  addCommand (addCommand (addCommand s3 0) 1) 2

/-- `stripCompleterKeys` (CLIShell.py:244-248); the only key is `f://`. -/
def stripKey : Str → Str
  | 'f' :: ':' :: '/' :: '/' :: r => r
  | w => w

/-- The argument handler of a pod (CLIShell.py:182, 201-204). -/
def handled (e : Env) (p : Pod) (args : List Str) : ArgRes := match p.arg with
  | none => .args (args.map .text)
  | some k => e.arg k args

def handlerEff (p : Pod) (args : List Str) : List Eff := match p.arg with
  | none => []
  | some k => [.handler k args]

/-- `__batch` (CLIShell.py:547-554). -/
def runBatch (e : Env) (s : St) : List Val → St × Res
  | [.text f] => match e.file f with
    | .missing => (emit s [.say (.noFile f)], .ok .plain)
    | .unreadable => (emit s [.say .trace], .failed)
    | .lines ls => ({ emit s [.started s.nTask ls] with nTask := s.nTask + 1, task := upd s.task s.nTask ⟨ls, .ready⟩ }, .ok (.fut (.batch s.nTask)))
  | _ => (emit s [.say .trace], .failed)

/-- What a callback does (CLIShell.py:283, 295, 322; 516-529, 556-557). -/
def runCb (e : Env) (s : St) (c : Cb) (vs : List Val) : St × Res := match c with
  | .user n => match e.run n vs with
    | .raised => (emit s [.say .trace], .failed)
    | .plain => (s, .ok .plain)
    | .fut f => (s, .ok (.fut (.user f)))
  | .help _ => (s, .ok .plain)
  | .batch => runBatch e s vs
  | .quit => (s, .ok .plain)

/-- The argument handler, then the callback (CLIShell.py:277-284, 289-296, 314-324, 325-327). -/
def invoke (e : Env) (s : St) (p : Pod) (args : List Str) : St × Res :=
  let s1 := emit s (handlerEff p args)
  match handled e p args with
  | .raised => (emit s1 [.say .trace], .failed)
  | .refused => (emit s1 [.say .failed], .failed)
  | .args vs => runCb e (emit s1 [.ran p.cb vs]) p.cb vs

/-- `process` (CLIShell.py:273-327) without arguments, except in singleton mode: after "Command requires arguments" it goes on, to "Wrong number of arguments" or to an `IndexError`. -/
def bareWord (e : Env) (s : St) (o : Obj) : St × Res := match o.dflt with
  | some p => invoke e s p []
  | none => match o.mode with
    | .sub => (emit s [.say .requires, .say .trace], .failed)
    | _ => (emit s [.say .requires, .say .wrongNumber], .failed)

/-- `process` in singleton mode (275-284); without a default callback it could not be made (CLIShell.py:205-206). -/
def singleton (e : Env) (s : St) (o : Obj) (args : List Str) : St × Res := match o.dflt with
  | some p => invoke e s p (args.map stripKey)
  | none => (emit s [.say .trace], .failed)

/-- `process` in standard mode with arguments (CLIShell.py:308-324). -/
def counted (e : Env) (s : St) (o : Obj) (args : List Str) : St × Res := match o.pods.get args.length with
  | some p => invoke e s p (args.map stripKey)
  | none => (emit s [.say .wrongNumber], .failed)

/-- `process` (CLIShell.py:273-327). -/
def process (e : Env) (s : St) : Nat → List Str → St × Res
  | o, [] => match (s.obj o).mode with
    | .single => singleton e s (s.obj o) []
    | _ => bareWord e s (s.obj o)
  | o, w :: ws => match (s.obj o).mode with
    | .single => singleton e s (s.obj o) (w :: ws)
    | .standard => counted e s (s.obj o) (w :: ws)
    | .sub => match (s.obj o).subs.get w with
      | none => (emit s [.say (.noSuch w)], .failed)
      | some o' => process e s o' ws

/-- The words of the line: a command, and its arguments (CLIShell.py:595-602). -/
def command (e : Env) (s : St) : List Str → St × Res
  | [] => (emit s [.say .trace], .failed)
  | c :: args => match s.commands.get c with
    | none => (emit s [.say (.unknown c)], .failed)
    | some o => process e s o args

/-- `line_received` (CLIShell.py:581-602). -/
def lineReceived (e : Env) (s : St) (l : Str) : St × Res :=
  if stripLine l = [] then (s, .failed)
  else match split (stripLine l) with
    | .error _ => (emit s [.say .trace], .failed)
    | .ok ws => command e s (ws.filter (· ≠ []))

/-- The future is done: with a result, or with an exception. A batch task always has the result True (CLIShell.py:531-545). -/
def done (s : St) : Fut → Option Bool
  | .user n => s.fin.get n
  | .batch t => if (s.task t).wait = .over then some true else none

/-- `configure` (CLIShell.py:257-271). -/
def configure (s : St) (o : Nat) (n : Int) (p : Pod) : St :=
  if (s.obj o).mode ≠ .standard then emit s [.raised]
  else if (s.obj o).pods.has n.toNat = true ∧ 0 ≤ n then emit s [.raised]
  else if n < 1 then emit s [.raised]
  else { s with obj := upd s.obj o { s.obj o with pods := (s.obj o).pods.set n.toNat p } }

/-- `configureSubcommand` (CLIShell.py:250-255). -/
def configureSub (s : St) (o o' : Nat) : St :=
  if (s.obj o).mode ≠ .sub then emit s [.raised]
  else if (s.obj o).subs.has (s.obj o').txt then emit s [.raised]
  else { s with obj := upd s.obj o { s.obj o with subs := (s.obj o).subs.set (s.obj o').txt o' } }

/-- `registerCommand` (CLIShell.py:559-562). -/
def register (s : St) (o : Nat) : St :=
  if (s.obj o).txt.head? = some '_' then emit s [.raised] else addCommand s o

/-- After a line (CLIShell.py:532-541): it failed, or it gave something to await (`await` of anything else is a `TypeError`). -/
def afterLine (s : St) (t : Nat) (l : Str) : Res → St
  | .failed => { emit s [.say (.batchFailed l)] with task := upd s.task t { s.task t with wait := .over } }
  | .ok .plain => { emit s [.say (.batchFailed l)] with task := upd s.task t { s.task t with wait := .over } }
  | .ok (.fut f) => { s with task := upd s.task t { s.task t with wait := .on f l } }

/-- The next line of a batch (CLIShell.py:531-532). -/
def feed (e : Env) (s : St) (t : Nat) (l : Str) (ls : List Str) : St :=
  let s1 := emit { s with task := upd s.task t { s.task t with left := ls } } [.fed t l]
  let r := lineReceived e s1 l
  afterLine (emit r.1 [.gave t r.2]) t l r.2

/-- A step of a batch task: the next line, or what it waits for is done (CLIShell.py:538-545). -/
def runTask (e : Env) (s : St) (t : Nat) : St := match (s.task t).wait with
  | .over => s
  | .ready => match (s.task t).left with
    | [] => { s with task := upd s.task t { s.task t with wait := .over } }
    | l :: ls => feed e s t l ls
  | .on f l => match done s f with
    | none => s
    | some true => { s with task := upd s.task t { s.task t with wait := .ready } }
    | some false => { emit s [.say (.batchFailed l)] with task := upd s.task t { s.task t with wait := .over } }

/-- Objects of the application; those that the shell makes (CLIShell.py:496-507, 568-570) are in no hands but its own. -/
def mine (s : St) (o : Nat) : Bool := decide (o < s.nObj) && (s.obj o).user

def app (p : Nat × Option Nat) : Pod := ⟨.user p.1, p.2⟩

inductive Ev where
  | new (txt : Str) (mode : Mode) (dflt : Option (Nat × Option Nat))        -- CLICommand(txt, _, defaultCb, defaultArgHandler, mode)
  | configure (o : Nat) (n : Int) (p : Nat × Option Nat)
  | configureSub (o o' : Nat)
  | register (o : Nat)
  | line (l : Str) (e : Env)
  | done (n : Nat) (ok : Bool)                                               -- a future of the application
  | run (t : Nat) (e : Env)                                                  -- a step of a batch task

def step (s : St) : Ev → St
  | .new txt mode dflt => if mode = .single ∧ dflt = none then emit s [.raised] else alloc s ⟨txt, mode, dflt.map app, [], [], true⟩
  | .configure o n p => if mine s o then configure s o n (app p) else s
  | .configureSub o o' => if mine s o = true ∧ mine s o' = true then configureSub s o o' else s
  | .register o => if mine s o then register s o else s
  | .line l e => (lineReceived e s l).1
  | .done n ok => if s.fin.has n then s else { s with fin := s.fin.set n ok }
  | .run t e => if t < s.nTask then runTask e s t else s

def exec (s : St) : List Ev → St
  | [] => s
  | e :: h => exec (step s e) h

end Verif.Shell
