import Verif.Model.Cli
import Verif.Spec.Pnms
/-! # Vocabulary for the output of `pnetworking status`

What a reader sees: lines, and paragraphs between empty lines. -/
namespace Verif.Cli
open Verif.Pnms (Place Settings Net)

/-- Lines in groups, split at empty lines. -/
def groups : List Str → List (List Str)
  | [] => [[]]
  | l :: ls => if l = [] then [] :: groups ls else match groups ls with
    | [] => [[l]]
    | g :: gs => (l :: g) :: gs

/-- The paragraphs of a text. -/
def paragraphs (text : Str) : List (List Str) := (groups (splitOn '\n' text)).filter (· ≠ [])

/-- The first line of a file. -/
def FirstLine (content line : Str) : Prop := '\n' ∉ line ∧ (content = line ∨ ∃ r, content = line ++ '\n' :: r)

/-- Where an access point is said to listen. -/
inductive Listens (E : Env) (k : Str) : Place → Str → Prop where
  | managedOff : E.state k ≠ .enabled → Listens E k .managed "None:None".toList
  | managed {c line i} : E.state k = .enabled → E.statusFile k = some c → FirstLine c line → pyInt line = some i →
      Listens E k .managed ("127.0.0.1:".toList ++ intStr i)
  | loc {p i} : pyInt p = some i → Listens E k (.loc p) ("127.0.0.1:".toList ++ intStr i)
  | pub {p i} : pyInt p = some i → Listens E k (.pub p) ("None:".toList ++ intStr i)
  | remote {h p i} : pyInt p = some i → Listens E k (.remote h p) (h ++ ":".toList ++ intStr i)

/-- The process of a device. -/
inductive Pid (E : Env) (k : Str) : Str → Prop where
  | nofile : E.pidFile k = none → Pid E k []
  | zero {c} : E.pidFile k = some c → pyInt c = some 0 → Pid E k []
  | pid {c i} : E.pidFile k = some c → pyInt c = some i → i ≠ 0 → Pid E k ("(PID: ".toList ++ intStr i ++ ")".toList)

/-- The connection of a process to its access point, as its status file says. -/
inductive Life (E : Env) (k : Str) : Str → Prop where
  | off : E.state k ≠ .enabled → Life E k "Disabled".toList
  | failed {c} : E.state k = .enabled → E.statusFile k = some c → "disconnected".toList <:+: Routes.norm c → Life E k "Failed".toList
  | live {c} : E.state k = .enabled → E.statusFile k = some c → ¬ "disconnected".toList <:+: Routes.norm c → "connected".toList <:+: Routes.norm c → Life E k "Live".toList
  | unknown {c} : E.state k = .enabled → E.statusFile k = some c → ¬ "connected".toList <:+: Routes.norm c → Life E k "Unknown".toList

/-- The access point of an interface. -/
inductive Link (E : Env) (n : Net) (k : Str) : Str → Prop where
  | nothing : n.link k = none → Link E n k "None".toList
  | to {c u a p l} : n.link k = some c → n.dev c = some (.ap u a p) → Listens E c p l → Link E n k (c ++ " (".toList ++ l ++ ")".toList)

/-- The routes of an interface: those of the network in their order, and somewhere the default, once, if it is its. -/
structure Routed (n : Net) (k : Str) (rs : List Str) : Prop where
  routes : rs.filter (· ≠ "__default__".toList) = (n.routes.routes.filter (·.2 = k)).map (·.1)
  default : "__default__".toList ∈ rs ↔ n.routes.default = some k
  once : rs.Nodup

def word : Device.Status → Str
  | .disabled => "Disabled".toList
  | .waiting => "Waiting".toList
  | .abnormal => "Abnormal Shutdown".toList
  | .enabled => "Enabled".toList

/-- Remote access points always count as enabled. -/
def shown (E : Env) (k : Str) : Settings → Str
  | .ap _ _ (.remote _ _) => "Enabled".toList
  | _ => word (E.state k)

def yes (b : Bool) : Str := if b then "True".toList else "False".toList

/-- The first lines about a device. -/
def top (E : Env) (k : Str) (s : Settings) (pid : Str) : List Str :=
  [s.type ++ " ".toList ++ k ++ ":".toList, "\tStatus: ".toList ++ shown E k s ++ " ".toList ++ pid, "\tAuto-Enable: ".toList ++ yes s.auto]

/-- What `status` is meant to say about a device of the network. -/
inductive Reports (E : Env) (n : Net) (k : Str) : List Str → Prop where
  | switch {a p pid l} : n.dev k = some (.ap false a p) → Pid E k pid → Listens E k p l →
      Reports E n k (top E k (.ap false a p) pid ++ ["\tPNMS Managed: ".toList ++ yes (p = .managed), "\tTCP Location: ".toList ++ l])
  | unreliable {a p pid} : n.dev k = some (.ap true a p) → Pid E k pid → Reports E n k (top E k (.ap true a p) pid)
  | iface {addr a pid l x rs} : n.dev k = some (.iface addr a) → Pid E k pid → Link E n k l → Life E k x → Routed n k rs →
      Reports E n k (top E k (.iface addr a) pid ++ ["\tPlayground Address: ".toList ++ addr, "\tConnected To: ".toList ++ l ++ " (".toList ++ x ++ ")".toList, "\tRoutes:".toList] ++
        rs.map ("\t\t".toList ++ ·))

/-- One by one. -/
inductive All2 {α β : Type} (R : α → β → Prop) : List α → List β → Prop where
  | nil : All2 R [] []
  | cons {a b as bs} : R a b → All2 R as bs → All2 R (a :: as) (b :: bs)

/-- What the user types has no line breaks. -/
def Typable (c : Pnms.Cmd) : Prop := match c with
  | .add k _ args => '\n' ∉ k ∧ ∀ a ∈ args, '\n' ∉ a
  | .config _ _ args => ∀ a ∈ args, '\n' ∉ a
  | _ => True

/-- The title of the report. -/
def title : List Str := ["Playground Networking Configuration:".toList, "-------------------------------------".toList]

/-- How each command is typed. -/
inductive Asks : List Str → Cmd → Prop where
  | nothing : Asks [] (.help none)
  | help : Asks ["help".toList] (.help none)
  | helpOn (s : Str) : Asks ["help".toList, s] (.help (some s))
  | init (l : Str) : l ∈ ["instance".toList, "user".toList, "system".toList] → Asks ["initialize".toList, l] (.init l none)
  | initOver (l o : Str) : l ∈ ["instance".toList, "user".toList, "system".toList] → Asks ["initialize".toList, l, o] (.init l (some o))
  | on : Asks ["on".toList] .on
  | off : Asks ["off".toList] .off
  | add (name type : Str) (args : List Str) : Asks ("add".toList :: name :: type :: args) (.add name type args)
  | remove (name : Str) : Asks ["remove".toList, name] (.remove name)
  | enable (name : Str) : Asks ["enable".toList, name] (.enable name)
  | disable (name : Str) : Asks ["disable".toList, name] (.disable name)
  | config (name verb : Str) (args : List Str) : Asks ("config".toList :: name :: verb :: args) (.config name verb args)
  | query (name verb : Str) (args : List Str) : Asks ("query".toList :: name :: verb :: args) (.query name verb args)
  | routes : Asks ["routes".toList] .routes
  | status : Asks ["status".toList] (.status none)
  | statusOf (name : Str) : Asks ["status".toList, name] (.status (some name))

/-- What a command is for the configuration. -/
def Cmd.change : Cmd → Pnms.Cmd
  | .add n t args => .add n t args
  | .remove n => .remove n
  | .config n v args => .config n v args
  | _ => .other

/-- What a series of calls is for the configuration; calls with wrong usage are nothing. -/
inductive Calls : List (List Str) → List Pnms.Cmd → Prop where
  | nil : Calls [] []
  | asks {argv c l cs} : Asks argv c → Calls l cs → Calls (argv :: l) (c.change :: cs)
  | usage {argv l cs} : (∀ c, ¬ Asks argv c) → Calls l cs → Calls (argv :: l) cs

/-- What `status` reads is there: ports are numbers, and so is what is in the files of the devices. -/
structure Sane (E : Env) (n : Net) : Prop where
  pids : ∀ k c, E.pidFile k = some c → ∃ i, pyInt c = some i
  ports : ∀ k u b p, n.dev k = some (.ap u b p) → ∀ q, p.port = some q → ∃ i, pyInt q = some i
  status : ∀ k s, n.dev k = some s → E.state k = .enabled → ∃ c line i, E.statusFile k = some c ∧ FirstLine c line ∧ pyInt line = some i

end Verif.Cli
