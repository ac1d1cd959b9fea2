import Verif.Model.Pnms
import Verif.Spec.Routes
/-! # Vocabulary for the network configuration -/
namespace Verif.Pnms
open Verif.Routes (norm)

/-- Where an access point listens. -/
inductive Place where
  | managed
  | loc (port : Str)
  | pub (port : Str)
  | remote (host port : Str)
  deriving DecidableEq

/-- A device: an interface with an address, or an access point (a switch, possibly an unreliable one). -/
inductive Settings where
  | iface (address : Str) (auto : Bool)
  | ap (unreliable : Bool) (auto : Bool) (place : Place)
  deriving DecidableEq

def Settings.type : Settings → Str
  | .iface _ _ => "vnic".toList
  | .ap false _ _ => "switch".toList
  | .ap true _ _ => "unreliable_switch".toList

def Settings.auto : Settings → Bool
  | .iface _ a => a
  | .ap _ a _ => a

def Place.kind : Place → Str
  | .managed => "managed".toList
  | .loc _ => "local".toList
  | .pub _ => "public".toList
  | .remote _ _ => "remote".toList

def Place.host : Place → Option Str
  | .remote h _ => some h
  | _ => none

def Place.port : Place → Option Str
  | .managed => none
  | .loc p => some p
  | .pub p => some p
  | .remote _ p => some p

/-- The options of the section of a device. -/
structure Settings.Shown (s : Settings) (d : Dict Str Str) : Prop where
  auto : d.get "auto_enable".toList = some (if s.auto then "true".toList else "false".toList)
  iface : ∀ a b, s = .iface a b → d.get "playground_address".toList = some a
  ap : ∀ u b p, s = .ap u b p →
    d.get "physical_connection_type".toList = some p.kind ∧ d.get "tcp_address".toList = p.host ∧ d.get "tcp_port".toList = p.port

/-- The options on the command line that adds an access point. -/
inductive Opt where
  | manual
  | auto
  | place (p : Place)

def Opt.words : Opt → List Str
  | .manual => ["manual".toList]
  | .auto => ["auto-enable".toList]
  | .place .managed => ["managed".toList]
  | .place (.loc p) => ["local".toList, p]
  | .place (.pub p) => ["public".toList, p]
  | .place (.remote h p) => ["remote".toList, h, p]

/-- The last of the options decides. -/
def autoOf (auto : Bool) : List Opt → Bool
  | [] => auto
  | .manual :: l => autoOf false l
  | .auto :: l => autoOf true l
  | .place _ :: l => autoOf auto l

def placeOf (p : Place) : List Opt → Place
  | [] => p
  | .place q :: l => placeOf q l
  | _ :: l => placeOf p l

/-- A type and arguments on the command line describe a device. -/
inductive Describes : Str → List Str → Settings → Prop where
  | vnic (address : Str) (k : Nat) : Describes "vnic".toList (address :: List.replicate k "manual".toList) (.iface address (k = 0))
  | switch (opts : List Opt) : Describes "switch".toList (opts.flatMap Opt.words) (.ap false (autoOf true opts) (placeOf .managed opts))
  | unreliable (opts : List Opt) : Describes "unreliable_switch".toList (opts.flatMap Opt.words) (.ap true (autoOf true opts) (placeOf .managed opts))

/-- A network: its devices, which access point an interface is connected to, and the routes. -/
structure Net where
  dev : Str → Option Settings
  link : Str → Option Str
  routes : Routes.Net

def Net.init : Net := ⟨fun _ => none, fun _ => none, ⟨[], none⟩⟩

def Net.Iface (n : Net) (k : Str) : Prop := ∃ a b, n.dev k = some (.iface a b)
def Net.Ap (n : Net) (k : Str) : Prop := ∃ u b p, n.dev k = some (.ap u b p)

/-- Change the value at one name. -/
def put {α : Type} (f : Str → α) (k : Str) (x : α) : Str → α := fun j => if j = k then x else f j

/-- Without the device: its connection, the connections to it and its routes are gone, too. -/
def Net.without (n : Net) (k : Str) : Net :=
  ⟨put n.dev k none, put (fun j => (n.link j).filter (· ≠ k)) k none,
    ⟨n.routes.routes.filter (·.2 ≠ k), if n.routes.default = some k then none else n.routes.default⟩⟩

/-- The verb of a configuration command, however it is capitalised or padded. -/
def Says (verb : Str) (word : String) : Prop := norm (strip verb) = word.toList

/-- What the commands are meant to do; a command that does none of this fails. -/
inductive Step : Net → Cmd → Net → Prop where
  | add {n k t args s} : k ≠ [] → n.dev k = none → Describes t args s → Step n (.add k t args) { n with dev := put n.dev k (some s) }
  | remove {n k s} : n.dev k = some s → Step n (.remove k) (n.without k)
  | removeNothing {n k} : n.dev k = none → Step n (.remove k) n
  | connect {n k verb c} : n.Iface k → Says verb "connect" → n.Ap c → Step n (.config k verb [c]) { n with link := put n.link k (some c) }
  | disconnect {n k verb args} : n.Iface k → Says verb "disconnect" → Step n (.config k verb args) { n with link := put n.link k none }
  | addRoute {n k verb r} : n.Iface k → Says verb "route" → r ≠ "default".toList → r ∉ n.routes.routes.map (·.1) →
      Step n (.config k verb ["add".toList, r]) { n with routes := { n.routes with routes := n.routes.routes ++ [(r, k)] } }
  | setDefault {n k verb} : n.Iface k → Says verb "route" →
      Step n (.config k verb ["add".toList, "default".toList]) { n with routes := { n.routes with default := some k } }
  | removeRoute {n k verb r} : n.Iface k → Says verb "route" → r ≠ "default".toList → (r, k) ∈ n.routes.routes →
      Step n (.config k verb ["remove".toList, r]) { n with routes := { n.routes with routes := n.routes.routes.filter (· ≠ (r, k)) } }
  | unsetDefault {n k verb} : n.Iface k → Says verb "route" → n.routes.default = some k →
      Step n (.config k verb ["remove".toList, "default".toList]) { n with routes := { n.routes with default := none } }
  | other {n} : Step n .other n

/-- Several commands, and which of them succeed. -/
inductive Steps : Net → List Cmd → List Bool → Net → Prop where
  | nil {n} : Steps n [] [] n
  | done {n c n' cs bs n''} : Step n c n' → Steps n' cs bs n'' → Steps n (c :: cs) (true :: bs) n''
  | failed {n c cs bs n''} : (∀ n', ¬ Step n c n') → Steps n cs bs n'' → Steps n (c :: cs) (false :: bs) n''

/-- Which commands succeed. -/
def outcomes (f : Option Cfg) : List Cmd → List Bool
  | [] => []
  | c :: cs => (run f c).2.isNone :: outcomes (after f c) cs

/-- Names of new devices and routes are in lower case, and no route is the key for the default. -/
def Cmd.Plain : Cmd → Prop
  | .add k _ _ => norm k = k
  | .remove k => norm k = k
  | .config _ _ args => ∀ a ∈ args, norm a = a ∧ a ≠ Routes.defaultKey
  | .other => True

/-- The command that removes a route other than the default. -/
def Cmd.RemovesRoute : Cmd → Prop
  | .config _ verb args => Says verb "route" ∧ ∃ r, args = ["remove".toList, r] ∧ r ≠ "default".toList
  | _ => False

/-- What the commands really do: removing a route other than the default is lost when the process ends. -/
inductive Happens : Net → Cmd → Net → Prop where
  | asMeant {n c n'} : ¬ c.RemovesRoute → Step n c n' → Happens n c n'
  | lost {n c n'} : c.RemovesRoute → Step n c n' → Happens n c n

inductive Happen : Net → List Cmd → List Bool → Net → Prop where
  | nil {n} : Happen n [] [] n
  | done {n c n' cs bs n''} : Happens n c n' → Happen n' cs bs n'' → Happen n (c :: cs) (true :: bs) n''
  | failed {n c cs bs n''} : (∀ n', ¬ Step n c n') → Happen n cs bs n'' → Happen n (c :: cs) (false :: bs) n''

/-- What a process that has loaded the configuration shows. -/
structure Shows (m : Mgr) (n : Net) : Prop where
  types : ∀ k, m.mem.devices.get k = (n.dev k).map Settings.type
  settings : ∀ k s, n.dev k = some s → ∃ d, m.mem.secs.get k = some d ∧ s.Shown d
  links : ∀ k, norm k = k → connectedTo m k = n.link k
  routes : n.routes.routes = m.mem.routes.filter (·.1 ≠ Routes.defaultKey)
  default : n.routes.default = m.mem.routes.get Routes.defaultKey

/-- The file is read without an error, and shows the network. -/
def FileShows (f : Option Cfg) (n : Net) : Prop := ∃ m, load f = (m, none) ∧ Shows m n

end Verif.Pnms
