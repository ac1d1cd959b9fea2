import Verif.Props.WanReply
/-! # C74: examples, and what is false -/
namespace Verif.WanApi
open Verif.WanNet (view)
open Verif.Spmp (Res)

/-- Devices are named by numbers; nothing is lost. -/
def exC : Cfg := ⟨WanNet.sure, fun _ => "error".toList, natStr, fun s => if s = ['x'] then none else some s, fun l => levels.contains l⟩

def req (v : String) (args : List String) : Ev := .request v.toList (args.map String.toList)

/-- Three prefixes, connected through the second, and a device at the first. -/
def set3 : List Ev := [req "add-switches" ["1", "2", "3"], .accept 0, .announce 0 "1.1.1.1".toList, req "set-direct-connections" ["2", "1", "3"], req "set-location" ["0", "1"],
  req "set-loss-rate" ["0"], req "set-loss-rate" ["x"], req "nonsense" []]

theorem calls_set3 : calls natStr set3 = [.register 1, .register 2, .register 3, .accept 0, .announce 0 "1.1.1.1".toList, .connect 2 [1, 3], .locate 0 1] := by
  decide +kernel

theorem graph_set3 : graph natStr set3 = Wan.graph [.register 1, .register 2, .register 3, .connect 2 [1, 3]] := by
  unfold graph; rw [calls_set3]; rfl

theorem set3_ok : (graph exC.name set3).ok := by
  show (graph natStr set3).ok
  rw [graph_set3]
  simp [Wan.graph, Wan.Graph.after, Wan.Graph.step, Wan.Graph.empty, Wan.Graph.replace]

theorem set3_nodes : (graph exC.name set3).nodes = [1, 2, 3] := by
  show (graph natStr set3).nodes = _
  rw [graph_set3]
  simp [Wan.graph, Wan.Graph.after, Wan.Graph.step, Wan.Graph.empty, Wan.Graph.replace]

/-- Hypotheses of the theorems at a concrete WAN. -/
example : ∃ l : List Int, call exC (exec exC .init set3) "get-route".toList ["1".toList, "3".toList] = (exec exC .init set3, some (.value (listText (l.map intStr)))) ∧
    (l = [] ↔ ¬ ∃ w, Wan.Walk (graph exC.name set3).edge 1 w 3) ∧ ∀ w, Wan.Walk (graph exC.name set3).edge 1 w 3 → l.length ≤ w.length :=
  C74_shortest_partial exC set3 set3_ok _ _ 1 3 (by decide +kernel) (by decide +kernel) (by decide)

example : (call exC (exec exC .init set3) "get-route".toList ["1".toList, "3".toList]).2 = some (.value "[2, 3]".toList) := by decide +kernel
example : (call exC (exec exC .init set3) "get-route".toList [" 1".toList, "4".toList]).2 = some (.value "[]".toList) := by decide +kernel
example : (call exC (exec exC .init set3) "get-routes".toList []).2 =
    some (.value "WAN Routes\n\t1->2: [2]\n\t1->3: [2, 3]\n\t2->1: [1]\n\t2->3: [3]\n\t3->2: [2]\n\t3->1: [2, 1]\n".toList) := by decide +kernel
example : (call exC (exec exC .init set3) "list-connections".toList []).2 = some (.value "WAN connections\n\t0: 1\n".toList) := by decide +kernel
example : (call exC (exec exC .init set3) "get-loss-rate".toList []).2 = some (.value "Routing loss odds 0".toList) := by decide +kernel
example : (call exC (exec exC .init set3) "verbs".toList ["a".toList]).2 = some (.raised "error".toList) := by decide +kernel

example : (newSwitches (graph exC.name set3).nodes ["7".toList, "8".toList]).length = 2 := by rw [set3_nodes]; decide +kernel
example : (newSwitches (graph exC.name set3).nodes ["7".toList, "1".toList]).length = 1 := by rw [set3_nodes]; decide +kernel
example : numbers ["1".toList, "7".toList] = some [1, 7] ∧ numbers ["1".toList, "x".toList] = none := by decide +kernel

example : ((view (calls exC.name set3)).seat 0).up = true ∧ ∀ j, ((view (calls exC.name set3)).seat j).up = true → exC.name j = exC.name 0 → j = 0 := by
  refine ⟨by rw [show exC.name = natStr from rfl, calls_set3]; decide +kernel, fun j _ h => natStr_inj h⟩

example : (1 : Nat) ∈ [1] ∧ "remove-switches".toList ∉ ["add-switches".toList, "set-direct-connections".toList, "set-location".toList, "set-loss-rate".toList, "set-log-level".toList] := by
  decide +kernel

/-! ## Through the protocol -/

def wCfg (peer : Option Str) : Spmp.Cfg St := ⟨Spmp.fEnv, 2, 1, ['d'], fun v => (api exC).get v, fun _ => Spmp.localAccess peer⟩

def k1 : Spmp.Query := ⟨7, "add-switches".toList, ["1".toList, "2".toList]⟩
def k2 : Spmp.Query := ⟨8, "set-direct-connections".toList, ["1".toList, "2".toList, "3".toList]⟩
def k3 : Spmp.Query := ⟨9, "get-route".toList, ["1".toList, "2".toList]⟩

theorem kFits (q : Spmp.Query) (hq : q ∈ [k1, k2, k3]) : Spmp.Fits q.packet := by
  simp only [List.mem_cons, List.not_mem_nil, or_false] at hq
  rcases hq with rfl | rfl | rfl
  · exact Spmp.fits_query _ (by decide) (by unfold Spmp.OkStr; decide +kernel) (by decide) (by unfold Spmp.OkStr; decide +kernel)
  · exact Spmp.fits_query _ (by decide) (by unfold Spmp.OkStr; decide +kernel) (by decide) (by unfold Spmp.OkStr; decide +kernel)
  · exact Spmp.fits_query _ (by decide) (by unfold Spmp.OkStr; decide +kernel) (by decide) (by unfold Spmp.OkStr; decide +kernel)

theorem outcome_value {sc : Spmp.Cfg St} {w : St} {cmd : Str} {args : List Str} {f} (hf : sc.api cmd = some f) {s : Str} (hs : (f args w).2 = .value s) :
    Spmp.Outcome sc w cmd args (f args w).1 [.call cmd args] s none := .value f _ s hf (Prod.ext rfl hs)

theorem outcome_failed {sc : Spmp.Cfg St} {w : St} {cmd : Str} {args : List Str} {f} (hf : sc.api cmd = some f) {s : Str} (hs : (f args w).2 = .raised s) (hne : s ≠ []) :
    Spmp.Outcome sc w cmd args (f args w).1 [.call cmd args] [] (some s) := .failed f _ s hf (Prod.ext rfl hs) hne

theorem kServed : ∃ w acts, Spmp.Served (wCfg (some "127.0.0.1".toList)) .init [k1, k2, k3] w acts
    [("[None, None]".toList, none), ([], some "No destination switch located at prefix 3".toList), ("[2]".toList, none)] := by
  have f1 := Spmp.fPlain (Spmp.fits_response k1 (kFits k1 (by simp)) (result := "[None, None]".toList) (error := none) (by unfold Spmp.OkStr; decide +kernel) (by simp))
  have f2 := Spmp.fPlain (Spmp.fits_response k2 (kFits k2 (by simp)) (result := []) (error := some "No destination switch located at prefix 3".toList)
    (by unfold Spmp.OkStr; decide +kernel) (by unfold Spmp.OkStr; decide +kernel))
  have f3 := Spmp.fPlain (Spmp.fits_response k3 (kFits k3 (by simp)) (result := "[2]".toList) (error := none) (by unfold Spmp.OkStr; decide +kernel) (by simp))
  obtain ⟨b1, h1⟩ := f1.1.2
  obtain ⟨b2, h2⟩ := f2.1.2
  obtain ⟨b3, h3⟩ := f3.1.2
  exact ⟨_, _, .cons (outcome_value (f := add exC) rfl (by decide +kernel)) h1
    (.cons (outcome_failed (f := connect exC "set-direct-connections".toList) rfl (by decide +kernel) (by decide +kernel)) h2
      (.cons (outcome_value (f := route exC "get-route".toList) rfl (by decide +kernel)) h3 (.nil _)))⟩

/-- The management of the WAN for a peer on the local machine. -/
def wl : Spmp.Cfg St := wCfg (some "127.0.0.1".toList)

theorem kLen : ∀ b ∈ [k1, k2, k3].map fun q => ser wl.env (q.packet.val wl.cls), b.length < 1000 := by
  intro b hb
  simp only [List.map_cons, List.map_nil, List.mem_cons, List.not_mem_nil, or_false] at hb
  rcases hb with rfl | rfl | rfl <;> decide +kernel

/-- Three requests, in one wrapper each, cut anywhere. -/
example (bs : List Bytes) (hb : bs.flatten = (([k1, k2, k3].map fun q => ser wl.env (q.packet.val wl.cls)).map (Spmp.wrap 2)).flatMap (fser wl.env)) :
    (Spmp.Adapter.recv wl.env 4 2 (Spmp.deviceHandlers wl 2 fun (u : Unit) _ => u) (.init (.init wl .init ())) bs).st.server.w =
      exec exC .init ([k1, k2, k3].map fun q => .request q.cmd q.args) := by
  obtain ⟨w, acts, hs⟩ := kServed
  refine (C74_managed_partial exC wl rfl rfl Spmp.fRegistered (d := 1) rfl (base := 4) (wcls := 2) rfl rfl [k1, k2, k3]
    (fun q hq => Spmp.fPlain (kFits q hq)) ([k1, k2, k3].map fun q => ser wl.env (q.packet.val wl.cls)) (fun b hb => by have := kLen b hb; omega)
    (by rw [List.flatMap_def]) hs bs ?_).1
  rw [hb]

example : (some "10.0.0.7".toList : Option Str) ≠ some "127.0.0.1".toList := by decide

/-! ## What is false -/

/-- A request that is answered with an error may have done a part of its work: the prefix 1 stays registered. -/
theorem C74_false_atomic : (call exC .init "add-switches".toList ["1".toList, "x".toList]).2 = some (.raised "error".toList) ∧
    (graph exC.name [req "add-switches" ["1", "x"]]).nodes = [1] :=
  ⟨by decide +kernel, by decide +kernel⟩

/-- `remove-switches` answers as if it had done its work, and nothing has changed. -/
theorem C74_false_remove : (call exC (exec exC .init set3) "remove-switches".toList ["2".toList]).2 = some (.value "[None]".toList) ∧
    (call exC (exec exC .init set3) "remove-switches".toList ["2".toList]).1 = exec exC .init set3 ∧
    (call exC (exec exC .init (set3 ++ [req "remove-switches" ["2"]])) "get-route".toList ["1".toList, "3".toList]).2 = some (.value "[2, 3]".toList) :=
  ⟨by decide +kernel, rfl, by decide +kernel⟩

/-- `set-location` with a prefix that is not registered answers `Changed`, and the device is nowhere. -/
theorem C74_false_location : (call exC (exec exC .init set3) "set-location".toList ["0".toList, "9".toList]).2 = some (.value "Changed".toList) ∧
    ((view (calls exC.name set3)).seat 0).place = some 1 ∧ ((view (calls exC.name (set3 ++ [req "set-location" ["0", "9"]]))).seat 0).place = none :=
  ⟨by decide +kernel, by decide +kernel, by decide +kernel⟩

/-- After a `set-direct-connections` that failed, `get-route` may not find a way that is there: 1 and 3 are connected through 2. -/
def half : List Ev := [req "add-switches" ["1", "2", "3"], req "set-direct-connections" ["1", "2"], req "set-direct-connections" ["2", "1", "3", "9"]]

theorem C74_false_shortest : Wan.Walk (graph exC.name half).edge 1 [2, 3] 3 ∧
    (call exC (exec exC .init half) "get-route".toList ["1".toList, "3".toList]).2 = some (.value "[]".toList) := by
  refine ⟨?_, by decide +kernel⟩
  have : calls exC.name half = [.register 1, .register 2, .register 3, .connect 1 [2], .connect 2 [1, 3, 9]] := by decide +kernel
  unfold graph
  rw [this]
  simp [WanNet.routeEvs, Wan.graph, Wan.Graph.after, Wan.Graph.step, Wan.Graph.empty, Wan.Graph.replace, Wan.Walk]

end Verif.WanApi
