import Verif.Props.WanApi
import Verif.Props.SpmpFramed
/-! # C74: the answers to management requests, and what is wrong -/
namespace Verif.WanApi
open Verif.WanNet (view routeEvs)
open Verif.Spmp (Res)

/-- The prefixes registered so far. -/
theorem lans_nodes (c : Cfg) (h : List Ev) : (view (calls c.name h)).lans = (graph c.name h).nodes := ((WanNet.run c.net _).nodes).symm

/-- C74. `add-switches` answers without an error exactly if all the prefixes it names are new and different. -/
theorem C74_add (c : Cfg) (h : List Ev) (args : List Str) :
    ((newSwitches (graph c.name h).nodes args).length = args.length →
      (call c (exec c .init h) "add-switches".toList args).2 = some (.value (listText (args.map fun _ => noneText)))) ∧
    (∀ a, args[(newSwitches (graph c.name h).nodes args).length]? = some a →
      (call c (exec c .init h) "add-switches".toList args).2 =
        some (.raised (match pyInt a with | none => c.text (.int a) | some p => duplicateText p))) := by
  obtain ⟨_, h2, h3⟩ := addSwitches_spec c args (calls c.name h) []
  rw [lans_nodes] at h2 h3
  rw [call_some (get_add c)]
  unfold add
  rw [C74_calls]
  cases hx : addSwitches c (WanNet.exec c.net .new (calls c.name h)) [] args with
  | mk n r =>
    rw [hx] at h2 h3
    exact ⟨fun hl => congrArg some (h2 hl), fun a ha => congrArg some ((h3 a ha).trans (by cases pyInt a <;> rfl))⟩

/-- C74. `set-direct-connections` with integers: an error exactly if the prefix, or one it shall be connected to, is not registered; the error names
the first such prefix. -/
theorem C74_direct (c : Cfg) (h : List Ev) (a : Str) (as : List Str) (r : Int) (ds : List Int) (hn : numbers (a :: as) = some (r :: ds)) :
    (call c (exec c .init h) "set-direct-connections".toList (a :: as)).2 = some (
      if r ∈ (graph c.name h).nodes then (match ds.find? (fun d => decide (d ∉ (graph c.name h).nodes)) with
        | some d => .raised (noDestText d)
        | none => .value noneText) else .raised (noSwitchText r)) := by
  have := ((setDirect_spec c (calls c.name h) a as).1 r ds hn).2
  rw [lans_nodes] at this
  rw [call_some (get_connect c)]
  unfold connect
  dsimp only
  rw [C74_calls]
  refine congrArg some (this.trans ?_)
  split
  · cases ds.find? _ <;> rfl
  · rfl

/-- C74. Arguments that are no integers are refused by an error, and nothing changes. -/
theorem C74_direct_refused (c : Cfg) (h : List Ev) (a : Str) (as : List Str) (hn : numbers (a :: as) = none) :
    (call c (exec c .init h) "set-direct-connections".toList (a :: as)).1.net = (exec c .init h).net ∧
    ∃ b ∈ a :: as, pyInt b = none ∧ (call c (exec c .init h) "set-direct-connections".toList (a :: as)).2 = some (.raised (c.text (.int b))) := by
  obtain ⟨h1, b, h2, h3, h4⟩ := (setDirect_spec c (calls c.name h) a as).2 hn
  rw [← C74_calls] at h1 h4
  rw [call_some (get_connect c)]
  unfold connect
  exact ⟨h1, b, h2, h3, by rw [← h4]⟩

/-- C74. `set-location` for the name of a connected device (no other connected device has that name): the answer is `Changed`, and the device is at
that prefix, if a switch is registered there, and otherwise nowhere. -/
theorem C74_location (c : Cfg) (h : List Ev) (p : Str) (q : Int) (i : Nat) (hp : pyInt p = some q) (hi : ((view (calls c.name h)).seat i).up = true)
    (hu : ∀ j, ((view (calls c.name h)).seat j).up = true → c.name j = c.name i → j = i) :
    (call c (exec c .init h) "set-location".toList [c.name i, p]).2 = some (.value "Changed".toList) ∧
    calls c.name (h ++ [.request "set-location".toList [c.name i, p]]) = calls c.name h ++ [.locate i q] ∧
    ((view (calls c.name (h ++ [.request "set-location".toList [c.name i, p]]))).seat i).place = if q ∈ (graph c.name h).nodes then some q else none := by
  have hmem : ∀ j, j ∈ connected (calls c.name h) ↔ ((view (calls c.name h)).seat j).up = true := by
    intro j; rw [← conns_eq c.net]; exact (WanNet.run c.net _).inv.d.conns j
  have hf : (connected (calls c.name h)).find? (fun j => decide (c.name j = c.name i)) = some i := by
    cases hh : (connected (calls c.name h)).find? (fun j => decide (c.name j = c.name i)) with
    | none => exact absurd (by simp) (List.find?_eq_none.mp hh i ((hmem i).mpr hi))
    | some j =>
      have h1 := List.find?_some hh
      have h2 := List.mem_of_find?_eq_some hh
      rw [hu j ((hmem j).mp h2) (of_decide_eq_true h1)]
  have happ : ∀ (l : List Ev) (es : List WanNet.Ev) (e : Ev), callsFrom c.name es (l ++ [e]) = callsFrom c.name es l ++ effect c.name (callsFrom c.name es l) e := by
    intro l
    induction l with
    | nil => intro es e; rfl
    | cons x l ih => intro es e; exact ih _ e
  have hcalls : calls c.name (h ++ [.request "set-location".toList [c.name i, p]]) = calls c.name h ++ [.locate i q] := by
    unfold calls
    rw [happ]
    unfold effect
    dsimp only
    rw [meaning_locate]
    dsimp only
    rw [hp]
    unfold calls at hf
    rw [hf]
  refine ⟨?_, hcalls, ?_⟩
  · rw [call_some (get_locate c)]
    unfold locate
    dsimp only
    rw [hp, C74_calls]
    dsimp only
    rw [setLocation_spec, hf]
  · rw [hcalls, show view (calls c.name h ++ [.locate i q]) = (view (calls c.name h)).step (.locate i q) from WanNet.after_append ..]
    unfold WanNet.View.step WanNet.View.upd
    dsimp only
    rw [if_pos hi, lans_nodes]
    simp

/-- C74. A name that no connected device has. -/
theorem C74_no_connection (c : Cfg) (h : List Ev) (conn p : Str) (q : Int) (hp : pyInt p = some q)
    (hn : ∀ i, ((view (calls c.name h)).seat i).up = true → c.name i ≠ conn) :
    call c (exec c .init h) "set-location".toList [conn, p] = (exec c .init h, some (.value ("No such connection ".toList ++ conn))) := by
  have hf : (connected (calls c.name h)).find? (fun j => decide (c.name j = conn)) = none := by
    refine List.find?_eq_none.mpr fun j hj => ?_
    rw [← conns_eq c.net] at hj
    simp [hn j (((WanNet.run c.net _).inv.d.conns j).mp hj)]
  rw [call_some (get_locate c)]
  unfold locate
  dsimp only
  rw [hp]
  dsimp only
  rw [C74_calls, setLocation_spec, hf]
  dsimp only
  rw [← C74_calls]

/-- One line of the answer to `get-routes`. -/
def routeLine (e : Int × Int × List Int) : Str :=
  '\t' :: intStr e.1 ++ '-' :: '>' :: intStr e.2.1 ++ ':' :: ' ' :: listText (e.2.2.map intStr) ++ ['\n']

/-- C74. The answer to `get-routes` has one line for each pair of prefixes between which `get-route` finds a way, with that way, and no others. -/
theorem C74_routes (c : Cfg) (h : List Ev) : ∃ ls : List (Int × Int × List Int),
    call c (exec c .init h) "get-routes".toList [] = (exec c .init h, some (.value ("WAN Routes\n".toList ++ ls.flatMap routeLine))) ∧
    (ls.map fun e => (e.1, e.2.1)).Nodup ∧
    ∀ s d l, (s, d, l) ∈ ls ↔ l ≠ [] ∧ Wan.getRoute (Wan.exec [] (routeEvs (calls c.name h))) s d = l := by
  have hi := Wan.inv (routeEvs (calls c.name h))
  generalize ht : Wan.exec [] (routeEvs (calls c.name h)) = t at hi ⊢
  refine ⟨t.keys.flatMap fun p => (Wan.row t p).map fun e => (p, e.1, e.2), ?_, ?_, ?_⟩
  · rw [call_some (f := ask c "get-routes".toList fun s => printRoutes s.net) rfl]
    unfold ask printRoutes Wan.getPrefixes
    dsimp only
    rw [C74_calls, (WanNet.run c.net _).routes, ht, List.flatMap_assoc]
    congr 5
    funext p
    unfold routeLines routeLine
    rw [List.flatMap_map]
  · have : ∀ ks : List Int, ks.Nodup → ((ks.flatMap fun p => (Wan.row t p).map fun e => (p, e.1, e.2)).map fun e => (e.1, e.2.1)).Nodup := by
      intro ks
      induction ks with
      | nil => intro _; exact List.nodup_nil
      | cons k ks ih =>
        intro hn
        have hn := List.nodup_cons.mp hn
        rw [List.flatMap_cons, List.map_append, List.nodup_append]
        refine ⟨?_, ih hn.2, ?_⟩
        · have h1 : ((Wan.row t k).map fun e => (k, e.1, e.2)).map (fun e => (e.1, e.2.1)) = (Dict.keys (Wan.row t k)).map fun d => (k, d) := by
            unfold Dict.keys; rw [List.map_map, List.map_map]; rfl
          rw [h1]
          refine List.Pairwise.map _ ?_ (hi.rwf k)
          intro a b hab he
          exact hab (Prod.mk.inj he).2
        · intro a ha b hb hab
          simp only [List.mem_map, List.mem_flatMap] at ha hb
          obtain ⟨_, ⟨e1, _, rfl⟩, rfl⟩ := ha
          obtain ⟨_, ⟨k', hk', e2, _, rfl⟩, rfl⟩ := hb
          have := (Prod.mk.inj hab).1
          dsimp only at this
          subst this
          exact hn.1 hk'
    exact this _ hi.wf
  · intro s d l
    simp only [List.mem_flatMap, List.mem_map]
    constructor
    · rintro ⟨p, hp, e, he, heq⟩
      obtain ⟨rfl, h2⟩ := Prod.mk.inj heq
      obtain ⟨rfl, rfl⟩ := Prod.mk.inj h2
      have hg : Wan.ent t p e.1 = some e.2 := Dict.get_of_mem (hi.rwf p) he
      refine ⟨(hi.sound.walk _ _ _ hg).1, ?_⟩
      rw [Wan.getRoute_ent, hg]; rfl
    · rintro ⟨hne, hr⟩
      rw [Wan.getRoute_ent] at hr
      cases hg : Wan.ent t s d with
      | none => rw [hg] at hr; exact absurd hr.symm hne
      | some l' =>
        rw [hg] at hr
        have hr : l' = l := hr
        subst hr
        refine ⟨s, ?_, (d, l'), Dict.mem_of_get hg, rfl⟩
        refine Decidable.byContradiction fun hs => ?_
        unfold Wan.ent Wan.row at hg
        rw [Dict.get_eq_none_iff.mpr hs] at hg
        cases hg

/-- What `list-connections` prints for a device. -/
def deviceLine (c : Cfg) (e : Nat × Str) : Str := '\t' :: c.name e.1 ++ ':' :: ' ' :: e.2 ++ ['\n']

/-- C74. The answer to `list-connections` has one line for each connected device, in the order in which they connected, and no others; a device that
is at a prefix is listed with that prefix. -/
theorem C74_connections (c : Cfg) (h : List Ev) : ∃ ls : List (Nat × Str),
    call c (exec c .init h) "list-connections".toList [] = (exec c .init h, some (.value ("WAN connections\n".toList ++ ls.flatMap (deviceLine c)))) ∧
    ls.map (·.1) = connected (calls c.name h) ∧ (ls.map (·.1)).Nodup ∧ (∀ i, i ∈ ls.map (·.1) ↔ ((view (calls c.name h)).seat i).up = true) ∧
    ∀ i t, (i, t) ∈ ls → ∀ p, ((view (calls c.name h)).seat i).place = some p → t = intStr p := by
  have r := WanNet.run c.net (calls c.name h)
  have hmap : ((WanNet.exec c.net .new (calls c.name h)).conns.map fun i => (i, prefixText (WanNet.exec c.net .new (calls c.name h)) i)).map (·.1) =
      (WanNet.exec c.net .new (calls c.name h)).conns := by rw [List.map_map]; exact List.map_id _
  refine ⟨(WanNet.exec c.net .new (calls c.name h)).conns.map fun i => (i, prefixText (WanNet.exec c.net .new (calls c.name h)) i), ?_, ?_, ?_, ?_, ?_⟩
  · rw [call_some (f := ask c "list-connections".toList fun s => printConnections c s.net) rfl]
    unfold ask printConnections
    dsimp only
    rw [C74_calls, List.flatMap_map]
    rfl
  · rw [hmap]; exact conns_eq ..
  · rw [hmap]; exact r.inv.d.nodupC
  · intro i; rw [hmap]; exact r.inv.d.conns i
  · intro i t hm p hp
    obtain ⟨j, _, he⟩ := List.mem_map.mp hm
    obtain ⟨rfl, rfl⟩ := Prod.mk.inj he
    have hro := r.inv.d.router j
    unfold WanNet.RouterOK at hro
    unfold prefixText
    cases hg : (WanNet.exec c.net .new (calls c.name h)).routers.get j with
    | none => rw [hg] at hro; rw [hro] at hp; cases hp
    | some ro =>
      rw [hg] at hro
      have hl := hro.loc p hp
      obtain ⟨loc, lan, own⟩ := ro
      dsimp only at hl
      subst hl
      rfl

/-! ## The rest of the state -/

/-- C74. All requests but five leave the WAN as it is, whatever their arguments; a verb that does not exist among them. -/
theorem C74_reads (c : Cfg) (s : St) (verb : Str) (args : List Str)
    (hv : verb ∉ ["add-switches".toList, "set-direct-connections".toList, "set-location".toList, "set-loss-rate".toList, "set-log-level".toList]) :
    (call c s verb args).1 = s := by
  simp only [List.mem_cons, List.not_mem_nil, or_false, not_or] at hv
  obtain ⟨h1, h2, h3, h4, h5⟩ := hv
  unfold call
  cases hg : (api c).get verb with
  | none => rfl
  | some f =>
    have hm := Dict.mem_of_get hg
    unfold api at hm
    simp only [List.mem_cons, Prod.mk.injEq, List.not_mem_nil, or_false] at hm
    dsimp only
    rcases hm with ⟨_, rfl⟩ | ⟨_, rfl⟩ | ⟨_, rfl⟩ | ⟨h, rfl⟩ | ⟨_, rfl⟩ | ⟨h, rfl⟩ | ⟨_, rfl⟩ | ⟨h, rfl⟩ | ⟨h, rfl⟩ | ⟨_, rfl⟩ | ⟨h, rfl⟩ | ⟨_, rfl⟩ | ⟨_, rfl⟩
    · rw [ask_fst]
    · rw [ask_fst]
    · rw [ask_fst]
    · exact absurd h h5
    · rw [ask_fst]
    · exact absurd h h3
    · rw [ask_fst]
    · exact absurd h h4
    · exact absurd h h1
    · rfl
    · exact absurd h h2
    · unfold route; split <;> rfl
    · rw [ask_fst]

/-- The rates that were set: the arguments of `set-loss-rate` that are numbers. -/
def rates (c : Cfg) : List Ev → List Str
  | [] => []
  | .request v [r] :: h => if v = "set-loss-rate".toList then (c.float r).toList ++ rates c h else rates c h
  | _ :: h => rates c h

/-- The log levels that were set: the arguments of `set-log-level` that the logging functions accept. -/
def logLevels (c : Cfg) : List Ev → List Str
  | [] => []
  | .request v [l] :: h => if v = "set-log-level".toList ∧ c.levelOk l = true then l :: logLevels c h else logLevels c h
  | _ :: h => logLevels c h

theorem get_rate (c : Cfg) : (api c).get "set-loss-rate".toList = some (setRate c "set-loss-rate".toList) := rfl
theorem get_level (c : Cfg) : (api c).get "set-log-level".toList = some (setLogLevel c "set-log-level".toList) := rfl

theorem call_rate (c : Cfg) (s : St) (v : Str) (args : List Str) :
    (call c s v args).1.rate = (rates c [.request v args]).getLastD s.rate ∧ (call c s v args).1.level = (logLevels c [.request v args]).getLastD s.level := by
  by_cases h1 : v = "set-loss-rate".toList
  · subst h1
    rw [call_some (get_rate c)]
    unfold setRate
    match args with
    | [] => exact ⟨rfl, rfl⟩
    | [r] =>
      dsimp only [rates, logLevels]
      rw [if_pos rfl, if_neg (fun hh => absurd hh.1 (by decide))]
      cases c.float r <;> exact ⟨rfl, rfl⟩
    | _ :: _ :: _ => exact ⟨rfl, rfl⟩
  by_cases h2 : v = "set-log-level".toList
  · subst h2
    rw [call_some (get_level c)]
    unfold setLogLevel
    match args with
    | [] => exact ⟨rfl, rfl⟩
    | [r] =>
      dsimp only [rates, logLevels]
      rw [if_neg (show "set-log-level".toList ≠ "set-loss-rate".toList by decide)]
      by_cases hl : c.levelOk r = true
      · rw [if_pos hl, if_pos ⟨rfl, hl⟩]; exact ⟨rfl, rfl⟩
      · rw [if_neg hl, if_neg (fun hh => hl hh.2)]; exact ⟨rfl, rfl⟩
    | _ :: _ :: _ => exact ⟨rfl, rfl⟩
  have hr : rates c [.request v args] = [] := by
    match args with
    | [] => rfl
    | [r] => dsimp only [rates]; rw [if_neg h1]
    | _ :: _ :: _ => rfl
  have hl : logLevels c [.request v args] = [] := by
    match args with
    | [] => rfl
    | [r] => dsimp only [logLevels]; rw [if_neg (fun hh => h2 hh.1)]
    | _ :: _ :: _ => rfl
  rw [hr, hl]
  unfold call
  cases hg : (api c).get v with
  | none => exact ⟨rfl, rfl⟩
  | some f =>
    have hm := Dict.mem_of_get hg
    unfold api at hm
    simp only [List.mem_cons, Prod.mk.injEq, List.not_mem_nil, or_false] at hm
    dsimp only
    rcases hm with ⟨_, rfl⟩ | ⟨_, rfl⟩ | ⟨_, rfl⟩ | ⟨h, rfl⟩ | ⟨_, rfl⟩ | ⟨h, rfl⟩ | ⟨_, rfl⟩ | ⟨h, rfl⟩ | ⟨h, rfl⟩ | ⟨_, rfl⟩ | ⟨h, rfl⟩ | ⟨_, rfl⟩ | ⟨_, rfl⟩
    · rw [ask_fst]; exact ⟨rfl, rfl⟩
    · rw [ask_fst]; exact ⟨rfl, rfl⟩
    · rw [ask_fst]; exact ⟨rfl, rfl⟩
    · exact absurd h h2
    · rw [ask_fst]; exact ⟨rfl, rfl⟩
    · unfold locate; split
      · split <;> exact ⟨rfl, rfl⟩
      · exact ⟨rfl, rfl⟩
    · rw [ask_fst]; exact ⟨rfl, rfl⟩
    · exact absurd h h1
    · exact ⟨rfl, rfl⟩
    · exact ⟨rfl, rfl⟩
    · unfold connect; split <;> exact ⟨rfl, rfl⟩
    · unfold route; split <;> exact ⟨rfl, rfl⟩
    · rw [ask_fst]; exact ⟨rfl, rfl⟩

theorem getLastD_append {α : Type} : ∀ (l l' : List α) (d : α), (l ++ l').getLastD d = l'.getLastD (l.getLastD d)
  | [], _, _ => rfl
  | a :: l, l', d => by
    cases l' with
    | nil => simp
    | cons b l' => rw [List.getLastD_eq_getLast?, List.getLastD_eq_getLast?, List.getLast?_append]; simp

theorem rates_cons (c : Cfg) (e : Ev) (h : List Ev) : rates c (e :: h) = rates c [e] ++ rates c h ∧ logLevels c (e :: h) = logLevels c [e] ++ logLevels c h := by
  cases e with
  | request v args =>
    match args with
    | [] => exact ⟨rfl, rfl⟩
    | [r] => constructor
             · dsimp only [rates]; split <;> simp
             · dsimp only [logLevels]; split <;> simp
    | _ :: _ :: _ => exact ⟨rfl, rfl⟩
  | _ => exact ⟨rfl, rfl⟩

theorem exec_rate (c : Cfg) : ∀ (h : List Ev) (s : St), (exec c s h).rate = (rates c h).getLastD s.rate ∧ (exec c s h).level = (logLevels c h).getLastD s.level
  | [], _ => ⟨rfl, rfl⟩
  | e :: h, s => by
    obtain ⟨i1, i2⟩ := exec_rate c h (step c s e)
    rw [exec, i1, i2, (rates_cons c e h).1, (rates_cons c e h).2, getLastD_append, getLastD_append]
    cases e with
    | request v args => rw [← (call_rate c s v args).1, ← (call_rate c s v args).2]; exact ⟨rfl, rfl⟩
    | _ => exact ⟨rfl, rfl⟩

/-- C74. `get-loss-rate` and `get-log-level` answer with what was set last, and at the beginning with 0.0001 and `NONE`. -/
theorem C74_settings (c : Cfg) (h : List Ev) :
    call c (exec c .init h) "get-loss-rate".toList [] = (exec c .init h, some (.value ("Routing loss odds ".toList ++ (rates c h).getLastD "0.0001".toList))) ∧
    call c (exec c .init h) "get-log-level".toList [] = (exec c .init h, some (.value ((logLevels c h).getLastD "NONE".toList))) := by
  constructor
  · rw [call_some (f := ask c "get-loss-rate".toList fun s => "Routing loss odds ".toList ++ s.rate) rfl]
    unfold ask
    dsimp only
    rw [(exec_rate c h .init).1]; rfl
  · rw [call_some (f := ask c "get-log-level".toList (·.level)) rfl]
    unfold ask
    dsimp only
    rw [(exec_rate c h .init).2]; rfl

/-! ## Through the protocol -/

theorem exec_append (c : Cfg) (h1 h2 : List Ev) (s : St) : exec c s (h1 ++ h2) = exec c (exec c s h1) h2 := by
  induction h1 generalizing s with
  | nil => rfl
  | cons e h1 ih => exact ih _

theorem served_exec (c : Cfg) (sc : Spmp.Cfg St) (hapi : sc.api = fun v => (api c).get v) {w w' : St} {qs : List Spmp.Query} {acts rs}
    (hs : Spmp.Served sc w qs w' acts rs) : w' = exec c w (qs.map fun q => .request q.cmd q.args) ∧
      ∀ (k : Nat) (q : Spmp.Query), qs[k]? = some q → ∃ result error, rs[k]? = some (result, error) ∧
        Spmp.Outcome sc (exec c w ((qs.take k).map fun q => .request q.cmd q.args)) q.cmd q.args
          (exec c w ((qs.take (k + 1)).map fun q => .request q.cmd q.args)) (if ((api c).get q.cmd).isSome then [.call q.cmd q.args] else []) result error := by
  induction hs with
  | nil w => exact ⟨rfl, fun k q h => by simp at h⟩
  | @cons w w1 w2 q qs acts b acts' result error rs ho _ _ ih =>
    have h1 : w1 = step c w (.request q.cmd q.args) ∧ acts = if ((api c).get q.cmd).isSome then [.call q.cmd q.args] else [] := by
      unfold step call
      cases ho with
      | unknown hn => rw [hapi] at hn; dsimp only at hn ⊢; rw [hn]; exact ⟨rfl, rfl⟩
      | value f _ s hf hr => rw [hapi] at hf; dsimp only at hf ⊢; rw [hf]; dsimp only; rw [hr]; exact ⟨rfl, rfl⟩
      | failed f _ e hf hr _ => rw [hapi] at hf; dsimp only at hf ⊢; rw [hf]; dsimp only; rw [hr]; exact ⟨rfl, rfl⟩
      | failedSilently f _ hf hr => rw [hapi] at hf; dsimp only at hf ⊢; rw [hf]; dsimp only; rw [hr]; exact ⟨rfl, rfl⟩
    obtain ⟨rfl, hacts⟩ := h1
    refine ⟨ih.1, fun k q' hk => ?_⟩
    cases k with
    | zero =>
      cases hk
      exact ⟨result, error, rfl, by rw [← hacts]; exact ho⟩
    | succ k => exact ih.2 k q' hk

/-- C74. From end to end: management requests from the local machine, in wrappers on the framed connection, cut in any way. Each of them is carried
out once, in their order, on the WAN; each is answered with what the call in that state yields. -/
theorem C74_managed_partial (c : Cfg) (sc : Spmp.Cfg St) (hapi : sc.api = fun v => (api c).get v) (hauth : sc.authorized = fun _ => Spmp.localAccess (some "127.0.0.1".toList))
    (hr : sc.env.Registered) {d : Nat} (hd : sc.depth = d + 1) {base wcls : Cls} (hw : sc.env.classDef wcls = some Spmp.wrapDef) (hsub : sc.env.isSub wcls base = true)
    (qs : List Spmp.Query) (hq : ∀ q ∈ qs, Spmp.Plain sc.env sc.cls q.packet) (payload : List Bytes) (hlen : ∀ b ∈ payload, b.length < 2 ^ 31)
    (hp : payload.flatten = qs.flatMap fun q => ser sc.env (q.packet.val sc.cls))
    {w' : St} {acts : List Spmp.Act} {rs} (hs : Spmp.Served sc .init qs w' acts rs)
    (bs : List Bytes) (hb : bs.flatten = (payload.map (Spmp.wrap wcls)).flatMap (fser sc.env)) :
    (Spmp.Adapter.recv sc.env base wcls (Spmp.deviceHandlers sc wcls fun (u : Unit) _ => u) (.init (.init sc .init ())) bs).st.server.w =
      exec c .init (qs.map fun q => .request q.cmd q.args) ∧
    (Spmp.Adapter.recv sc.env base wcls (Spmp.deviceHandlers sc wcls fun (u : Unit) _ => u) (.init (.init sc .init ())) bs).st.acts =
      acts.map (Spmp.frameAct sc.env wcls) ∧
    ∀ (k : Nat) (q : Spmp.Query), qs[k]? = some q → ∃ result error, rs[k]? = some (result, error) ∧
      Spmp.Outcome sc (exec c .init ((qs.take k).map fun q => .request q.cmd q.args)) q.cmd q.args
        (exec c .init ((qs.take (k + 1)).map fun q => .request q.cmd q.args)) (if ((api c).get q.cmd).isSome then [.call q.cmd q.args] else []) result error := by
  have hpl : Spmp.payloads wcls (payload.map (Spmp.wrap wcls)) = payload := by
    unfold Spmp.payloads
    rw [List.filterMap_map]
    conv => rhs; rw [← List.filterMap_some (l := payload)]
    congr 1
    funext b
    show (Spmp.wrapped wcls (Spmp.wrap wcls b)).bind id = some b
    rw [Spmp.wrapped_wrap]; rfl
  obtain ⟨h1, h2, _⟩ := Spmp.C57_device_partial sc hr hd hw (fun (u : Unit) _ => u) .init () (payload.map (Spmp.wrap wcls)) (base := base) (by
      intro p hpm
      obtain ⟨b, hbm, rfl⟩ := List.mem_map.mp hpm
      exact Spmp.C57_wrap hw hsub b (hlen b hbm)) qs (by intro q _; rw [hauth]; rfl) hq (by rw [hpl]; exact hp) hs bs hb
  obtain ⟨e1, e2⟩ := served_exec c sc hapi hs
  exact ⟨by rw [h1, e1], h2, e2⟩

/-- C74. A peer that is not on the local machine cannot change anything, whatever bytes it sends. -/
theorem C74_remote (sc : Spmp.Cfg St) (peer : Option Str) (hp : peer ≠ some "127.0.0.1".toList) (hauth : sc.authorized = fun _ => Spmp.localAccess peer)
    (base wcls : Cls) (s : St) (bs : List Bytes) :
    (Spmp.Adapter.recv sc.env base wcls (Spmp.deviceHandlers sc wcls fun (u : Unit) _ => u) (.init (.init sc s ())) bs).st.server.w = s ∧
    ∀ a ∈ (Spmp.Adapter.recv sc.env base wcls (Spmp.deviceHandlers sc wcls fun (u : Unit) _ => u) (.init (.init sc s ())) bs).st.acts, a = .close :=
  Spmp.C57_unauthorized sc peer hp hauth base wcls _ s () bs

end Verif.WanApi
