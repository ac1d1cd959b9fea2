import Verif.Props.SwitchApi
/-! # C75: through the protocol, examples, and what is false -/
namespace Verif.SwitchApi
open Verif.Spmp (Res)

theorem served_exec (c : Cfg) (sc : Spmp.Cfg St) (hapi : sc.api = fun v => (api c).get v) {w w' : St} {qs : List Spmp.Query} {acts rs}
    (hs : Spmp.Served sc w qs w' acts rs) : w' = exec c w (qs.map fun q => .request q.cmd q.args) ∧
      ∀ (k : Nat) (q : Spmp.Query), qs[k]? = some q → ∃ result error, rs[k]? = some (result, error) ∧
        Spmp.Outcome sc (exec c w ((qs.take k).map fun q => .request q.cmd q.args)) q.cmd q.args
          (exec c w ((qs.take (k + 1)).map fun q => .request q.cmd q.args)) (if ((api c).get q.cmd).isSome then [.call q.cmd q.args] else []) result error := by
  induction hs with
  | nil w => exact ⟨rfl, fun k q h => by simp at h⟩
  | @cons w w1 w2 q qs acts b acts' result error rs ho _ _ ih =>
    have h1 : w1 = step c w (.request q.cmd q.args) ∧ acts = if ((api c).get q.cmd).isSome then [.call q.cmd q.args] else [] := by
      unfold step call
      cases ho with
      | unknown hn => rw [hapi] at hn; dsimp only at hn ⊢; rw [hn]; exact ⟨rfl, rfl⟩
      | value f _ s hf hr => rw [hapi] at hf; dsimp only at hf ⊢; rw [hf]; dsimp only; rw [hr]; exact ⟨rfl, rfl⟩
      | failed f _ e hf hr _ => rw [hapi] at hf; dsimp only at hf ⊢; rw [hf]; dsimp only; rw [hr]; exact ⟨rfl, rfl⟩
      | failedSilently f _ hf hr => rw [hapi] at hf; dsimp only at hf ⊢; rw [hf]; dsimp only; rw [hr]; exact ⟨rfl, rfl⟩
    obtain ⟨rfl, hacts⟩ := h1
    refine ⟨ih.1, fun k q' hk => ?_⟩
    cases k with
    | zero =>
      cases hk
      exact ⟨result, error, rfl, by rw [← hacts]; exact ho⟩
    | succ k => exact ih.2 k q' hk

/-- C75. From end to end, for every peer (there is no security policy, so the server takes all packets for authorized): management requests, in wrappers on the
framed connection, mixed with the other packets of the link, cut in any way. Each request is carried out once, in their order, and answered with
what the call in that state yields; the link's own protocol gets the other packets. -/
theorem C75_managed_partial {β : Type} (c : Cfg) (sc : Spmp.Cfg St) (hapi : sc.api = fun v => (api c).get v) (hauth : sc.authorized = fun _ => true)
    (hr : sc.env.Registered) {d : Nat} (hd : sc.depth = d + 1) {base wcls : Cls} (hw : sc.env.classDef wcls = some Spmp.wrapDef)
    (alt : β → Bytes → β) (o : β) (s : St) (qs : List Spmp.Query) (hq : ∀ q ∈ qs, Spmp.Plain sc.env sc.cls q.packet) (ps : List Val) (hps : ∀ p ∈ ps, FramedSendable sc.env base p)
    (hp : (Spmp.payloads wcls ps).flatten = qs.flatMap fun q => ser sc.env (q.packet.val sc.cls))
    {w' : St} {acts : List Spmp.Act} {rs} (hs : Spmp.Served sc s qs w' acts rs)
    (bs : List Bytes) (hb : bs.flatten = ps.flatMap (fser sc.env)) :
    (Spmp.Adapter.recv sc.env base wcls (Spmp.deviceHandlers sc wcls alt) (.init (.init sc s o)) bs).st.server.w =
      exec c s (qs.map fun q => .request q.cmd q.args) ∧
    (Spmp.Adapter.recv sc.env base wcls (Spmp.deviceHandlers sc wcls alt) (.init (.init sc s o)) bs).st.acts =
      acts.map (Spmp.frameAct sc.env wcls) ∧
    (Spmp.Adapter.recv sc.env base wcls (Spmp.deviceHandlers sc wcls alt) (.init (.init sc s o)) bs).st.other = ((Spmp.others wcls ps).map (fser sc.env)).foldl alt o ∧
    ∀ (k : Nat) (q : Spmp.Query), qs[k]? = some q → ∃ result error, rs[k]? = some (result, error) ∧
      Spmp.Outcome sc (exec c s ((qs.take k).map fun q => .request q.cmd q.args)) q.cmd q.args
        (exec c s ((qs.take (k + 1)).map fun q => .request q.cmd q.args)) (if ((api c).get q.cmd).isSome then [.call q.cmd q.args] else []) result error := by
  obtain ⟨h1, h2, h3⟩ := Spmp.C57_device_partial sc hr hd hw alt s o ps (base := base) hps qs (by intro q _; rw [hauth]) hq hp hs bs hb
  obtain ⟨e1, e2⟩ := served_exec c sc hapi hs
  exact ⟨by rw [h1, e1], h2, h3, e2⟩

theorem mem_takes {α : Type} {l p q : List α} (h : l = p ++ q) : p ∈ (List.range (l.length + 1)).map l.take := by
  refine List.mem_map.mpr ⟨p.length, List.mem_range.mpr ?_, ?_⟩
  · rw [h, List.length_append]; omega
  · rw [h, List.take_left]

/-! ## Examples -/

/-- An unreliable switch whose draws are all `r`, without accidental delays. -/
def exU (r : Nat → Nat) : Cfg := ⟨true, fun _ => "error".toList, fun s => if s = ['x'] then none else some s, fun l => WanApi.levels.contains l, fun _ k _ _ => r k, fun _ _ _ => false⟩

def req (v : String) (args : List String) : Ev := .request v.toList (args.map String.toList)

/-- Two links; the second announces itself. -/
def two : List Ev := [.connect 0, .connect 1, .announce 1 "1.1.1.1".toList]

/-- Settings are changed, then put to zero, then a packet is sent. -/
def calm2 : List Ev := [req "set-error-rate" ["5", "3"]] ++ two ++ [.send 0 "1.1.1.1".toList [7, 8], req "set-error-rate" ["0", "3"], req "set-delay-rate" ["0", "2"], req "set-delay-rate" ["a", "2"]]

example : errorRate (exU fun _ => 0) calm2 = (0, 3) ∧ delayRate (exU fun _ => 0) calm2 = (.int 0, "2".toList) ∧ errorRate (exU fun _ => 0) two = (1, 102400) := by decide +kernel
example : ops (exU fun _ => 0) calm2 = [.register "1.1.1.1".toList 1] ∧ receivers (ops (exU fun _ => 0) calm2) "1.1.1.1".toList = [1] ∧ phase calm2 0 = .up ∧ phase calm2 1 = .up ∧
    phase (calm2 ++ [.lost 1]) 1 = .gone ∧ ops (exU fun _ => 0) (calm2 ++ [.lost 1, .lost 1]) = [.register "1.1.1.1".toList 1, .unregister 1] := by decide +kernel
example : packets (exU fun _ => 0) 1 (calm2 ++ [.send 1 "1.1.1.1".toList [9]]) = [[7, 8], [9]] ∧ packets (exU fun _ => 0) 0 calm2 = [] := by decide +kernel
example : ((exec (exU fun _ => 0) .init (calm2 ++ [.send 1 "1.1.1.1".toList [9]])).link 1).out = [[248, 8], [9]] := by decide +kernel
example : (call (exU fun _ => 0) (exec (exU fun _ => 0) .init calm2) "get-error-rate".toList []).2 = some (.value "Errors per Bytes = (0, 3)".toList) := by decide +kernel
example : (call (exU fun _ => 0) .init "get-error-rate".toList []).2 = some (.value "Errors per Bytes = (1, 102400)".toList) := by decide +kernel
example : (call (exU fun _ => 0) .init "get-delay-rate".toList []).2 = some (.value "Every 0.01 packets, delay 1.0 second".toList) := by decide +kernel
example : (call (exU fun _ => 0) .init "verbs".toList []).2 =
    some (.value "verbs, all-log-levels, get-log-level, set-log-level, get-error-rate, set-error-rate, get-delay-rate, set-delay-rate".toList) := by decide +kernel
example : (call (exU fun _ => 0) .init "set-error-rate".toList ["1".toList]).2 = some (.raised "error".toList) := by decide +kernel

/-- The theorem on unchanged packets, at this switch. -/
example (i j : Nat) (d : Str) (data : Bytes) : ((exec (exU fun _ => 0) .init (calm2 ++ [.send i d data])).link j).out =
    ((exec (exU fun _ => 0) .init calm2).link j).out ++ forLink (exU fun _ => 0) calm2 j (.send i d data) :=
  C75_unchanged _ calm2 (by decide +kernel) 0 (by decide +kernel) (by decide) i d data j

/-- All packets are delayed, and come when their timers fire. -/
def slow : List Ev := [req "set-error-rate" ["0", "3"], req "set-delay-rate" ["1", "2"]] ++ two ++ [.send 0 "1.1.1.1".toList [7], .send 0 "1.1.1.1".toList [8], .timer 1 0 1]

theorem slow_rate : ∀ p ∈ (List.range (slow.length + 1)).map slow.take, phase p 1 = .up → (errorRate (exU fun _ => 0) p).1 ≤ 0 := by decide +kernel

example : (((exec (exU fun _ => 0) .init slow).link 1).out ++ waiting ((exec (exU fun _ => 0) .init slow).link 1)).Perm (packets (exU fun _ => 0) 1 slow) :=
  C75_exactly _ slow 1 (by decide +kernel) fun p q hpq hu => slow_rate p (mem_takes hpq) hu

example : ((exec (exU fun _ => 0) .init slow).link 1).out = [[8]] ∧ waiting ((exec (exU fun _ => 0) .init slow).link 1) = [[7]] ∧ packets (exU fun _ => 0) 1 slow = [[7], [8]] := by decide +kernel

/-- One error in ten bytes. -/
def err10 : List Ev := [req "set-error-rate" ["1", "10"], req "set-delay-rate" ["0", "2"], .connect 0, .connect 1]

def sends : List Ev := [.send 0 "1.1.1.1".toList [0, 0, 0]]

theorem err10_rate : ∀ p ∈ (List.range 3).map (Ev.announce 1 "1.1.1.1".toList :: sends).take, errorRate (exU fun _ => 1) (err10 ++ p) = (1, 10) ∧ (delayRate (exU fun _ => 1) (err10 ++ p)).1 = .int 0 := by
  decide +kernel

example : ((exec (exU fun _ => 1) .init (err10 ++ .announce 1 "1.1.1.1".toList :: sends)).link 1).out =
    Unrel.expected (fun _ _ => 1) ⟨1, 10⟩ 0 0 (packets (exU fun _ => 1) 1 (err10 ++ .announce 1 "1.1.1.1".toList :: sends)) :=
  C75_errors_partial (exU fun _ => 1) rfl 1 err10 sends "1.1.1.1".toList (by decide +kernel) (by intro a; simp [err10, req]) (by intro a; simp [sends]) ⟨1, 10⟩
    fun p q hpq => by
      have := err10_rate p (mem_takes hpq)
      exact ⟨this.1, 0, this.2, by decide⟩

example : ((exec (exU fun _ => 1) .init (err10 ++ .announce 1 "1.1.1.1".toList :: sends)).link 1).out = [[0, 255, 0]] := by decide +kernel

example : ("get-log-level".toList ∉ ["set-log-level".toList, "set-error-rate".toList, "set-delay-rate".toList]) ∧ "get-delay-rate".toList ∈ moreVerbs := by decide +kernel

/-! ## What is false -/

/-- A device that announces itself twice (a VNIC that changes its promiscuity does): there are two errors in three bytes, although one in ten is set, if the second
layer draws another number than the first; and none at all if it draws the same. -/
theorem C75_false_rate : errorRate (exU fun k => k) (err10 ++ [.announce 1 "1.1.1.1".toList, .announce 1 "1.1.1.1".toList]) = (1, 10) ∧
    ((exec (exU fun k => k) .init (err10 ++ .announce 1 "1.1.1.1".toList :: .announce 1 "1.1.1.1".toList :: sends)).link 1).out = [[255, 255, 0]] ∧
    ((exec (exU fun _ => 0) .init (err10 ++ .announce 1 "1.1.1.1".toList :: .announce 1 "1.1.1.1".toList :: sends)).link 1).out = [[0, 0, 0]] := by
  decide +kernel

/-- `set-error-rate 1 -1` answers like a success. Then packets for devices are lost altogether, and nobody can announce an address any more. -/
theorem C75_false_impossible : (call (exU fun _ => 0) (exec (exU fun _ => 0) .init two) "set-error-rate".toList ["1".toList, "-1".toList]).2 = some (.value "None".toList) ∧
    ((exec (exU fun _ => 0) .init (two ++ [req "set-error-rate" ["1", "-1"], .announce 0 "2.2.2.2".toList, .send 0 "1.1.1.1".toList [1]])).link 1).out = [] ∧
    packets (exU fun _ => 0) 1 (two ++ [req "set-error-rate" ["1", "-1"], .announce 0 "2.2.2.2".toList, .send 0 "1.1.1.1".toList [1]]) = [[1]] ∧
    waiting ((exec (exU fun _ => 0) .init (two ++ [req "set-error-rate" ["1", "-1"], .announce 0 "2.2.2.2".toList, .send 0 "1.1.1.1".toList [1]])).link 1) = [] ∧
    (exec (exU fun _ => 0) .init (two ++ [req "set-error-rate" ["1", "-1"], .announce 0 "2.2.2.2".toList])).switch.getOutboundLinks "2.2.2.2".toList = .ok [] := by
  decide +kernel

/-- When the error rate is changed to another one that makes sense, a packet can be lost altogether, with all packets up to the next draw of offsets: here
the first packet after the change. -/
theorem C75_false_change : ((exec (exU fun _ => 1) .init (err10 ++ .announce 1 "1.1.1.1".toList :: sends ++ [req "set-error-rate" ["1", "9"], .send 0 "1.1.1.1".toList [5]])).link 1).out = [[0, 255, 0]] ∧
    packets (exU fun _ => 1) 1 (err10 ++ .announce 1 "1.1.1.1".toList :: sends ++ [req "set-error-rate" ["1", "9"], .send 0 "1.1.1.1".toList [5]]) = [[0, 0, 0], [5]] ∧
    waiting ((exec (exU fun _ => 1) .init (err10 ++ .announce 1 "1.1.1.1".toList :: sends ++ [req "set-error-rate" ["1", "9"], .send 0 "1.1.1.1".toList [5]])).link 1) = [] := by
  decide +kernel

/-- With two layers a packet is delayed twice: after the first timer it still waits. -/
theorem C75_false_delay : ((exec (exU fun _ => 0) .init (req "set-error-rate" ["0", "3"] :: req "set-delay-rate" ["1", "2"] :: two ++
      [.announce 1 "1.1.1.1".toList, .send 0 "1.1.1.1".toList [7], .timer 1 1 0])).link 1).out = [] ∧
    waiting ((exec (exU fun _ => 0) .init (req "set-error-rate" ["0", "3"] :: req "set-delay-rate" ["1", "2"] :: two ++
      [.announce 1 "1.1.1.1".toList, .send 0 "1.1.1.1".toList [7], .timer 1 1 0])).link 1) = [[7]] := by decide +kernel

/-! ## Through the protocol -/

def wCfg : Spmp.Cfg St := ⟨Spmp.fEnv, 2, 1, ['d'], fun v => (api (exU fun _ => 0)).get v, fun _ => true⟩

def k1 : Spmp.Query := ⟨7, "set-error-rate".toList, ["2".toList, "30".toList]⟩
def k2 : Spmp.Query := ⟨8, "get-error-rate".toList, []⟩

theorem kFits (q : Spmp.Query) (hq : q ∈ [k1, k2]) : Spmp.Fits q.packet := by
  simp only [List.mem_cons, List.not_mem_nil, or_false] at hq
  rcases hq with rfl | rfl
  · exact Spmp.fits_query _ (by decide) (by unfold Spmp.OkStr; decide +kernel) (by decide) (by unfold Spmp.OkStr; decide +kernel)
  · exact Spmp.fits_query _ (by decide) (by unfold Spmp.OkStr; decide +kernel) (by decide) (by unfold Spmp.OkStr; decide +kernel)

theorem outcome_value {sc : Spmp.Cfg St} {w : St} {cmd : Str} {args : List Str} {f} (hf : sc.api cmd = some f) {s : Str} (hs : (f args w).2 = .value s) :
    Spmp.Outcome sc w cmd args (f args w).1 [.call cmd args] s none := .value f _ s hf (Prod.ext rfl hs)

theorem kServed : ∃ w acts, Spmp.Served wCfg .init [k1, k2] w acts [("None".toList, none), ("Errors per Bytes = (2, 30)".toList, none)] := by
  have f1 := Spmp.fPlain (Spmp.fits_response k1 (kFits k1 (by simp)) (result := "None".toList) (error := none) (by unfold Spmp.OkStr; decide +kernel) (by simp))
  have f2 := Spmp.fPlain (Spmp.fits_response k2 (kFits k2 (by simp)) (result := "Errors per Bytes = (2, 30)".toList) (error := none) (by unfold Spmp.OkStr; decide +kernel) (by simp))
  obtain ⟨b1, h1⟩ := f1.1.2
  obtain ⟨b2, h2⟩ := f2.1.2
  exact ⟨_, _, .cons (outcome_value (f := setErrors (exU fun _ => 0) "set-error-rate".toList) rfl (by decide +kernel)) h1
    (.cons (outcome_value (f := ask (exU fun _ => 0) "get-error-rate".toList errorsText) rfl (by decide +kernel)) h2 (.nil _))⟩

theorem kLen : ∀ b ∈ [k1, k2].map fun q => ser wCfg.env (q.packet.val wCfg.cls), b.length < 1000 := by
  intro b hb
  simp only [List.map_cons, List.map_nil, List.mem_cons, List.not_mem_nil, or_false] at hb
  rcases hb with rfl | rfl <;> decide +kernel

def kWrapped : List Val := ([k1, k2].map fun q => ser wCfg.env (q.packet.val wCfg.cls)).map (Spmp.wrap 2)

theorem kPayloads : Spmp.payloads 2 kWrapped = [k1, k2].map fun q => ser wCfg.env (q.packet.val wCfg.cls) := by
  unfold Spmp.payloads kWrapped
  rw [List.filterMap_map]
  conv => rhs; rw [← List.filterMap_some (l := [k1, k2].map fun q => ser wCfg.env (q.packet.val wCfg.cls))]
  congr 1

/-- Two requests, cut anywhere. -/
example (bs : List Bytes) (hb : bs.flatten = kWrapped.flatMap (fser wCfg.env)) :
    (Spmp.Adapter.recv wCfg.env 4 2 (Spmp.deviceHandlers wCfg 2 fun (u : Unit) _ => u) (.init (.init wCfg .init ())) bs).st.server.w =
      exec (exU fun _ => 0) .init ([k1, k2].map fun q => .request q.cmd q.args) := by
  obtain ⟨w, acts, hs⟩ := kServed
  refine (C75_managed_partial (exU fun _ => 0) wCfg rfl rfl Spmp.fRegistered (d := 1) rfl (base := 4) (wcls := 2) rfl (fun (u : Unit) _ => u) () .init [k1, k2]
    (fun q hq => Spmp.fPlain (kFits q hq)) kWrapped ?_ (by rw [kPayloads, List.flatMap_def]) hs bs hb).1
  intro p hp
  obtain ⟨b, hbm, rfl⟩ := List.mem_map.mp hp
  exact Spmp.C57_wrap rfl rfl b (by have := kLen b hbm; omega)

end Verif.SwitchApi
