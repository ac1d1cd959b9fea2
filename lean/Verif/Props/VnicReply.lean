import Verif.Props.VnicApi
import Verif.Props.SpmpHidden
import Verif.Props.SpmpFramed
/-! # C79: a VNIC is managed on the connections of its programs -/
namespace Verif.VnicApi
open Verif.Spmp (Res Item Query)

/-- What an item does to the daemon; `ev` tells what a packet of the main protocol does. -/
def itemEv (ev : Val → Ev) : Item → Ev
  | .query q => .request q.cmd q.args
  | .other v => ev v

/-- The responses are those to the requests, in their order. -/
def queries : List Item → List Query
  | [] => []
  | .query q :: is => q :: queries is
  | .other _ :: is => queries is

/-- What came before the `k`-th request. -/
def before : Nat → List Item → List Item
  | _, [] => []
  | 0, .query _ :: _ => []
  | k + 1, .query q :: is => .query q :: before k is
  | k, .other v :: is => .other v :: before k is

theorem handled_exec (c : Cfg) (sc : Spmp.Cfg St) (hapi : sc.api = fun v => (api c).get v) (main : Spmp.Main St) (ev : Val → Ev)
    {w w' : St} {is : List Item} {acts rs} (hs : Spmp.Handled sc main w is w' acts rs)
    (hm : ∀ v, .other v ∈ is → ∀ w, (main w (ser sc.env v)).1 = step c w (ev v)) :
    w' = exec c w (is.map (itemEv ev)) ∧
    ∀ (k : Nat) (q : Query), (queries is)[k]? = some q → ∃ result error w1, rs[k]? = some (result, error) ∧
      Spmp.Outcome sc (exec c w ((before k is).map (itemEv ev))) q.cmd q.args w1 (if ((api c).get q.cmd).isSome then [.call q.cmd q.args] else []) result error := by
  induction hs with
  | nil w => exact ⟨rfl, fun k q h => by simp [queries] at h⟩
  | @query w w1 w2 q is acts b acts' result error rs ho _ _ ih =>
    have h1 : w1 = step c w (.request q.cmd q.args) ∧ acts = if ((api c).get q.cmd).isSome then [.call q.cmd q.args] else [] := by
      unfold step call
      cases ho with
      | unknown hn => rw [hapi] at hn; dsimp only at hn ⊢; rw [hn]; exact ⟨rfl, rfl⟩
      | value f _ s hf hr => rw [hapi] at hf; dsimp only at hf ⊢; rw [hf]; dsimp only; rw [hr]; exact ⟨rfl, rfl⟩
      | failed f _ e hf hr _ => rw [hapi] at hf; dsimp only at hf ⊢; rw [hf]; dsimp only; rw [hr]; exact ⟨rfl, rfl⟩
      | failedSilently f _ hf hr => rw [hapi] at hf; dsimp only at hf ⊢; rw [hf]; dsimp only; rw [hr]; exact ⟨rfl, rfl⟩
    obtain ⟨rfl, hacts⟩ := h1
    obtain ⟨i1, i2⟩ := ih (fun v hv => hm v (List.mem_cons_of_mem _ hv))
    refine ⟨i1, fun k q' hk => ?_⟩
    cases k with
    | zero =>
      cases hk
      exact ⟨result, error, _, rfl, by rw [← hacts]; exact ho⟩
    | succ k => exact i2 k q' hk
  | @other w w1 w2 v is acts acts' rs ho _ ih =>
    have h1 : w1 = step c w (ev v) := by rw [← hm v (by simp) w, ho]
    subst h1
    obtain ⟨i1, i2⟩ := ih (fun v hv => hm v (List.mem_cons_of_mem _ hv))
    refine ⟨i1, fun k q hk => ?_⟩
    cases k with
    | zero => exact i2 0 q hk
    | succ k => exact i2 (k + 1) q hk

/-- C79. From end to end: management requests on a control connection of a VNIC, between the packets of the program that has it (on which the daemon acts as `ev` says,
without raising), cut in any way. All are dealt with in the order in which they were sent; the `k`-th request is carried out once, in the state that everything before it led
to, and answered with what the call yields in that state. -/
theorem C79_managed_partial (c : Cfg) (sc : Spmp.Cfg St) (hapi : sc.api = fun v => (api c).get v) (hauth : sc.authorized = fun _ => true)
    (main : Spmp.Main St) (ev : Val → Ev) (hr : sc.env.Registered) {dep : Nat} (hd : sc.depth = dep + 1) {base : Cls} (hbase : sc.env.isSub sc.cls base = true)
    (s : St) (is : List Item) (hq : ∀ q, .query q ∈ is → Spmp.Plain sc.env sc.cls q.packet)
    (ho : ∀ v, .other v ∈ is → Spmp.ofVal sc.cls v = none ∧ Sendable sc.env base v ∧ Decodes sc.env sc.depth base (ser sc.env v) v)
    (hm : ∀ v, .other v ∈ is → ∀ w, (main w (ser sc.env v)).1 = step c w (ev v))
    {w' : St} {acts : List Spmp.Act} {rs} (hs : Spmp.Handled sc main s is w' acts rs)
    (bs : List Bytes) (hb : bs.flatten = is.flatMap fun it => ser sc.env (it.val sc.cls)) :
    ((Spmp.Hidden.init sc base s).recv sc main base bs).1.w = exec c s (is.map (itemEv ev)) ∧
    ((Spmp.Hidden.init sc base s).recv sc main base bs).2 = acts ∧
    ∀ (k : Nat) (q : Query), (queries is)[k]? = some q → ∃ result error w1, rs[k]? = some (result, error) ∧
      Spmp.Outcome sc (exec c s ((before k is).map (itemEv ev))) q.cmd q.args w1 (if ((api c).get q.cmd).isSome then [.call q.cmd q.args] else []) result error := by
  obtain ⟨h1, h2⟩ := Spmp.C44_hidden_once_partial sc main hr hd hbase s is (fun q hm => ⟨by rw [hauth], hq q hm⟩) ho hs bs hb
  obtain ⟨e1, e2⟩ := handled_exec c sc hapi main ev hs hm
  exact ⟨by rw [h1, e1], h2, e2⟩

/-! ## An example: a program sets the level between two requests -/

/-- The packet of class 3 stands for the packet about the level. -/
def wMain : Spmp.Main St := fun w _ => ((promPacket w (some 3)).1, [], false)

def wCfg : Spmp.Cfg St := ⟨Spmp.fEnv, 2, 1, ['v'], fun v => (api exCfg).get v, fun _ => true⟩

def k1 : Query := ⟨7, "set-promiscuity-level".toList, ["1".toList]⟩
def k2 : Query := ⟨8, "get-promiscuity-level".toList, []⟩

def wItems : List Item := [.query k1, .other (Spmp.plain 7), .query k2]

theorem kFits (q : Query) (hq : q = k1 ∨ q = k2) : Spmp.Fits q.packet := by
  rcases hq with rfl | rfl
  · exact Spmp.fits_query _ (by decide) (by unfold Spmp.OkStr; decide +kernel) (by decide) (by unfold Spmp.OkStr; decide +kernel)
  · exact Spmp.fits_query _ (by decide) (by unfold Spmp.OkStr; decide +kernel) (by decide) (by unfold Spmp.OkStr; decide +kernel)

theorem outcome_value {sc : Spmp.Cfg St} {w : St} {cmd : Str} {args : List Str} {f} (hf : sc.api cmd = some f) {s : Str} (hs : (f args w).2 = .value s) :
    Spmp.Outcome sc w cmd args (f args w).1 [.call cmd args] s none := .value f _ s hf (Prod.ext rfl hs)

theorem kHandled (s : St) (h : start exCfg (addr 20174 1 2 3) [] .ok = some s) :
    ∃ w acts, Spmp.Handled wCfg wMain s wItems w acts [("None".toList, none), ("3".toList, none)] := by
  have f1 := Spmp.fPlain (Spmp.fits_response k1 (kFits k1 (.inl rfl)) (result := "None".toList) (error := none) (by unfold Spmp.OkStr; decide +kernel) (by simp))
  have f2 := Spmp.fPlain (Spmp.fits_response k2 (kFits k2 (.inr rfl)) (result := "3".toList) (error := none) (by unfold Spmp.OkStr; decide +kernel) (by simp))
  obtain ⟨b1, h1⟩ := f1.1.2
  obtain ⟨b2, h2⟩ := f2.1.2
  refine ⟨_, _, .query (outcome_value (f := setProm exCfg "set-promiscuity-level".toList) rfl ?_) h1
    (.other rfl (.query (outcome_value (f := ask exCfg "get-promiscuity-level".toList fun s => natStr (Prom.promiscuousLevel s.d.net)) rfl ?_) h2 (.nil _)))⟩
  · rcases C79_set h [] ["1".toList] with ⟨a, l, _, _, h3, _⟩ | ⟨h3, _⟩
    · rw [prom_call] at h3
      exact Option.some.inj h3
    · exact absurd ⟨_, 1, rfl, by decide +kernel⟩ h3
  · have := C79_level h [.request k1.cmd k1.args, .packet (some 3)]
    have hp : promLevel [.request k1.cmd k1.args, .packet (some 3)] = 3 := by decide +kernel
    rw [hp, call_some (f := ask exCfg "get-promiscuity-level".toList fun s => natStr (Prom.promiscuousLevel s.d.net)) rfl] at this
    have h4 : natStr 3 = "3".toList := by decide +kernel
    rw [h4] at this
    exact Option.some.inj (congrArg (·.2) this)

theorem plainV (v : Val) (hv : v = Spmp.plain 7) : Spmp.ofVal 1 v = none ∧ Sendable Spmp.fEnv 0 v ∧ Decodes Spmp.fEnv 2 0 (ser Spmp.fEnv v) v := by
  subst hv
  have hs : Sendable Spmp.fEnv 0 (Spmp.plain 7) := by
    refine ⟨by decide +kernel, ?_⟩
    cases hf : serialize Spmp.fEnv 0 (Spmp.plain 7) with
    | ok b => exact ⟨b, rfl⟩
    | error e =>
      have : (match serialize Spmp.fEnv 0 (Spmp.plain 7) with | .ok _ => true | .error _ => false) = true := by decide +kernel
      rw [hf] at this
      cases this
  exact ⟨rfl, hs, C01_roundtrip_flat_partial Spmp.fRegistered hs (by simp [flatF, flatV]) (by simp [asciiF, asciiV])⟩

example (s : St) (h : start exCfg (addr 20174 1 2 3) [] .ok = some s) (bs : List Bytes) (hb : bs.flatten = wItems.flatMap fun it => ser wCfg.env (it.val wCfg.cls)) :
    ((Spmp.Hidden.init wCfg 0 s).recv wCfg wMain 0 bs).1.w =
      exec exCfg s [.request "set-promiscuity-level".toList ["1".toList], .packet (some 3), .request "get-promiscuity-level".toList []] := by
  obtain ⟨w, acts, hs⟩ := kHandled s h
  exact (C79_managed_partial exCfg wCfg rfl rfl wMain (fun _ => .packet (some 3)) Spmp.fRegistered (dep := 1) rfl (base := 0) rfl s wItems
    (fun q hq => Spmp.fPlain (kFits q (by simpa [wItems] using hq)))
    (fun v hv => plainV v (by simpa [wItems] using hv)) (fun _ _ _ => rfl) hs bs hb).1

end Verif.VnicApi
