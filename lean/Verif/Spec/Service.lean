import Verif.Model.Service
/-! # What the connector service means -/
namespace Verif.Service

/-- The string contains `://`. -/
def HasScheme (s : Str) : Prop := ∃ a b, s = a ++ "://".toList ++ b

/-- A load that runs to its end. -/
def Completes (env : Env) : Prop := ∃ p l, env.path = some p ∧ env.initOk = true ∧ env.listing = some l ∧ ∀ m ∈ l, m.pkg = true → m.ends ≠ .fatal

/-- A load that begins to run modules, or to look for them, and does not come to its end. -/
def Dies (env : Env) : Prop := ∃ p, env.path = some p ∧ env.initOk = true ∧
  (env.listing = none ∨ ∃ l, env.listing = some l ∧ ∃ m ∈ l, m.pkg = true ∧ m.ends = .fatal)

/-- What a call finds on the disk if it loads. -/
def Ev.env : Ev → Option Env
  | .set _ _ => none
  | .reload _ e | .get _ e => some e
  | .connect h f e => match resolve f h with
    | .ok _ => some e
    | .error _ => none
  | .serve h p f e => match p with
    | none => none
    | some _ => match resolve f (some (h.getD "default".toList)) with
      | .ok _ => some e
      | .error _ => none

/-- The connectors the program set, in order. -/
def appSets (h : List Ev) : List (Str × Nat) := h.filterMap fun
  | .set n c => some (n, c)
  | _ => none

/-- The connectors that the modules in the directory set, in order. -/
def modSets (env : Env) : List (Str × Nat) := (env.listing.getD []).flatMap fun m => if m.pkg then m.sets else []

/-- The last connector of this name in a list. -/
def lastOf (name : Str) (l : List (Str × Nat)) : Option Nat := ((l.filter fun x => x.1 = name).getLast?).map (·.2)

/-- This call loads the connectors and comes to an end: it is forced, or nothing was loaded before. -/
def Loads (h : List Ev) (e : Ev) : Prop :=
  ∃ env, e.env = some env ∧ Completes env ∧ ((∃ env', e = .reload true env') ∨ ∀ e' ∈ h, ∀ env', e'.env = some env' → ¬ Completes env')

end Verif.Service
