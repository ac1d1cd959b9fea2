import Verif.Model.Config
/-! # What the configuration directory and files mean -/
namespace Verif.Config

/-- The calls of `AddCustomPath` that succeed: the id is not in use. -/
def accepted (used : List Str) : List (Str × Str) → List (Str × Str)
  | [] => []
  | (k, p) :: l => if k ∈ used then accepted used l else (k, p) :: accepted (k :: used) l

def builtin : List Str := ["INSTANCE".toList, "USER".toList, "SYSTEM".toList]

/-- A path in a directory: one slash between the two. -/
def under (dir rest : Str) : Str := if dir = [] ∨ dir.getLast? = some '/' then dir ++ rest else dir ++ ['/'] ++ rest

/-- A name of a configuration file: parts with dots between them. -/
def GoodParts (parts : List Str) : Prop := parts ≠ [] ∧ ∀ p ∈ parts, p ≠ [] ∧ '.' ∉ p ∧ '/' ∉ p

/-- The directories in the order of search: custom ones, the newest first, then those of the instance, the user and the system. -/
def directories (inst : Option Str) (adds : List (Str × Str)) : List Str :=
  ((accepted builtin adds).map (·.2)).reverse ++ (inst.map fun i => under i ".playground".toList).toList ++
    ["~/.playground".toList, "/var/playground".toList]

def addAll (s : Paths) : List (Str × Str) → Paths
  | [] => s
  | (k, p) :: l => addAll (addCustomPath s k p).1 l

/-- The event may change the file at this path. -/
def Touches (s : St) (path : Str) : Ev → Prop
  | .opn i _ c (some loc) _ _ _ => filePath loc i = path ∧ (c = .overwrite ∨ c = .ifneeded ∧ s.files path = none)
  | .save k _ => ∃ h, s.handles[k]? = some h ∧ h.path = path ∧ h.write = true
  | .other p _ => p = path
  | _ => False

/-- No event of the history may change the file at this path. -/
def Untouched (path : Str) : St → List Ev → Prop
  | _, [] => True
  | s, e :: h => ¬ Touches s path e ∧ Untouched path (step s e).1 h

/-- The sections of a file together with those of the specification that it has not. -/
def WithSpec (file spec : Cfg) (k : Str) : Option (Dict Str Str) := (file.get k).or (spec.get k)

end Verif.Config
