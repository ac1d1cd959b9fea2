import Verif.Model.WanApi
import Verif.Spec.WanNet
/-! # Specification of the management of a WAN

What requests mean is said by translating them to the calls and events of `Spec/WanNet.lean` and `Spec/Wan.lean` (the graph of the registered
prefixes and their direct connections, the devices and where they are). -/
namespace Verif.WanApi

/-- The devices that have connected so far (a device connects once), and those that are connected, in the order in which they connected. -/
def connStep : List Nat × List Nat → WanNet.Ev → List Nat × List Nat
  | (used, now), .accept i => if i ∈ used then (used, now) else (i :: used, now ++ [i])
  | (used, now), .lost i => (used, now.filter (· ≠ i))
  | s, _ => s

/-- The connected devices, in the order in which they connected. -/
def connected (h : List WanNet.Ev) : List Nat := (h.foldl connStep ([], [])).2

/-- The prefixes that `add-switches` adds: those before the first argument that is no integer, is registered already, or was named before. -/
def newSwitches (known : List Int) : List Str → List Int
  | [] => []
  | a :: as => match pyInt a with
    | none => []
    | some p => if p ∈ known then [] else p :: newSwitches (p :: known) as

/-- The list of integers that a list of strings denotes, if it does. -/
def numbers : List Str → Option (List Int)
  | [] => some []
  | a :: as => match pyInt a, numbers as with
    | some i, some is => some (i :: is)
    | _, _ => none

/-- What a request does to the WAN, after the calls and events `h`. -/
def meaning (name : Nat → Str) (h : List WanNet.Ev) (verb : Str) (args : List Str) : List WanNet.Ev :=
  if verb = "add-switches".toList then (newSwitches (WanNet.view h).lans args).map .register
  else if verb = "set-direct-connections".toList then
    match numbers args with
    | some (r :: ds) => [.connect r ds]
    | _ => []
  else if verb = "set-location".toList then
    match args with
    | [conn, p] => match pyInt p, (connected h).find? fun i => decide (name i = conn) with
      | some q, some i => [.locate i q]
      | _, _ => []
    | _ => []
  else []

def effect (name : Nat → Str) (h : List WanNet.Ev) : Ev → List WanNet.Ev
  | .request verb args => meaning name h verb args
  | .accept i => [.accept i]
  | .announce i a => [.announce i a]
  | .send i d x => [.send i d x]
  | .lost i => [.lost i]

/-- The calls and events that a history amounts to, after the calls and events `h`. -/
def callsFrom (name : Nat → Str) (h : List WanNet.Ev) : List Ev → List WanNet.Ev
  | [] => h
  | e :: es => callsFrom name (h ++ effect name h e) es

def calls (name : Nat → Str) (h : List Ev) : List WanNet.Ev := callsFrom name [] h

/-- The direct connections that a history amounts to. -/
def graph (name : Nat → Str) (h : List Ev) : Wan.Graph Int := Wan.graph (WanNet.routeEvs (calls name h))

end Verif.WanApi
