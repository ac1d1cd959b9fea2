import Verif.Model.WanNet
import Verif.Spec.Wan
import Verif.Spec.Switch
/-! # Specification of a WAN with devices -/
namespace Verif.WanNet

/-- A device as its users see it. -/
structure Seat where
  used : Bool := false            -- has connected
  up : Bool := false              -- is connected
  addr : Option Str := none       -- the address it announced
  place : Option Int := none      -- the prefix it is located at, if there was a switch at that prefix

/-- The prefixes registered, the devices, and whether every list of direct connections contained registered prefixes only. -/
structure View where
  lans : List Int := []
  seat : Nat → Seat := fun _ => {}
  ok : Prop := True

def View.upd (v : View) (i : Nat) (s : Seat) : View := { v with seat := fun j => if j = i then s else v.seat j }

/-- What an event does to devices and prefixes. An announcement of a valid address takes the device away from where it is. -/
def View.step (v : View) : Ev → View
  | .register p => if p ∈ v.lans then v else { v with lans := v.lans ++ [p] }
  | .connect r ds => { v with ok := v.ok ∧ (r ∈ v.lans → ∀ d ∈ ds, d ∈ v.lans) }
  | .accept i => if (v.seat i).used then v else v.upd i { used := true, up := true }
  | .locate i p => if (v.seat i).up then v.upd i { v.seat i with place := if p ∈ v.lans then some p else none } else v
  | .announce i a =>
    if (v.seat i).up ∧ Addr.isValidBlockString a = true then v.upd i { v.seat i with addr := some a, place := none } else v
  | .send _ _ _ => v
  | .lost i => if (v.seat i).up then v.upd i { used := true } else v

def View.after (v : View) : List Ev → View
  | [] => v
  | e :: h => (v.step e).after h

/-- The view after a history. -/
def view (h : List Ev) : View := View.after {} h

/-- The events that concern the routes. -/
def routeEvs : List Ev → List (Wan.Ev Int)
  | [] => []
  | .register p :: h => .register p :: routeEvs h
  | .connect r ds :: h => .connect r ds :: routeEvs h
  | _ :: h => routeEvs h

/-- The direct connections after a history. -/
def Linked (h : List Ev) (p q : Int) : Prop := (Wan.graph (routeEvs h)).edge p q

/-- Device `m` is located at `p` and its address is `z.n.d.i` or one of the blocks around it. -/
def Hears (v : View) (p : Int) (z n d i m : Nat) : Prop :=
  (v.seat m).place = some p ∧ ∃ a ∈ enclosing z n d i, (v.seat m).addr = some a

/-- The packets written to device `m` so far. -/
def delivered (n : Net) (m : Nat) : List SPkt := (n.out.filter fun e => decide (e.1 = dev m)).map (·.2)

/-- The string denotes the address `z.n.d.i`. -/
def Denotes (s : Str) (z n d i : Nat) : Prop := ∃ a b c e, s = dotted a b c e ∧ DenotesNum a (.num z) ∧ DenotesNum b (.num n) ∧
  DenotesNum c (.num d) ∧ DenotesNum e (.num i)

end Verif.WanNet
