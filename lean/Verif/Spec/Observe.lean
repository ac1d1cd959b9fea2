import Verif.Model.Observe
/-! # Specification of event observation -/
namespace Verif.Obs

/-- After the history `h` listener `l` is registered for protocol `p`: it was added, and since then it was not removed and the
connection was not lost. -/
def Listens (h : List Ev) (p l : Nat) : Prop :=
  ∃ before after, h = before ++ .listen p l :: after ∧ .stop p l ∉ after ∧ .lost p ∉ after

/-- Protocol `p` was given transport `t` while somebody listened to it, and since then there always was a listener. -/
def Attached (h : List Ev) (p t : Nat) : Prop :=
  ∃ before after, h = before ++ .made p t :: after ∧
    ∀ a b, after = a ++ b → ∃ l, Listens (before ++ .made p t :: a) p l

/-- The calls of `connection_made`: protocol and transport. -/
def mades : List Ev → List (Nat × Nat)
  | [] => []
  | .made p t :: h => (p, t) :: mades h
  | _ :: h => mades h

/-- Every protocol gets at most one transport and every transport is given to at most one protocol, once. -/
def OneToOne (h : List Ev) : Prop := ((mades h).map (·.1)).Nodup ∧ ((mades h).map (·.2)).Nodup

/-- What a method event of protocol `p` is. -/
def Ev.method : Ev → Option (Nat × Kind)
  | .made p t => some (p, .made t)
  | .lost p => some (p, .lost)
  | .data p d => some (p, .data d)
  | _ => none

end Verif.Obs
