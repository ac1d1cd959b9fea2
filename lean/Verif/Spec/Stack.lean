import Verif.Model.Stack
/-! # Specification of protocol stacks -/
namespace Verif.Stack

/-- Following `next` from `t` one visits the objects `os` and arrives at `e`. -/
def Path (next : Nat → Tgt) : Tgt → List Nat → Tgt → Prop
  | t, [], e => t = e
  | t, o :: os, e => t = .obj o ∧ Path next (next o) os e

mutual
/-- The lowest layer of what a factory makes. -/
def bottom : Factory → Option Nat
  | .layer k => some k
  | .stack fs => bottomOf fs
def bottomOf : List Factory → Option Nat
  | [] => none
  | f :: _ => bottom f
end

/-- A stack of plain layers. -/
def flat (ks : List Nat) : Factory := .stack (ks.map .layer)

/-- What a layer makes of a sequence of chunks. -/
def run1 {σ : Type} (f : σ → Bytes → σ × List Bytes) : σ → List Bytes → σ × List Bytes
  | s, [] => (s, [])
  | s, c :: cs => ((run1 f (f s c).1 cs).1, (f s c).2 ++ (run1 f (f s c).1 cs).2)

/-- A sequence of chunks passes through a sequence of layers, each given by its kind and state: what comes out of one goes into the
next. -/
def through {σ : Type} (f : Nat → σ → Bytes → σ × List Bytes) : List (Nat × σ) → List Bytes → List (Nat × σ) × List Bytes
  | [], cs => ([], cs)
  | (k, s) :: r, cs => ((k, (run1 (f k) s cs).1) :: (through f r (run1 (f k) s cs).2).1, (through f r (run1 (f k) s cs).2).2)

/-- The layer of kind `k` is a lossless encoding of a stream: however the bytes it sends are cut into chunks on their way, the receiver
gets the bytes that were written. -/
def Lossless {σ : Type} (up down : Nat → σ → Bytes → σ × List Bytes) (init : σ) (k : Nat) : Prop :=
  ∀ ds cs : List Bytes, cs.flatten = (run1 (down k) init ds).2.flatten → (run1 (up k) init cs).2.flatten = ds.flatten

end Verif.Stack
