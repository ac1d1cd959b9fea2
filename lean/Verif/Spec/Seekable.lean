import Verif.Model.Seekable
/-! # What a file is -/
namespace Verif.Seekable

/-- A file open for reading that others append to. `chunks` is what was appended, piece by piece. -/
structure File where
  chunks : List Bytes
  pos : Nat
  closed : Bool

def File.contents (f : File) : Bytes := f.chunks.flatten

/-- What is read at the position: all of the rest for a negative size. -/
def File.get (f : File) (n : Int) : Bytes :=
  if n < 0 then f.contents.drop f.pos else (f.contents.drop f.pos).take n.toNat

/-- Where `seek` goes. -/
def File.target (f : File) (offset whence : Int) : Option Int :=
  if whence = 0 then some offset
  else if whence = 1 then some (f.pos + offset)
  else if whence = 2 then some (f.contents.length + offset)
  else none

def File.seek (f : File) (offset whence : Int) : Out × File :=
  match f.target offset whence with
  | none => (.raised, f)
  | some p => if p < 0 then (.raised, f) else (.nothing, { f with pos := p.toNat })

/-- One call on a file. On a closed file all calls but `close` raise. -/
def File.step (f : File) (o : Op) : Out × File :=
  if f.closed then (if o = .close then .nothing else .raised, f)
  else match o with
    | .update d => (.nothing, { f with chunks := f.chunks ++ [d] })
    | .read n => (.data (f.get n), { f with pos := f.pos + (f.get n).length })
    | .peek n => (.data (f.get n), f)
    | .seek o w => f.seek o w
    | .tell => (.num f.pos, f)
    | .available => (.num ((f.contents.length : Int) - f.pos), f)
    | .close => (.nothing, { f with closed := true })

def File.run (f : File) : List Op → List Out × File
  | [] => ([], f)
  | o :: h => ((f.step o).1 :: (File.run (f.step o).2 h).1, (File.run (f.step o).2 h).2)

/-- The chunk the position is in: where it begins and where it ends. -/
def chunkAt (pos : Nat) : List Bytes → Nat → Option (Nat × Nat)
  | [], _ => none
  | c :: r, start => if pos < start + c.length then some (start, start + c.length) else chunkAt pos r (start + c.length)

/-- The bytes asked for, as far as there are any, are in one chunk. -/
def File.inOne (f : File) (n : Nat) : Prop :=
  ∀ a b, chunkAt f.pos f.chunks 0 = some (a, b) → min (f.pos + n) f.contents.length ≤ b

/-- The calls for which the stream is a file. -/
def File.fine (f : File) : Op → Prop
  | .update _ | .tell | .available => f.closed = false
  | .read n | .peek n => f.closed = false ∧ (n = -1 ∨ f.contents.length ≤ f.pos ∨ 0 < n ∧ f.inOne n.toNat)
  | .seek o w => f.closed = true ∨ w = 0 ∨ (w = 1 ∧ o = 1) ∨ (w = 2 ∧ 0 ≤ f.contents.length + o ∧ (f.chunks ≠ [] ∨ o = 0)) ∨
      (w ≠ 0 ∧ w ≠ 1 ∧ w ≠ 2)
  | .close => True

def File.allFine (f : File) : List Op → Prop
  | [] => True
  | o :: h => f.fine o ∧ File.allFine (f.step o).2 h

/-- The empty `bytes` and the empty string are both "nothing there". -/
def same : Out → Out → Prop
  | .data [], .text => True
  | a, b => a = b

def sameAll : List Out → List Out → Prop
  | [], [] => True
  | a :: l, b :: m => same a b ∧ sameAll l m
  | _, _ => False

def File.init : Option Bytes → File
  | none => ⟨[], 0, false⟩
  | some b => ⟨[b], 0, false⟩

end Verif.Seekable
