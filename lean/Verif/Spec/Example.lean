import Verif.Spec.Codec
/-! A concrete world with three packet classes, used to show that hypotheses are satisfiable and as
witness where a property is false. -/
namespace Verif.Ex

def t1 : PDef := ⟨"t.one".toList, "1.0".toList,
  .cons "a" none false (.num false { bits := some 16 })
  (.cons "s" none true .str
  (.cons "l" (some 7) true (.list (.num false { bits := some 8 })) .nil))⟩

def t2 : PDef := ⟨"t.two".toList, "1.2".toList,
  .cons "p" none false (.packet 0)
  (.cons "b" none false .buf .nil)⟩

def t3 : PDef := ⟨"t.three".toList, "1.0".toList,
  .cons "i" none false (.num true { bits := some 8 })
  (.cons "st" none false (.struct (.cons "x" none false .bool (.cons "y" none true .str .nil))) .nil)⟩

/-- Class 0 is the root `PacketType`. -/
def env : Env where
  classDef := fun c => match c with | 1 => some t1 | 2 => some t2 | 3 => some t3 | _ => none
  isSub := fun c b => b == 0 || b == c
  lookup := fun _ name v =>
    if name = t1.ident ∧ v = ⟨1, 0⟩ then .ok (some 1)
    else if name = t2.ident ∧ v = ⟨1, 2⟩ then .ok (some 2)
    else if name = t3.ident ∧ v = ⟨1, 0⟩ then .ok (some 3)
    else .ok none

theorem registered : env.Registered := by
  intro cls d base h _
  unfold env at h
  dsimp only at h
  split at h
  · cases h; exact ⟨⟨1, 0⟩, by decide, rfl⟩
  · cases h; exact ⟨⟨1, 2⟩, by decide, rfl⟩
  · cases h; exact ⟨⟨1, 0⟩, by decide, rfl⟩
  · cases h

/-- `a = 513, s = "hi", l = [1,255]`. -/
def p1 : Val := .packet 1 (.set (.num 513) (.set (.str ['h', 'i'])
  (.set (.list (.cons (.num 1) (.cons (.num 255) .nil))) .nil)))
/-- Optional fields unset. -/
def p1' : Val := .packet 1 (.set (.num 0) (.unset (.unset .nil)))
/-- A packet inside a packet, followed by a short buffer. -/
def p2 : Val := .packet 2 (.set p1 (.set (.buf [1, 2, 3]) .nil))
def p3 : Val := .packet 3 (.set (.num (-5)) (.set (.struct (.set (.bool true) (.unset .nil))) .nil))

/-- The packet that came out, if any. -/
def result (o : Out (Val × Nat) × Nat) : Option Val :=
  match o.1 with
  | .done (v, _) => some v
  | _ => none

/-- The exception that came out, if any. -/
def failure (o : Out (Val × Nat) × Nat) : Option Err :=
  match o.1 with
  | .error e => some e
  | _ => none

theorem not_decodes {env : Env} {depth base b v} {o : Option Val}
    (h : result (deserialize env depth base b) = o) (hne : o ≠ some v) : ¬ Decodes env depth base b v := by
  rintro ⟨m, n, he⟩
  rw [he] at h
  exact hne h.symm

theorem sendable {p : Val} (h1 : accepts env p (.packet 0) = true) (h2 : (serialize env 0 p).isOk = true) :
    Sendable env 0 p := by
  refine ⟨h1, ?_⟩
  cases hs : serialize env 0 p with
  | ok b => exact ⟨b, rfl⟩
  | error e => rw [hs] at h2; cases h2

theorem p1_sendable : Sendable env 0 p1 := sendable (by decide) (by decide)
theorem p1'_sendable : Sendable env 0 p1' := sendable (by decide) (by decide)
theorem p2_sendable : Sendable env 0 p2 := sendable (by decide) (by decide)
theorem p3_sendable : Sendable env 0 p3 := sendable (by decide) (by decide)

end Verif.Ex
