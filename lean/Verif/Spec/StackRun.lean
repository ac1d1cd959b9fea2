import Verif.Model.StackRun
/-! # Specification of running stacks -/
namespace Verif.StackRun
open Stack (Tgt Heap)

/-! ## A protocol on its own

The histories that a protocol can have in any environment. `inp m`: it is called; `out c`: it calls; `back r`: its call comes back; `done r`: it
returns. While its call is under way the environment may call it again, any number of times. -/

inductive LEv where
  | inp (m : Msg)
  | out (c : Cmd)
  | back (r : Option Err)
  | done (r : Option Err)
  deriving DecidableEq

mutual
/-- `Env code s t s'`: starting in state `s`, the environment calls the protocol any number of times; the history is `t`, the state at the end `s'`. -/
inductive Env {σ : Type} (code : Msg → σ → Prog σ) : σ → List LEv → σ → Prop
  | nil (s) : Env code s [] s
  | cons {s s1 s2 m r t1 t2} : Does code (code m s) s t1 s1 r → Env code s1 t2 s2 → Env code s (.inp m :: t1 ++ .done r :: t2) s2
/-- The program `p` of the protocol runs. -/
inductive Does {σ : Type} (code : Msg → σ → Prog σ) : Prog σ → σ → List LEv → σ → Option Err → Prop
  | ret (s r) : Does code (.ret r) s [] s r
  | quiet {f k s s1 s2 t r} : f s = (s1, none) → Does code (k none s1) s1 t s2 r → Does code (.ins f k) s t s2 r
  | out {f k s s1 s2 s3 c t1 t2 r0 r} : f s = (s1, some c) → Env code s1 t1 s2 → Does code (k r0 s2) s2 t2 s3 r →
      Does code (.ins f k) s (.out c :: t1 ++ .back r0 :: t2) s3 r
end

/-! The same in an environment that is calm: while the protocol calls its lower transport it is not called, and while it calls its higher protocol only
its transport is called (the higher protocol may write, close and abort). -/

def IsDn (m : Msg) : Prop := ∃ d, m = .dn d

mutual
/-- As `Env`; only calls in `A`. -/
inductive Calm {σ : Type} (code : Msg → σ → Prog σ) : (Msg → Prop) → σ → List LEv → σ → Prop
  | nil (A s) : Calm code A s [] s
  | cons {A s s1 s2 m r t1 t2} : A m → CDoes code (code m s) s t1 s1 r → Calm code A s1 t2 s2 → Calm code A s (.inp m :: t1 ++ .done r :: t2) s2
inductive CDoes {σ : Type} (code : Msg → σ → Prog σ) : Prog σ → σ → List LEv → σ → Option Err → Prop
  | ret (s r) : CDoes code (.ret r) s [] s r
  | quiet {f k s s1 s2 t r} : f s = (s1, none) → CDoes code (k none s1) s1 t s2 r → CDoes code (.ins f k) s t s2 r
  | up {f k s s1 s2 s3 u t1 t2 r0 r} : f s = (s1, some (.up u)) → Calm code IsDn s1 t1 s2 → CDoes code (k r0 s2) s2 t2 s3 r →
      CDoes code (.ins f k) s (.out (.up u) :: t1 ++ .back r0 :: t2) s3 r
  | down {f k s s1 s3 m t2 r0 r} : f s = (s1, some (.down m)) → CDoes code (k r0 s1) s1 t2 s3 r →
      CDoes code (.ins f k) s (.out (.down m) :: .back r0 :: t2) s3 r
end

/-- The program does not call the higher protocol. -/
def NoUp {σ : Type} : Prog σ → Prop
  | .ret _ => True
  | .ins f k => (∀ s u, (f s).2 ≠ some (.up u)) ∧ ∀ e s, NoUp (k e s)

/-- The transport of the layer does not call the higher protocol when it is written to, closed or aborted. -/
def Polite {σ : Type} (code : Msg → σ → Prog σ) : Prop := ∀ d s, NoUp (code (.dn d) s)

/-- The bytes that a protocol has received, sent (to the lower transport), passed on (to the higher protocol), and those written to it. -/
def LEv.got : LEv → Bytes | .inp (.up (.data d)) => d | _ => []
def LEv.sent : LEv → Bytes | .out (.down (.write d)) => d | _ => []
def LEv.passed : LEv → Bytes | .out (.up (.data d)) => d | _ => []
def LEv.wrote : LEv → Bytes | .inp (.dn (.write d)) => d | _ => []

/-- No call of the protocol, or by it, raised an exception. -/
def CleanL (l : List LEv) : Prop := ∀ r, .back r ∈ l ∨ .done r ∈ l → r = none

/-- Two protocols with the codes `ca` and `cb` keep the relation `R` between the bytes sent by one and the bytes received by the other (for
example: "the same bytes", "a prefix"): when it holds below, in both directions, it holds above, in both directions; in every environment. -/
def Keeps {σ : Type} (R : Bytes → Bytes → Prop) (ca : Msg → σ → Prog σ) (ia : σ) (cb : Msg → σ → Prog σ) (ib : σ) : Prop :=
  ∀ la lb sa sb, Env ca ia la sa → Env cb ib lb sb → CleanL la → CleanL lb →
    R (lb.flatMap LEv.got) (la.flatMap LEv.sent) → R (la.flatMap LEv.got) (lb.flatMap LEv.sent) →
    R (lb.flatMap LEv.passed) (la.flatMap LEv.wrote) ∧ R (la.flatMap LEv.passed) (lb.flatMap LEv.wrote)

/-- The same, in every calm environment. -/
def KeepsCalm {σ : Type} (R : Bytes → Bytes → Prop) (ca : Msg → σ → Prog σ) (ia : σ) (cb : Msg → σ → Prog σ) (ib : σ) : Prop :=
  ∀ la lb sa sb, Calm ca (fun _ => True) ia la sa → Calm cb (fun _ => True) ib lb sb → CleanL la → CleanL lb →
    R (lb.flatMap LEv.got) (la.flatMap LEv.sent) → R (la.flatMap LEv.got) (lb.flatMap LEv.sent) →
    R (lb.flatMap LEv.passed) (la.flatMap LEv.wrote) ∧ R (la.flatMap LEv.passed) (lb.flatMap LEv.wrote)

/-! ## The stack as a whole -/

/-- The bytes that arrived on the wire. -/
def fed (h : List Act) : Bytes := h.flatMap fun | .wire (.data d) => d | _ => []

/-- The bytes put on the wire. -/
def onWire (log : List Ev) : Bytes := log.flatMap fun | .inp _ .wire (.dn (.write d)) => d | _ => []

/-- The bytes that the application received. -/
def appGot (log : List Ev) : Bytes := log.flatMap fun | .inp _ .app (.up (.data d)) => d | _ => []

/-- The bytes that the application wrote to its transport. -/
def appWrote (log : List Ev) : Bytes := log.flatMap fun | .outp .app (.down (.write d)) => d | _ => []

/-- No call raised an exception. -/
def Clean (log : List Ev) : Prop := ∀ t r, .back t r ∈ log ∨ .done t r ∈ log → r = none

/-- The history of protocol `t` in that of the stack. -/
def localEv (t : Tgt) : Ev → Option LEv
  | .inp _ dst m => if dst = t then some (.inp m) else none
  | .outp t' c => if t' = t then some (.out c) else none
  | .back t' r => if t' = t then some (.back r) else none
  | .done t' r => if t' = t then some (.done r) else none

/-- The code of protocol `t`. -/
def codeOf {σ} (H : Heap) (c : Cfg σ) : Tgt → Msg → σ → Prog σ
  | .obj o => c.layer (H.kind o)
  | _ => c.app

/-- Timers only of the protocols `os` and the application. -/
def Ticks (os : List Nat) (h : List Act) : Prop := ∀ t k, .tick t k ∈ h → t = .app ∨ ∃ o ∈ os, t = .obj o

end Verif.StackRun
