import Verif.Model.Spin
import Verif.Props.RoundTrip
/-! # C102: `Deserialize` comes to an end -/
namespace Verif

theorem scanFrom_stuck (buf : Bytes) : ∀ (f s : Nat), buf.length < s + f →
    (∀ s', scanFrom buf f s = .wait1 s' → buf.length < s' + 8) ∧ (∀ s' q, scanFrom buf f s = .wait2 s' q → buf.length < s' + 16)
  | 0, s, h => by
    refine ⟨fun s' h' => ?_, fun s' q h' => ?_⟩
    · simp only [scanFrom, ScanRes.wait1.injEq] at h'; omega
    · simp [scanFrom] at h'
  | f + 1, s, h => by
    obtain ⟨i1, i2⟩ := scanFrom_stuck buf f (s + 1) (by omega)
    unfold scanFrom
    dsimp only
    split
    · next h8 =>
      refine ⟨fun s' h' => ?_, fun s' q h' => ?_⟩
      · cases h'; exact h8
      · cases h'
    · split
      · next h16 =>
        refine ⟨fun s' h' => ?_, fun s' q h' => ?_⟩
        · cases h'
        · cases h'; exact h16
      · split
        · exact ⟨fun s' h' => (by cases h'), fun s' q h' => (by cases h')⟩
        · exact ⟨i1, i2⟩

theorem scan_stuck (buf : Bytes) (s : Nat) (q : Option Nat) :
    (∀ s', scan buf s q = .wait1 s' → scan buf s' none = .wait1 s') ∧ (∀ s' q', scan buf s q = .wait2 s' q' → scan buf s' (some q') = .wait2 s' q') := by
  have key : (∀ s', scan buf s q = .wait1 s' → buf.length < s' + 8) ∧ (∀ s' q', scan buf s q = .wait2 s' q' → buf.length < s' + 16) := by
    cases q with
    | none => exact scanFrom_stuck buf _ s (by omega)
    | some q1 =>
      unfold scan
      dsimp only
      split
      · next h =>
        refine ⟨fun s' h' => (by cases h'), fun s' q' h' => ?_⟩
        cases h'; exact h
      · split
        · exact ⟨fun s' h' => (by cases h'), fun s' q' h' => (by cases h')⟩
        · exact scanFrom_stuck buf _ (s + 1) (by omega)
  refine ⟨fun s' h => ?_, fun s' q' h => ?_⟩
  · have := key.1 s' h
    simp [scan, scanFrom, this]
  · have := key.2 s' q' h
    simp [scan, this]

/-- A generator that waits waits again at the same place. -/
theorem run_stuck {α} (buf : Bytes) (d : Dec α) : ∀ (pos : Nat) (g : Dec α) (p : Nat), d.run buf pos = (.wait g, p) → g.run buf p = (.wait g, p) := by
  induction d with
  | ret a => intro pos g p h; simp [Dec.run] at h
  | fail e => intro pos g p h; simp [Dec.run] at h
  | read n k ih =>
    intro pos g p h
    unfold Dec.run at h
    split at h
    · next hlt =>
      cases h
      simp [Dec.run, hlt]
    · exact ih _ _ _ _ h
  | tell k ih => intro pos g p h; exact ih _ _ _ _ h
  | skip n k ih => intro pos g p h; exact ih _ _ _ h
  | sync st q k ih =>
    intro pos g p h
    unfold Dec.run at h
    split at h
    · exact ih _ _ _ _ _ h
    · next s' hs =>
      cases h
      simp [Dec.run, (scan_stuck buf st q).1 _ hs]
    · next s' q' hs =>
      cases h
      simp [Dec.run, (scan_stuck buf st q).2 _ _ hs]

theorem loop_stuck {α} (buf : Bytes) (g : Dec α) (p : Nat) (r : Option α) (h : g.run buf p = (.wait g, p)) : ∀ n, (Rog.mk g p r).loop buf n = none
  | 0 => rfl
  | n + 1 => by
    unfold Rog.loop Rog.next
    dsimp only
    rw [h]
    exact loop_stuck buf g p r h n

/-- C102. The loop of `decode` has the result of the decoder in its first turn, or never: no turn of it makes progress. -/
theorem C102_loop {α} (buf : Bytes) (d : Dec α) (pos : Nat) :
    (∀ a p, d.run buf pos = (.done a, p) → ∀ n, (Rog.make d pos).loop buf (n + 1) = some (.ok (some a))) ∧
    (∀ e p, d.run buf pos = (.error e, p) → ∀ n, (Rog.make d pos).loop buf (n + 1) = some (.error e)) ∧
    (∀ g p, d.run buf pos = (.wait g, p) → ∀ n, (Rog.make d pos).loop buf n = none) := by
  refine ⟨fun a p h n => ?_, fun e p h n => ?_, fun g p h n => ?_⟩
  · simp [Rog.loop, Rog.next, Rog.make, h]
  · simp [Rog.loop, Rog.next, Rog.make, h]
  · cases n with
    | zero => rfl
    | succ n =>
      simp only [Rog.loop, Rog.next, Rog.make, h]
      exact loop_stuck buf g p none (run_stuck buf d pos g p h) n

/-- C102. `Deserialize` of the bytes of a packet returns the packet, when the bytes determine it (C01). -/
theorem C102_complete_partial {env : Env} {depth : Nat} {base : Cls} {b : Bytes} {v : Val} (h : Decodes env depth base b v) :
    ∃ m, ∀ n, deserializeFor env depth base b (n + 1) = some (.ok (some (v, m))) := by
  obtain ⟨m, p, h⟩ := h
  exact ⟨m, (C102_loop b _ 0).1 (v, m) p h⟩

/-- C102 is false for every packet that is cut short, anywhere: `Deserialize` does not return, however long one waits. -/
theorem C102_false_truncated {env : Env} (hr : env.Registered) {depth : Nat} {cls : Cls} (p : Val)
    (hp : Sendable env cls p ∧ Decodes env (depth + 1) cls (ser env p) p) (b fut : Bytes) (hb : b ++ fut = ser env p) (hf : fut ≠ []) (n : Nat) :
    deserializeFor env (depth + 1) cls b n = none := by
  have h := C03_no_premature_packet hr p hp [.update b, .next] fut (by simpa [received] using hb) hf
  have hrun : ∃ g q, (decPacket env (depth + 1) cls 0).run b 0 = (.wait g, q) := by
    simp only [runOps, DState.init, DState.update, DState.next, List.nil_append, List.append_nil] at h
    unfold nextLoop at h
    cases hi : DState.iter env (depth + 1) cls ⟨b, 0, freshGen env (depth + 1) cls⟩ with
    | mk ev st' =>
      rw [hi] at h
      cases ev with
      | some ev => simp at h
      | none =>
        unfold DState.iter freshGen at hi
        dsimp only at hi
        split at hi
        · next g q hg => exact ⟨g, q, hg⟩
        · cases hi
        · cases hi
  obtain ⟨g, q, hg⟩ := hrun
  exact (C102_loop b _ 0).2.2 g q hg n

/-- ... and for every string of fewer than 16 bytes, the empty one included. -/
theorem C102_false_short (env : Env) (depth : Nat) (cls : Cls) (b : Bytes) (hb : b.length < 16) (n : Nat) : deserializeFor env (depth + 1) cls b n = none := by
  have hs : (∃ s, scan b 0 none = .wait1 s) ∨ ∃ s q, scan b 0 none = .wait2 s q := by
    unfold scan scanFrom
    dsimp only
    by_cases h8 : b.length < 0 + 8
    · exact .inl ⟨0, by rw [if_pos h8]⟩
    · exact .inr ⟨0, _, by rw [if_neg h8, if_pos (by omega)]⟩
  have : ∃ g q, (decPacket env (depth + 1) cls 0).run b 0 = (.wait g, q) := by
    unfold decPacket
    dsimp only [Dec.run]
    rw [if_neg (by simp)]
    rcases hs with ⟨s, hs⟩ | ⟨s, q, hs⟩
    · simp only [Dec.run, hs]; exact ⟨_, _, rfl⟩
    · simp only [Dec.run, hs]; exact ⟨_, _, rfl⟩
  obtain ⟨g, q, hg⟩ := this
  exact (C102_loop b _ 0).2.2 g q hg n

/-- C102. The same for the objects that are written without a header (C98). -/
theorem C102_bare (env : Env) (depth : Nat) (ds : FDecls) (b : Bytes) :
    (∀ x p, bareDeserialize env depth ds b = (.done x, p) → ∀ n, bareDeserializeFor env depth ds b (n + 1) = some (.ok (some x))) ∧
    (∀ e p, bareDeserialize env depth ds b = (.error e, p) → ∀ n, bareDeserializeFor env depth ds b (n + 1) = some (.error e)) ∧
    (∀ g p, bareDeserialize env depth ds b = (.wait g, p) → ∀ n, bareDeserializeFor env depth ds b n = none) := C102_loop b _ 0

example : ∃ m, ∀ n, deserializeFor Ex.env 1 0 (ser Ex.env Ex.p1) (n + 1) = some (.ok (some (Ex.p1, m))) :=
  C102_complete_partial (C01_roundtrip_flat_partial Ex.registered Ex.p1_sendable (by decide) (by decide))
example : ∀ n, deserializeFor Ex.env 1 0 ((ser Ex.env Ex.p1).take 20) n = none :=
  C102_false_truncated Ex.registered Ex.p1 ⟨Ex.p1_sendable, C01_roundtrip_flat_partial Ex.registered Ex.p1_sendable (by decide) (by decide)⟩ _
    ((ser Ex.env Ex.p1).drop 20) (List.take_append_drop ..) (by decide +kernel)
example : ∀ n, deserializeFor Ex.env 1 0 [] n = none := C102_false_short Ex.env 0 0 [] (by decide)

end Verif
