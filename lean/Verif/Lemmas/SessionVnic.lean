import Verif.Spec.Session
import Verif.Lemmas.VnicOrigin
import Verif.Lemmas.ControlPkt
import Verif.Props.VnicOpen
/-! Lemmas: what a VNIC writes on a control connection. -/
namespace Verif.Session
open Verif.Vnic

/-- The event fits. -/
def vfits : Vnic.Ev → Prop
  | .openSocket _ _ r => fitsReq r
  | .data k _ => fitsKey k
  | _ => True

structure Keys (s : Vnic.St) : Prop where
  address : Link.Text s.address
  spawn : ∀ n, n < s.nSpawn → fitsKey (s.spawn n).key

theorem Keys.same {s s' : Vnic.St} (h : Keys s) (e1 : s'.address = s.address) (e2 : s'.nSpawn = s.nSpawn) (e3 : ∀ n, (s'.spawn n).key = (s.spawn n).key) : Keys s' :=
  ⟨by rw [e1]; exact h.address, fun n hn => by rw [e3]; exact h.spawn n (by rw [← e2]; exact hn)⟩

theorem Keys.quiet {s s' : Vnic.St} (h : Keys s) (hq : Quietly s s') : Keys s' := h.same hq.address hq.nSpawn fun n => (hq.spawn n).2

theorem Keys.add {s s' : Vnic.St} (h : Keys s) {k : Key} (hk : fitsKey k) (e1 : s'.address = s.address) (e2 : s'.nSpawn = s.nSpawn + 1)
    (e3 : ∀ n, (s'.spawn n).key = if n = s.nSpawn then k else (s.spawn n).key) : Keys s' :=
  ⟨by rw [e1]; exact h.address, fun n hn => by
    rw [e3]
    split
    · exact hk
    · exact h.spawn n (by omega)⟩

theorem Keys.open' {s : Vnic.St} (hi : Vnic.Inv [] s) (h : Keys s) (q i : Nat) (r : Req) (hr : fitsReq r) : Keys (openSocket s q i r) := by
  unfold openSocket
  split
  · exact h.same rfl rfl fun _ => rfl
  · cases r with
    | connect dst dport =>
      dsimp only
      unfold openConnect
      split
      · exact h.same rfl rfl fun _ => rfl
      · next x hx =>
        have := nextPort_spec hi.cur hx
        refine h.add (k := ⟨s.address, x, dst, dport⟩) ⟨h.address, by show x < _; omega, hr.1, hr.2⟩ rfl rfl ?_
        intro n
        show (upd s.spawn s.nSpawn _ n).key = _
        unfold upd
        split <;> rfl
    | listen port =>
      dsimp only
      unfold openListen
      split <;> exact h.same rfl rfl fun _ => rfl
    | other => exact h.same rfl rfl fun _ => rfl

theorem Keys.step {s : Vnic.St} (hi : Vnic.Inv [] s) (h : Keys s) (e : Vnic.Ev) (he : vfits e) : Keys (Vnic.step s e) := by
  by_cases ho : ∃ q i r, e = .openSocket q i r
  · obtain ⟨q, i, r, rfl⟩ := ho
    simp only [Vnic.step]
    split
    · exact h.open' hi q i r he
    · exact h
  · cases move s e with
    | quiet _ hq => exact h.quiet hq
    | closed p i r => exact absurd ⟨_, _, _, rfl⟩ ho
    | listens p i q => exact absurd ⟨_, _, _, rfl⟩ ho
    | connects => exact absurd ⟨_, _, _, rfl⟩ ho
    | accepts k d c _ _ hq =>
      refine Keys.quiet ?_ hq
      refine h.add (k := k.inverse) ⟨he.2.2.1, he.2.2.2, he.1, he.2.1⟩ rfl rfl ?_
      intro n
      show (upd s.spawn s.nSpawn _ n).key = _
      unfold upd
      split <;> rfl
    | told n m _ hq _ e1 => rw [e1]; exact (h.quiet hq).same rfl rfl fun _ => rfl

theorem Keys.reachable {a : Str} (ha : Link.Text a) (H : List Vnic.Ev) (hf : ∀ e ∈ H, vfits e) : Keys (Vnic.exec (.init a) H) := by
  induction H using List.reverseRecOn with
  | nil => exact ⟨ha, nofun⟩
  | append_singleton H e ih =>
    rw [Vnic.exec_append]
    exact (ih fun x hx => hf x (by simp [hx])).step (Inv.reachable a H) e (hf e (by simp))

/-- What an open packet leads to. -/
theorem open_answer {s : Vnic.St} (hi : Vnic.Inv [] s) (p i : Nat) (r : Req) (hup : p ∈ s.up) (hr : r ≠ .other) (hf : fitsReq r) :
    ∃ x, (Vnic.step s (.openSocket p i r)).out = s.out ++ [x] ∧ (x = .hang ∨ ∃ y, x = .respond p i y ∧ ∀ q, y = .port q → q < 2 ^ 16 ∧ ∀ q', r = .listen q' → q = q') := by
  simp only [Vnic.step]
  rw [if_pos hup]
  unfold openSocket
  split
  · exact ⟨_, rfl, .inr ⟨_, rfl, (fun _ h => nomatch h)⟩⟩
  · cases r with
    | connect dst dport =>
      dsimp only
      unfold openConnect
      split
      · exact ⟨_, rfl, .inl rfl⟩
      · next x hx =>
        have := nextPort_spec hi.cur hx
        exact ⟨_, rfl, .inr ⟨_, rfl, fun q hq => by cases hq; exact ⟨by omega, (fun _ h => nomatch h)⟩⟩⟩
    | listen port =>
      dsimp only
      unfold openListen
      split
      · exact ⟨_, rfl, .inr ⟨_, rfl, (fun _ h => nomatch h)⟩⟩
      · exact ⟨_, rfl, .inr ⟨_, rfl, fun q hq => by cases hq; exact ⟨hf, fun q' h => by cases h; rfl⟩⟩⟩
    | other => exact absurd rfl hr

theorem respond_origin {a : Str} (H : List Vnic.Ev) (hf : ∀ e ∈ H, vfits e) (p i : Nat) (y : Vnic.Resp) (hm : .respond p i y ∈ (Vnic.exec (.init a) H).out) :
    (∃ r, .openSocket p i r ∈ H ∧ ∀ q, y = .port q → q < 2 ^ 16 ∧ ∀ q', r = .listen q' → q = q') := by
  induction H using List.reverseRecOn with
  | nil => simp [Vnic.exec, Vnic.St.init] at hm
  | append_singleton H e ih =>
    obtain ⟨l, e1, e2⟩ := C35_only a H e
    rw [e1] at hm
    rcases List.mem_append.mp hm with hm | hm
    · obtain ⟨r, h1, h2⟩ := ih (fun x hx => hf x (by simp [hx])) hm
      exact ⟨r, by simp [h1], h2⟩
    · obtain ⟨r, rfl⟩ := e2 _ _ _ hm
      refine ⟨r, by simp, ?_⟩
      have hfr : fitsReq r := hf (.openSocket p i r) (by simp)
      rw [Vnic.exec_append] at e1
      by_cases hup : p ∈ (Vnic.exec (.init a) H).up
      · by_cases hr : r = .other
        · subst hr
          have : (Vnic.step (Vnic.exec (.init a) H) (.openSocket p i .other)).out = _ := e1
          simp only [Vnic.step] at this
          rw [if_pos hup, openSocket] at this
          split at this
          · simp only [St.emit, List.append_cancel_left_eq] at this
            subst this
            simp only [List.mem_singleton, Eff.respond.injEq] at hm
            obtain ⟨_, _, rfl⟩ := hm
            exact (fun _ h => nomatch h)
          · simp only [St.emit, List.append_cancel_left_eq] at this
            subst this
            simp at hm
        · obtain ⟨x, f1, f2⟩ := open_answer (Inv.reachable a H) p i r hup hr hfr
          have : (Vnic.step (Vnic.exec (.init a) H) (.openSocket p i r)).out = _ := e1
          rw [f1, List.append_cancel_left_eq] at this
          subst this
          rw [List.mem_singleton] at hm
          rcases f2 with rfl | ⟨y', rfl, f3⟩
          · cases hm
          · cases hm; exact f3
      · have : (Vnic.step (Vnic.exec (.init a) H) (.openSocket p i r)).out = _ := e1
        simp only [Vnic.step] at this
        rw [if_neg hup] at this
        have : l = [] := by
          have := congrArg List.length this
          simp at this
          exact this
        subst this
        cases hm

/-- The message fits, and its id is one of the first `n`. -/
def Msg.Ok (n : Nat) : Msg → Prop
  | .response i r => (1 ≤ i ∧ i ≤ n) ∧ ∀ q, r = .port q → q < 2 ^ 16
  | .spawned i t k => (1 ≤ i ∧ i ≤ n) ∧ t < 2 ^ 16 ∧ fitsKey k

theorem mem_msgsOf {p : Nat} {tcp : Nat → Nat} {m : Msg} : ∀ {l : List Eff}, m ∈ msgsOf p tcp l →
    (∃ i r, m = .response i r ∧ .respond p i r ∈ l) ∨ ∃ i t k, m = .spawned i (tcp t) k ∧ .announce p i t k ∈ l
  | [], h => nomatch h
  | e :: l, h => by
    have ih := @mem_msgsOf p tcp m l
    have lift : m ∈ msgsOf p tcp l → (∃ i r, m = .response i r ∧ .respond p i r ∈ e :: l) ∨ ∃ i t k, m = .spawned i (tcp t) k ∧ .announce p i t k ∈ e :: l := by
      intro h
      rcases ih h with ⟨i, r, h1, h2⟩ | ⟨i, t, k, h1, h2⟩
      · exact .inl ⟨i, r, h1, List.mem_cons_of_mem _ h2⟩
      · exact .inr ⟨i, t, k, h1, List.mem_cons_of_mem _ h2⟩
    cases e with
    | respond q i r =>
      simp only [msgsOf] at h
      split at h
      · next hq =>
        subst hq
        rcases List.mem_cons.mp h with rfl | h
        · exact .inl ⟨_, _, rfl, by simp⟩
        · exact lift h
      · exact lift h
    | announce q i t k =>
      simp only [msgsOf] at h
      split at h
      · next hq =>
        subst hq
        rcases List.mem_cons.mp h with rfl | h
        · exact .inr ⟨_, _, _, rfl, by simp⟩
        · exact lift h
      · exact lift h
    | _ => exact lift h

theorem msgsOf_respond {p : Nat} {tcp : Nat → Nat} {i : Nat} {r : Vnic.Resp} : ∀ {l : List Eff}, .respond p i r ∈ l → .response i r ∈ msgsOf p tcp l
  | e :: l, h => by
    rcases List.mem_cons.mp h with rfl | h
    · simp [msgsOf]
    · have := @msgsOf_respond p tcp i r l h
      cases e <;> simp only [msgsOf] <;> first | exact this | (split; exact List.mem_cons_of_mem _ this; exact this)

theorem msgsOf_announce {p : Nat} {tcp : Nat → Nat} {i t : Nat} {k : Key} : ∀ {l : List Eff}, .announce p i t k ∈ l → .spawned i (tcp t) k ∈ msgsOf p tcp l
  | e :: l, h => by
    rcases List.mem_cons.mp h with rfl | h
    · simp [msgsOf]
    · have := @msgsOf_announce p tcp i t k l h
      cases e <;> simp only [msgsOf] <;> first | exact this | (split; exact List.mem_cons_of_mem _ this; exact this)

theorem msgsOf_append (p : Nat) (tcp : Nat → Nat) : ∀ a b : List Eff, msgsOf p tcp (a ++ b) = msgsOf p tcp a ++ msgsOf p tcp b
  | [], _ => rfl
  | e :: a, b => by
    have ih := msgsOf_append p tcp a b
    rw [List.cons_append]
    cases e <;> simp only [msgsOf, ih] <;> split <;> rfl

theorem all_msgs {a : Str} (ha : Link.Text a) (H : List Vnic.Ev) (hf : ∀ e ∈ H, vfits e) {p n : Nat} {tcp : Nat → Nat} (ht : ∀ n, tcp n < 2 ^ 16)
    (ho : ∀ i r, .openSocket p i r ∈ H → 1 ≤ i ∧ i ≤ n) : ∀ m ∈ msgsOf p tcp (Vnic.exec (.init a) H).out, m.Ok n := by
  intro m hm
  rcases mem_msgsOf hm with ⟨i, r, rfl, h⟩ | ⟨i, t, k, rfl, h⟩
  · obtain ⟨r', h1, h2⟩ := respond_origin H hf p i r h
    exact ⟨ho _ _ h1, fun q hq => (h2 q hq).1⟩
  · have hor := Origin.reachable a H
    obtain ⟨h1, h2, h3, h4⟩ := hor.told _ _ _ _ h
    obtain ⟨_, r, h5, _⟩ := hor.spawn t h1
    rw [h2, h3] at h5
    refine ⟨ho _ _ h5, ht t, ?_⟩
    rw [← h4]
    exact (Keys.reachable ha H hf).spawn t h1

end Verif.Session
