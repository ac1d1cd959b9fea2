import Verif.Spec.Observe
import Verif.Lemmas.Dict
import Mathlib.Data.List.Induction
/-! # C46: event observers -/
namespace Verif.Obs

theorem exec_append (s : St) (a b : List Ev) : exec s (a ++ b) = exec (exec s a) b := by
  induction a generalizing s with
  | nil => rfl
  | cons e a ih => exact ih _

theorem exec_snoc (s : St) (h : List Ev) (e : Ev) : exec s (h ++ [e]) = step (exec s h) e := exec_append s h [e]

/-! ## The specification, event by event -/

theorem snoc_split {α} {h a b : List α} {e x : α} (heq : h ++ [e] = a ++ x :: b) :
    (b = [] ∧ e = x ∧ h = a) ∨ ∃ b', b = b' ++ [e] ∧ h = a ++ x :: b' := by
  induction b using List.reverseRecOn with
  | nil =>
    have := List.append_inj' heq rfl
    exact Or.inl ⟨rfl, by simpa using this.2, this.1⟩
  | append_singleton b y _ =>
    have h2 : h ++ [e] = (a ++ x :: b) ++ [y] := by rw [heq]; simp
    have := List.append_inj' h2 rfl
    exact Or.inr ⟨b, by rw [show e = y by simpa using this.2], this.1⟩

theorem listens_snoc (h : List Ev) (e : Ev) (p l : Nat) :
    Listens (h ++ [e]) p l ↔ e = .listen p l ∨ (Listens h p l ∧ e ≠ .stop p l ∧ e ≠ .lost p) := by
  constructor
  · rintro ⟨b, a, heq, h1, h2⟩
    rcases snoc_split heq with ⟨rfl, he, rfl⟩ | ⟨a', rfl, rfl⟩
    · exact Or.inl he
    · refine Or.inr ⟨⟨b, a', rfl, fun h => h1 (by simp [h]), fun h => h2 (by simp [h])⟩, ?_, ?_⟩
      · rintro rfl; exact h1 (by simp)
      · rintro rfl; exact h2 (by simp)
  · rintro (rfl | ⟨⟨b, a, rfl, h1, h2⟩, h3, h4⟩)
    · exact ⟨h, [], rfl, by simp, by simp⟩
    · exact ⟨b, a ++ [e], by simp, by simp [h1, h3.symm], by simp [h2, h4.symm]⟩

theorem listens_nil (p l : Nat) : ¬ Listens [] p l := by
  rintro ⟨b, a, h, _⟩; simp at h

theorem attached_snoc (h : List Ev) (e : Ev) (p t : Nat) :
    Attached (h ++ [e]) p t ↔ (e = .made p t ∨ Attached h p t) ∧ ∃ l, Listens (h ++ [e]) p l := by
  constructor
  · rintro ⟨b, a, heq, hl⟩
    constructor
    · rcases snoc_split heq with ⟨rfl, he, rfl⟩ | ⟨a', rfl, rfl⟩
      · exact Or.inl he
      · exact Or.inr ⟨b, a', rfl, fun x y hxy => hl x (y ++ [e]) (by rw [hxy]; simp)⟩
    · rw [heq]; exact hl a [] (by simp)
  · rintro ⟨rfl | ⟨b, a, rfl, hl⟩, l, hm⟩
    · refine ⟨h, [], rfl, fun x y hxy => ?_⟩
      have : x = [] := (List.append_eq_nil_iff.mp hxy.symm).1
      subst this
      exact ⟨l, hm⟩
    · refine ⟨b, a ++ [e], by simp, fun x y hxy => ?_⟩
      induction y using List.reverseRecOn with
      | nil =>
        rw [List.append_nil] at hxy
        subst hxy
        exact ⟨l, by simpa using hm⟩
      | append_singleton y z _ =>
        rw [← List.append_assoc] at hxy
        have := List.append_inj' hxy rfl
        exact hl x y this.1

theorem attached_listens {h : List Ev} {p t : Nat} (ha : Attached h p t) : ∃ l, Listens h p l := by
  obtain ⟨b, a, rfl, hl⟩ := ha
  exact hl a [] (by simp)

theorem mades_append (a b : List Ev) : mades (a ++ b) = mades a ++ mades b := by
  induction a with
  | nil => rfl
  | cons e a ih => cases e <;> simp [mades, ih]

theorem mem_mades {h : List Ev} {p t : Nat} : (p, t) ∈ mades h ↔ Ev.made p t ∈ h := by
  induction h with
  | nil => simp [mades]
  | cons e h ih => cases e <;> simp [mades, ih]

theorem attached_made {h : List Ev} {p t : Nat} (ha : Attached h p t) : Ev.made p t ∈ h := by
  obtain ⟨b, a, rfl, _⟩ := ha; simp

/-! ## The method slots -/

/-- The invariant for one protocol. -/
def At (h : List Ev) (s : St) (p : Nat) : Prop := match s.observed.get p with
  | none => s.method p = .base p ∧ ∀ l, ¬ Listens h p l
  | some a => a < s.nAd ∧ (s.ad a).protocol = p ∧ (s.ad a).origM = some (.base p) ∧ s.method p = .wrap a ∧
      (s.ad a).listeners.Nodup ∧ (∀ l, l ∈ (s.ad a).listeners ↔ Listens h p l) ∧ (s.ad a).listeners ≠ []

theorem At.none {h : List Ev} {s : St} {p : Nat} (hi : At h s p) (ho : s.observed.get p = .none) :
    s.method p = .base p ∧ ∀ l, ¬ Listens h p l := by unfold At at hi; rw [ho] at hi; exact hi

theorem At.some {h : List Ev} {s : St} {p a : Nat} (hi : At h s p) (ho : s.observed.get p = .some a) :
    a < s.nAd ∧ (s.ad a).protocol = p ∧ (s.ad a).origM = .some (.base p) ∧ s.method p = .wrap a ∧
      (s.ad a).listeners.Nodup ∧ (∀ l, l ∈ (s.ad a).listeners ↔ Listens h p l) ∧ (s.ad a).listeners ≠ [] := by
  unfold At at hi; rw [ho] at hi; exact hi

theorem At.mk_none {h : List Ev} {s : St} {p : Nat} (ho : s.observed.get p = .none) (h1 : s.method p = .base p)
    (h2 : ∀ l, ¬ Listens h p l) : At h s p := by unfold At; rw [ho]; exact ⟨h1, h2⟩

theorem At.mk_some {h : List Ev} {s : St} {p a : Nat} (ho : s.observed.get p = .some a) (hh : a < s.nAd ∧ (s.ad a).protocol = p ∧
    (s.ad a).origM = .some (.base p) ∧ s.method p = .wrap a ∧
      (s.ad a).listeners.Nodup ∧ (∀ l, l ∈ (s.ad a).listeners ↔ Listens h p l) ∧ (s.ad a).listeners ≠ []) : At h s p := by
  unfold At; rw [ho]; exact hh

structure Inv (h : List Ev) (s : St) : Prop where
  wf : s.observed.WF
  pr : ∀ p, At h s p

theorem Inv.inj {h : List Ev} {s : St} (hi : Inv h s) {p q a : Nat} (hp : s.observed.get p = some a) (hq : s.observed.get q = some a) :
    p = q := by
  rw [← ((hi.pr p).some hp).2.1, ← ((hi.pr q).some hq).2.1]

/-- A protocol that an event does not concern. -/
theorem At.frame {h h' : List Ev} {s s' : St} {q : Nat} (hi : At h s q) (ho : s'.observed.get q = s.observed.get q)
    (hm : s'.method q = s.method q) (ha : ∀ b, s.observed.get q = .some b → (s'.ad b).protocol = (s.ad b).protocol ∧
      (s'.ad b).origM = (s.ad b).origM ∧ (s'.ad b).listeners = (s.ad b).listeners) (hn : s.nAd ≤ s'.nAd)
    (hl : ∀ l, Listens h' q l ↔ Listens h q l) : At h' s' q := by
  cases hq : s.observed.get q with
  | none =>
    obtain ⟨h1, h2⟩ := hi.none hq
    exact At.mk_none (by rw [ho, hq]) (by rw [hm, h1]) (fun l hh => h2 l ((hl l).mp hh))
  | some b =>
    obtain ⟨h1, h2, h3, h4, h5, h6, h7⟩ := hi.some hq
    obtain ⟨a1, a2, a3⟩ := ha b hq
    exact At.mk_some (by rw [ho, hq]) ⟨by omega, by rw [a1, h2], by rw [a2, h3], by rw [hm, h4], by rw [a3]; exact h5,
      fun l => by rw [a3, h6, hl], by rw [a3]; exact h7⟩

/-- Only the output differs. -/
theorem At.same {h h' : List Ev} {s s' : St} {q : Nat} (hi : At h s q) (e1 : s'.observed = s.observed) (e2 : s'.method = s.method)
    (e3 : s'.ad = s.ad) (e4 : s'.nAd = s.nAd) (hl : ∀ l, Listens h' q l ↔ Listens h q l) : At h' s' q :=
  hi.frame (by rw [e1]) (by rw [e2]) (fun b _ => by rw [e3]; exact ⟨rfl, rfl, rfl⟩) (by omega) hl

/-- What the calls of a method of `p` do. -/
def called (s : St) (p : Nat) (k : Kind) : St := match s.observed.get p with
  | none => { s with out := s.out ++ [.orig p k] }
  | some a => finish { s with out := s.out ++ .orig p k :: (s.ad a).listeners.map fun l => .notify l p k } a p k

theorem callMethod_eq {h : List Ev} {s : St} (hi : Inv h s) (p : Nat) (k : Kind) :
    callMethod p k (s.nAd + 1) (s.method p) s = (called s p k, true) := by
  unfold called
  cases ho : s.observed.get p with
  | none =>
    rw [((hi.pr p).none ho).1]
    rfl
  | some a =>
    obtain ⟨h1, h2, h3, h4, _⟩ := (hi.pr p).some ho
    rw [h4]
    obtain ⟨n, hn⟩ : ∃ n, s.nAd = n + 1 := ⟨s.nAd - 1, by omega⟩
    rw [hn, callMethod, h3]
    show ((report (s.emit (.orig p k)) (s.ad a).protocol k), true) = _
    rw [h2]
    unfold report
    rw [show (s.emit (.orig p k)).observed.get p = some a from ho]
    simp [St.emit]
    rw [← hn]

theorem report_sent (s : St) (p : Nat) (d : Bytes) : ∃ o, report s p (.sent d) = { s with out := o } := by
  unfold report
  split
  · exact ⟨s.out, rfl⟩
  · exact ⟨_, rfl⟩

theorem callWrite_frame (d : Bytes) : ∀ (n : Nat) (sl : Slot) (s : St), ∃ o, (callWrite d n sl s).1 = { s with out := o }
  | 0, _, s => ⟨_, rfl⟩
  | _ + 1, .base t, s => ⟨_, rfl⟩
  | n + 1, .wrap a, s => by
    rw [callWrite]
    split
    · exact ⟨_, rfl⟩
    · next m _ =>
      obtain ⟨o, ho⟩ := callWrite_frame d n m s
      split
      · next s1 he =>
        rw [he] at ho
        dsimp only at ho
        subst ho
        obtain ⟨o2, ho2⟩ := report_sent { s with out := o } (s.ad a).protocol d
        exact ⟨o2, ho2⟩
      · next s1 he =>
        rw [he] at ho
        exact ⟨o, ho⟩

theorem upd_self {α} (f : Nat → α) (i : Nat) (x : α) : upd f i x i = x := by simp [upd]
theorem upd_ne {α} (f : Nat → α) {i j : Nat} (x : α) (h : j ≠ i) : upd f i x j = f j := by simp [upd, h]

theorem addTo_nodup {l : List Nat} (h : l.Nodup) (x : Nat) : (addTo l x).Nodup := by
  unfold addTo; split
  · exact h
  · next hx => rw [List.nodup_append]; exact ⟨h, by simp, by rintro a ha b hb rfl; exact hx (by simpa [List.mem_singleton.mp hb] using ha)⟩

theorem mem_addTo {l : List Nat} {x y : Nat} : y ∈ addTo l x ↔ y = x ∨ y ∈ l := by
  unfold addTo; split
  · next hx => exact ⟨Or.inr, by rintro (rfl | h) <;> assumption⟩
  · simp [or_comm]

theorem restore_at {h : List Ev} {s : St} (hi : Inv h s) {p a : Nat} (ho : s.observed.get p = some a) (f : List Nat) {h' : List Ev}
    (o : List Eff) (hp : ∀ l, ¬ Listens h' p l) (hq : ∀ q l, q ≠ p → (Listens h' q l ↔ Listens h q l)) :
    Inv h' (restore { s with ad := upd s.ad a { s.ad a with listeners := f }, out := o } a p) := by
  obtain ⟨h1, h2, h3, h4, _⟩ := (hi.pr p).some ho
  have hm : (restore { s with ad := upd s.ad a { s.ad a with listeners := f }, out := o } a p).method = upd s.method p (.base p) := by
    show restoreMethod _ a p = _
    unfold restoreMethod
    simp only [upd_self, h3]
  refine ⟨hi.wf.del p, fun q => ?_⟩
  by_cases e : q = p
  · subst e
    refine At.mk_none ?_ ?_ hp
    · show (s.observed.del q).get q = none
      rw [Dict.get_del hi.wf, if_pos rfl]
    · rw [hm, upd_self]
  · refine (hi.pr q).frame ?_ ?_ ?_ (Nat.le_refl _) (fun l => hq q l e)
    · show (s.observed.del p).get q = _
      rw [Dict.get_del hi.wf, if_neg (Ne.symm e)]
    · rw [hm, upd_ne _ _ e]
    · intro b hb
      have hba : b ≠ a := fun hh => e (hi.inj hb (hh ▸ ho))
      show ((upd (upd s.ad a _) a _) b).protocol = _ ∧ ((upd (upd s.ad a _) a _) b).origM = _ ∧ ((upd (upd s.ad a _) a _) b).listeners = _
      rw [upd_ne _ _ hba, upd_ne _ _ hba]
      exact ⟨rfl, rfl, rfl⟩

theorem Inv.init : Inv [] .init := ⟨Dict.WF.nil, fun p => At.mk_none rfl rfl (listens_nil p)⟩

theorem Inv.step {h : List Ev} {s : St} (hi : Inv h s) (e : Ev) : Inv (h ++ [e]) (step s e) := by
  cases e with
  | listen p l =>
    have hq : ∀ q k, q ≠ p → (Listens (h ++ [.listen p l]) q k ↔ Listens h q k) := by
      intro q k hne
      rw [listens_snoc]; simp [Ne.symm hne]
    have hp : ∀ k, Listens (h ++ [.listen p l]) p k ↔ k = l ∨ Listens h p k := by
      intro k; rw [listens_snoc]; simp [eq_comm]
    show Inv _ (listen s p l)
    unfold listen
    cases ho : s.observed.get p with
    | none =>
      dsimp only
      obtain ⟨h1, h2⟩ := (hi.pr p).none ho
      refine ⟨hi.wf.set _ _, fun q => ?_⟩
      by_cases e : q = p
      · subst e
        refine At.mk_some (a := s.nAd) (Dict.get_set_self _ _ _) ⟨Nat.lt_succ_self _, ?_, ?_, ?_, ?_, ?_, ?_⟩
        · simp [addListener, enable, upd_self]
        · simp [addListener, enable, upd_self, h1]
        · show upd s.method q (.wrap s.nAd) q = _
          rw [upd_self]
        · simp only [addListener, enable, upd_self]; exact addTo_nodup List.nodup_nil _
        · intro k
          simp only [addListener, enable, upd_self]
          rw [mem_addTo, hp]
          simp [h2 k]
        · simp [addListener, enable, upd_self, addTo]
      · refine (hi.pr q).frame (Dict.get_set_ne _ _ (Ne.symm e)) (upd_ne _ _ e) ?_ (Nat.le_succ _) (fun k => hq q k e)
        intro b hb
        have : b ≠ s.nAd := by have := ((hi.pr q).some hb).1; omega
        simp only [addListener, enable, upd_ne _ _ this]
        exact ⟨trivial, trivial, trivial⟩
    | some a =>
      dsimp only
      obtain ⟨h1, h2, h3, h4, h5, h6, h7⟩ := (hi.pr p).some ho
      refine ⟨hi.wf, fun q => ?_⟩
      by_cases e : q = p
      · subst e
        refine At.mk_some (a := a) ho ⟨h1, ?_, ?_, h4, ?_, ?_, ?_⟩
        · simp [addListener, upd_self, h2]
        · simp [addListener, upd_self, h3]
        · simp only [addListener, upd_self]; exact addTo_nodup h5 _
        · intro k
          simp only [addListener, upd_self]
          rw [mem_addTo, hp, h6]
        · simp only [addListener, upd_self, addTo]
          split
          · exact h7
          · simp
      · refine (hi.pr q).frame rfl rfl ?_ (Nat.le_refl _) (fun k => hq q k e)
        intro b hb
        have : b ≠ a := fun hh => e (hi.inj hb (hh ▸ ho))
        simp only [addListener, upd_ne _ _ this]
        exact ⟨trivial, trivial, trivial⟩
  | stop p l =>
    have hq : ∀ q k, q ≠ p → (Listens (h ++ [.stop p l]) q k ↔ Listens h q k) := by
      intro q k hne
      rw [listens_snoc]; simp [Ne.symm hne]
    have hp : ∀ k, Listens (h ++ [.stop p l]) p k ↔ k ≠ l ∧ Listens h p k := by
      intro k; rw [listens_snoc]; simp [eq_comm, and_comm]
    show Inv _ (stop s p l)
    unfold stop
    cases ho : s.observed.get p with
    | none =>
      dsimp only
      obtain ⟨h1, h2⟩ := (hi.pr p).none ho
      refine ⟨hi.wf, fun q => ?_⟩
      refine (hi.pr q).same rfl rfl rfl rfl (fun k => ?_)
      by_cases e : q = p
      · subst e; rw [hp]; simp [h2 k]
      · exact hq q k e
    | some a =>
      dsimp only
      obtain ⟨h1, h2, h3, h4, h5, h6, h7⟩ := (hi.pr p).some ho
      have hmem : ∀ k, k ∈ (s.ad a).listeners.erase l ↔ k ≠ l ∧ Listens h p k := by
        intro k; rw [h5.mem_erase_iff, h6]
      split
      · split
        · next hnil =>
          refine restore_at hi ho _ s.out (fun k hk => ?_) hq
          have := (hmem k).mpr ((hp k).mp hk)
          rw [hnil] at this
          simp at this
        · next hne =>
          refine ⟨hi.wf, fun q => ?_⟩
          by_cases e : q = p
          · subst e
            refine At.mk_some (a := a) ho ⟨h1, ?_, ?_, h4, ?_, ?_, ?_⟩
            · simp [upd_self, h2]
            · simp [upd_self, h3]
            · simp only [upd_self]; exact h5.erase _
            · intro k
              simp only [upd_self]
              rw [hmem, hp]
            · simp only [upd_self]; exact hne
          · refine (hi.pr q).frame rfl rfl ?_ (Nat.le_refl _) (fun k => hq q k e)
            intro b hb
            have : b ≠ a := fun hh => e (hi.inj hb (hh ▸ ho))
            simp only [upd_ne _ _ this]
            exact ⟨trivial, trivial, trivial⟩
      · next hnot =>
        refine ⟨hi.wf, fun q => ?_⟩
        refine (hi.pr q).same rfl rfl rfl rfl (fun k => ?_)
        by_cases e : q = p
        · subst e; rw [hp]
          refine ⟨And.right, fun hk => ⟨?_, hk⟩⟩
          rintro rfl
          exact hnot ((h6 _).mpr hk)
        · exact hq q k e
  | made p t =>
    have hl : ∀ q k, Listens (h ++ [.made p t]) q k ↔ Listens h q k := by
      intro q k; rw [listens_snoc]; simp
    simp only [Obs.step]
    rw [callMethod_eq hi]
    show Inv _ (called s p (.made t))
    unfold called
    cases ho : s.observed.get p with
    | none => exact ⟨hi.wf, fun q => (hi.pr q).same rfl rfl rfl rfl (hl q)⟩
    | some a =>
      refine ⟨hi.wf, fun q => (hi.pr q).frame rfl rfl ?_ (Nat.le_refl _) (hl q)⟩
      intro b hb
      show ((upd s.ad a _) b).protocol = _ ∧ ((upd s.ad a _) b).origM = _ ∧ ((upd s.ad a _) b).listeners = _
      by_cases e : b = a
      · subst e; rw [upd_self]; exact ⟨rfl, rfl, rfl⟩
      · rw [upd_ne _ _ e]; exact ⟨rfl, rfl, rfl⟩
  | lost p =>
    have hq : ∀ q k, q ≠ p → (Listens (h ++ [.lost p]) q k ↔ Listens h q k) := by
      intro q k hne; rw [listens_snoc]; simp [Ne.symm hne]
    have hp : ∀ k, ¬ Listens (h ++ [.lost p]) p k := by
      intro k; rw [listens_snoc]; simp
    simp only [Obs.step]
    rw [callMethod_eq hi]
    show Inv _ (called s p .lost)
    unfold called
    cases ho : s.observed.get p with
    | none =>
      refine ⟨hi.wf, fun q => (hi.pr q).same rfl rfl rfl rfl (fun k => ?_)⟩
      by_cases e : q = p
      · subst e
        exact ⟨fun hh => absurd hh (hp k), fun hh => absurd hh (((hi.pr q).none ho).2 k)⟩
      · exact hq q k e
    | some a =>
      have := restore_at hi ho (s.ad a).listeners (s.out ++ .orig p .lost :: (s.ad a).listeners.map fun l => .notify l p .lost) hp hq
      rw [show upd s.ad a { s.ad a with listeners := (s.ad a).listeners } = s.ad from by
        funext j; unfold upd; split
        · next hj => rw [hj]
        · rfl] at this
      exact this
  | data p d =>
    have hl : ∀ q k, Listens (h ++ [.data p d]) q k ↔ Listens h q k := by
      intro q k; rw [listens_snoc]; simp
    simp only [Obs.step]
    rw [callMethod_eq hi]
    show Inv _ (called s p (.data d))
    unfold called
    cases ho : s.observed.get p with
    | none => exact ⟨hi.wf, fun q => (hi.pr q).same rfl rfl rfl rfl (hl q)⟩
    | some a => exact ⟨hi.wf, fun q => (hi.pr q).same rfl rfl rfl rfl (hl q)⟩
  | write t d =>
    have hl : ∀ q k, Listens (h ++ [.write t d]) q k ↔ Listens h q k := by
      intro q k; rw [listens_snoc]; simp
    simp only [Obs.step]
    obtain ⟨o, hw⟩ := callWrite_frame d (s.nAd + 1) (s.write t) s
    rw [hw]
    exact ⟨hi.wf, fun q => (hi.pr q).same rfl rfl rfl rfl (hl q)⟩

theorem Inv.reachable (h : List Ev) : Inv h (exec .init h) := by
  induction h using List.reverseRecOn with
  | nil => exact Inv.init
  | append_singleton h e ih => rw [exec_snoc]; exact ih.step e

/-- C46. In every history: a call of a method of a protocol runs the protocol's own method once, and then every listener that was
registered for the protocol and not removed since is told once, and nobody else. -/
theorem C46_methods (h : List Ev) (e : Ev) (p : Nat) (k : Kind) (he : e.method = some (p, k)) :
    ∃ es, (exec .init (h ++ [e])).out = (exec .init h).out ++ .orig p k :: es ∧ es.Nodup ∧
      ∀ x, x ∈ es ↔ ∃ l, x = .notify l p k ∧ Listens h p l := by
  have hi := Inv.reachable h
  rw [exec_snoc]
  generalize exec .init h = s at *
  have hs : step s e = called s p k := by
    cases e <;> simp [Ev.method] at he
    all_goals
      obtain ⟨rfl, rfl⟩ := he
      simp only [step]
      rw [callMethod_eq hi]
  rw [hs]
  unfold called
  cases ho : s.observed.get p with
  | none =>
    refine ⟨[], rfl, List.nodup_nil, fun x => ⟨fun h => by simp at h, ?_⟩⟩
    rintro ⟨l, _, hl⟩
    exact absurd hl (((hi.pr p).none ho).2 l)
  | some a =>
    obtain ⟨h1, h2, h3, h4, h5, h6, h7⟩ := (hi.pr p).some ho
    refine ⟨(s.ad a).listeners.map fun l => .notify l p k, ?_, ?_, fun x => ?_⟩
    · cases k <;> rfl
    · refine List.Pairwise.map _ ?_ h5
      intro x y hxy h; cases h; exact hxy rfl
    · simp only [List.mem_map, h6]
      constructor
      · rintro ⟨l, hl, rfl⟩; exact ⟨l, rfl, hl⟩
      · rintro ⟨l, rfl, hl⟩; exact ⟨l, hl, rfl⟩

/-! ## Sent data -/

/-- The invariant of the transports. -/
structure WInv (h : List Ev) (s : St) : Prop where
  tr : ∀ p a, s.observed.get p = some a → ∀ t, (s.ad a).transport = some t ↔ Attached h p t
  wr : ∀ p a t, s.observed.get p = some a → (s.ad a).transport = some t → (s.ad a).origWrite = some (.base t) ∧ s.write t = .wrap a
  free : ∀ t, (∀ p, ¬ Attached h p t) → s.write t = .base t

theorem attached_observed {h : List Ev} {s : St} (hi : Inv h s) {p t : Nat} (ha : Attached h p t) : ∃ a, s.observed.get p = some a := by
  cases ho : s.observed.get p with
  | none => obtain ⟨l, hl⟩ := attached_listens ha; exact absurd hl (((hi.pr p).none ho).2 l)
  | some a => exact ⟨a, rfl⟩

theorem nodup_key {α β} {l : List (α × β)} (h : (l.map (·.1)).Nodup) {a : α} {b b' : β} (h1 : (a, b) ∈ l) (h2 : (a, b') ∈ l) : b = b' := by
  induction l with
  | nil => simp at h1
  | cons x l ih =>
    simp only [List.map_cons, List.nodup_cons] at h
    rcases List.mem_cons.mp h1 with rfl | g1
    · rcases List.mem_cons.mp h2 with h2 | h2
      · cases h2; rfl
      · exact absurd (List.mem_map.mpr ⟨_, h2, rfl⟩) h.1
    · rcases List.mem_cons.mp h2 with rfl | g2
      · exact absurd (List.mem_map.mpr ⟨_, g1, rfl⟩) h.1
      · exact ih h.2 g1 g2

theorem nodup_val {α β} {l : List (α × β)} (h : (l.map (·.2)).Nodup) {a a' : α} {b : β} (h1 : (a, b) ∈ l) (h2 : (a', b) ∈ l) : a = a' := by
  induction l with
  | nil => simp at h1
  | cons x l ih =>
    simp only [List.map_cons, List.nodup_cons] at h
    rcases List.mem_cons.mp h1 with rfl | g1
    · rcases List.mem_cons.mp h2 with h2 | h2
      · cases h2; rfl
      · exact absurd (List.mem_map.mpr ⟨_, h2, rfl⟩) h.1
    · rcases List.mem_cons.mp h2 with rfl | g2
      · exact absurd (List.mem_map.mpr ⟨_, g1, rfl⟩) h.1
      · exact ih h.2 g1 g2

theorem OneToOne.prefix {h : List Ev} {e : Ev} (hh : OneToOne (h ++ [e])) : OneToOne h := by
  unfold OneToOne at *
  rw [mades_append, List.map_append, List.map_append, List.nodup_append, List.nodup_append] at hh
  exact ⟨hh.1.1, hh.2.1⟩

/-- The transports are not concerned. -/
theorem WInv.same {h : List Ev} {s s' : St} (hi : WInv h s) {e : Ev} (e1 : ∀ p, s'.observed.get p = s.observed.get p)
    (e2 : ∀ p a, s.observed.get p = some a → (s'.ad a).transport = (s.ad a).transport ∧ (s'.ad a).origWrite = (s.ad a).origWrite)
    (e3 : s'.write = s.write) (hm : ∀ p t, Attached (h ++ [e]) p t ↔ Attached h p t) : WInv (h ++ [e]) s' := by
  refine ⟨fun p a ho t => ?_, fun p a t ho ht => ?_, fun t hf => ?_⟩
  · rw [e1] at ho
    rw [(e2 p a ho).1, hm]
    exact hi.tr p a ho t
  · rw [e1] at ho
    rw [(e2 p a ho).1] at ht
    rw [(e2 p a ho).2, e3]
    exact hi.wr p a t ho ht
  · rw [e3]
    exact hi.free t fun p hp => hf p ((hm p t).mpr hp)

theorem WInv.restore {h : List Ev} {s : St} (hv : Inv h s) (hi : WInv h s) {p a : Nat} (ho : s.observed.get p = some a) (f : List Nat)
    (o : List Eff) {e : Ev} (hp : ∀ t, ¬ Attached (h ++ [e]) p t) (hq : ∀ q t, q ≠ p → (Attached (h ++ [e]) q t ↔ Attached h q t)) :
    WInv (h ++ [e]) (restore { s with ad := upd s.ad a { s.ad a with listeners := f }, out := o } a p) := by
  generalize hs' : Obs.restore { s with ad := upd s.ad a { s.ad a with listeners := f }, out := o } a p = s'
  have hobs : ∀ q, s'.observed.get q = if p = q then none else s.observed.get q := by
    intro q; rw [← hs']
    show (s.observed.del p).get q = _
    rw [Dict.get_del hv.wf]
  have had : ∀ b, b ≠ a → s'.ad b = s.ad b := by
    intro b hb; rw [← hs']
    show (upd (upd s.ad a _) a _) b = _
    rw [upd_ne _ _ hb, upd_ne _ _ hb]
  have hwr : ∀ t, s'.write t = if (s.ad a).transport = some t then .base t else s.write t := by
    intro t
    rw [← hs']
    show restoreWrite _ a t = _
    unfold restoreWrite
    simp only [upd_self]
    cases ht : (s.ad a).transport with
    | none => simp
    | some t0 =>
      rw [(hi.wr p a t0 ho ht).1]
      simp only [upd]
      by_cases e : t = t0
      · subst e; simp
      · rw [if_neg e, if_neg (by simpa using Ne.symm e)]
  refine ⟨fun q b hb t => ?_, fun q b t hb ht => ?_, fun t hf => ?_⟩
  · rw [hobs] at hb
    split at hb
    · cases hb
    · next hne =>
      have hba : b ≠ a := fun hh => hne (hv.inj ho (hh ▸ hb))
      rw [had b hba, hq q t (Ne.symm hne)]
      exact hi.tr q b hb t
  · rw [hobs] at hb
    split at hb
    · cases hb
    · next hne =>
      have hba : b ≠ a := fun hh => hne (hv.inj ho (hh ▸ hb))
      rw [had b hba] at ht ⊢
      obtain ⟨w1, w2⟩ := hi.wr q b t hb ht
      refine ⟨w1, ?_⟩
      rw [hwr, if_neg]
      · exact w2
      · intro h'
        rw [(hi.wr p a t ho h').2] at w2
        cases w2
        exact hba rfl
  · rw [hwr]
    split
    · rfl
    · next hne =>
      apply hi.free t
      intro q hat
      by_cases e : q = p
      · subst e
        exact hne ((hi.tr q a ho t).mpr hat)
      · exact hf q ((hq q t e).mpr hat)

theorem WInv.init : WInv [] .init :=
  ⟨fun p a ho => by simp [St.init] at ho, fun p a t ho => by simp [St.init] at ho, fun t _ => rfl⟩

theorem WInv.step {h : List Ev} {s : St} (hv : Inv h s) (hi : WInv h s) (e : Ev) (ho1 : OneToOne (h ++ [e])) :
    WInv (h ++ [e]) (step s e) := by
  cases e with
  | listen p l =>
    have hat : ∀ q t, Attached (h ++ [.listen p l]) q t ↔ Attached h q t := by
      intro q t
      rw [attached_snoc]
      constructor
      · rintro ⟨h1 | h1, _⟩
        · cases h1
        · exact h1
      · intro h1
        obtain ⟨k, hk⟩ := attached_listens h1
        exact ⟨Or.inr h1, k, (listens_snoc _ _ _ _).mpr (Or.inr ⟨hk, Ev.noConfusion, Ev.noConfusion⟩)⟩
    show WInv _ (listen s p l)
    unfold listen
    cases ho : s.observed.get p with
    | none =>
      dsimp only
      have hna : ∀ t, ¬ Attached h p t := by
        intro t ht
        obtain ⟨a, ha⟩ := attached_observed hv ht
        rw [ho] at ha; cases ha
      have hobs : ∀ q b, (addListener (enable s p) s.nAd l).observed.get q = some b →
          (q = p ∧ b = s.nAd) ∨ (q ≠ p ∧ s.observed.get q = some b) := by
        intro q b hb
        by_cases e : q = p
        · subst e
          rw [show (addListener (enable s q) s.nAd l).observed.get q = some s.nAd from Dict.get_set_self _ _ _] at hb
          cases hb; exact Or.inl ⟨rfl, rfl⟩
        · rw [show (addListener (enable s p) s.nAd l).observed.get q = s.observed.get q from Dict.get_set_ne _ _ (Ne.symm e)] at hb
          exact Or.inr ⟨e, hb⟩
      refine ⟨fun q b hb t => ?_, fun q b t hb ht => ?_, fun t hf => ?_⟩
      · rw [hat]
        rcases hobs q b hb with ⟨rfl, rfl⟩ | ⟨e, hb⟩
        · simp only [addListener, enable, upd_self]
          exact ⟨fun h => by simp at h, fun h => absurd h (hna t)⟩
        · have : b ≠ s.nAd := by have := ((hv.pr q).some hb).1; omega
          simp only [addListener, enable, upd_ne _ _ this]
          exact hi.tr q b hb t
      · rcases hobs q b hb with ⟨rfl, rfl⟩ | ⟨e, hb⟩
        · simp only [addListener, enable, upd_self] at ht
          simp at ht
        · have : b ≠ s.nAd := by have := ((hv.pr q).some hb).1; omega
          simp only [addListener, enable, upd_ne _ _ this] at ht ⊢
          exact hi.wr q b t hb ht
      · exact hi.free t fun q hq => hf q ((hat q t).mpr hq)
    | some a =>
      refine hi.same (fun _ => rfl) (fun q b hb => ?_) rfl hat
      simp only [addListener]
      by_cases e : b = a
      · subst e; rw [upd_self]; exact ⟨rfl, rfl⟩
      · rw [upd_ne _ _ e]; exact ⟨rfl, rfl⟩
  | stop p l =>
    have hq : ∀ q t, q ≠ p → (Attached (h ++ [.stop p l]) q t ↔ Attached h q t) := by
      intro q t hne
      rw [attached_snoc]
      constructor
      · rintro ⟨h1 | h1, _⟩
        · cases h1
        · exact h1
      · intro h1
        obtain ⟨k, hk⟩ := attached_listens h1
        exact ⟨Or.inr h1, k, (listens_snoc _ _ _ _).mpr (Or.inr ⟨hk, by simp [Ne.symm hne], Ev.noConfusion⟩)⟩
    have hpk : ∀ k, Listens (h ++ [.stop p l]) p k ↔ k ≠ l ∧ Listens h p k := by
      intro k; rw [listens_snoc]; simp [eq_comm, and_comm]
    have hp : ∀ t, Attached (h ++ [.stop p l]) p t ↔ Attached h p t ∧ ∃ k, k ≠ l ∧ Listens h p k := by
      intro t
      rw [attached_snoc]
      simp only [hpk]
      simp
    show WInv _ (stop s p l)
    unfold stop
    cases ho : s.observed.get p with
    | none =>
      refine hi.same (fun _ => rfl) (fun _ _ _ => ⟨rfl, rfl⟩) rfl (fun q t => ?_)
      by_cases e : q = p
      · subst e
        rw [hp]
        constructor
        · exact And.left
        · intro ht
          obtain ⟨a, ha⟩ := attached_observed hv ht
          rw [ho] at ha; cases ha
      · exact hq q t e
    | some a =>
      dsimp only
      obtain ⟨h1, h2, h3, h4, h5, h6, h7⟩ := (hv.pr p).some ho
      have hmem : ∀ k, k ∈ (s.ad a).listeners.erase l ↔ k ≠ l ∧ Listens h p k := by
        intro k; rw [h5.mem_erase_iff, h6]
      split
      · split
        · next hnil =>
          refine WInv.restore hv hi ho _ s.out (fun t ht => ?_) hq
          obtain ⟨_, k, hk⟩ := (hp t).mp ht
          have := (hmem k).mpr hk
          rw [hnil] at this; simp at this
        · next hne =>
          refine hi.same (fun _ => rfl) (fun q b hb => ?_) rfl (fun q t => ?_)
          · by_cases e : b = a
            · subst e; simp only [upd_self]; exact ⟨trivial, trivial⟩
            · simp only [upd_ne _ _ e]; exact ⟨trivial, trivial⟩
          · by_cases e : q = p
            · subst e
              rw [hp]
              refine ⟨And.left, fun ht => ⟨ht, ?_⟩⟩
              obtain ⟨k, hk⟩ := List.exists_mem_of_ne_nil _ hne
              exact ⟨k, (hmem k).mp hk⟩
            · exact hq q t e
      · next hnot =>
        refine hi.same (fun _ => rfl) (fun _ _ _ => ⟨rfl, rfl⟩) rfl (fun q t => ?_)
        by_cases e : q = p
        · subst e
          rw [hp]
          refine ⟨And.left, fun ht => ⟨ht, ?_⟩⟩
          obtain ⟨k, hk⟩ := attached_listens ht
          refine ⟨k, ?_, hk⟩
          rintro rfl
          exact hnot ((h6 _).mpr hk)
        · exact hq q t e
  | made p t =>
    have hl : ∀ q k, Listens (h ++ [.made p t]) q k ↔ Listens h q k := by
      intro q k; rw [listens_snoc]; simp
    have hat : ∀ q t', Attached (h ++ [.made p t]) q t' ↔ (q = p ∧ t' = t ∧ ∃ l, Listens h p l) ∨ Attached h q t' := by
      intro q t'
      rw [attached_snoc]
      simp only [hl]
      constructor
      · rintro ⟨h1 | h1, hk⟩
        · cases h1; exact Or.inl ⟨rfl, rfl, hk⟩
        · exact Or.inr h1
      · rintro (⟨rfl, rfl, hk⟩ | h1)
        · exact ⟨Or.inl rfl, hk⟩
        · exact ⟨Or.inr h1, attached_listens h1⟩
    have hnp : ∀ t', ¬ Attached h p t' := by
      intro t' ha
      have := mem_mades.mpr (attached_made ha)
      have hn := ho1.1
      rw [mades_append, List.map_append, List.nodup_append] at hn
      exact hn.2.2 p (List.mem_map.mpr ⟨_, this, rfl⟩) p (by simp [mades]) rfl
    have hnt : ∀ q, ¬ Attached h q t := by
      intro q ha
      have := mem_mades.mpr (attached_made ha)
      have hn := ho1.2
      rw [mades_append, List.map_append, List.nodup_append] at hn
      exact hn.2.2 t (List.mem_map.mpr ⟨_, this, rfl⟩) t (by simp [mades]) rfl
    simp only [Obs.step]
    rw [callMethod_eq hv]
    show WInv _ (called s p (.made t))
    unfold called
    cases ho : s.observed.get p with
    | none =>
      refine hi.same (fun _ => rfl) (fun _ _ _ => ⟨rfl, rfl⟩) rfl (fun q t' => ?_)
      rw [hat]
      constructor
      · rintro (⟨rfl, rfl, l, hk⟩ | h1)
        · exact absurd hk (((hv.pr q).none ho).2 l)
        · exact h1
      · exact Or.inr
    | some a =>
      obtain ⟨h1, h2, h3, h4, h5, h6, h7⟩ := (hv.pr p).some ho
      obtain ⟨l0, hl0⟩ := List.exists_mem_of_ne_nil _ h7
      have hl0 := (h6 l0).mp hl0
      refine ⟨fun q b hb0 t' => ?_, fun q b t' hb0 ht0 => ?_, fun t' hf => ?_⟩
      · have hb : s.observed.get q = some b := hb0
        rw [hat]
        show ((upd s.ad a _) b).transport = _ ↔ _
        by_cases e : q = p
        · subst e
          rw [ho] at hb; cases hb
          rw [upd_self]
          constructor
          · intro hh; cases hh; exact Or.inl ⟨rfl, rfl, l0, hl0⟩
          · rintro (⟨_, rfl, _⟩ | h1)
            · rfl
            · exact absurd h1 (hnp t')
        · have hba : b ≠ a := fun hh => e (hv.inj hb (hh ▸ ho))
          rw [upd_ne _ _ hba, hi.tr q b hb]
          exact ⟨Or.inr, by rintro (⟨rfl, _⟩ | h1); exact absurd rfl e; exact h1⟩
      · have hb : s.observed.get q = some b := hb0
        have ht : ((upd s.ad a { s.ad a with transport := some t, origWrite := some (s.write t) }) b).transport = some t' := ht0
        show ((upd s.ad a { s.ad a with transport := some t, origWrite := some (s.write t) }) b).origWrite = _ ∧ upd s.write t (.wrap a) t' = _
        by_cases e : q = p
        · subst e
          rw [ho] at hb; cases hb
          rw [upd_self] at ht ⊢
          cases ht
          rw [upd_self, hi.free t hnt]
          exact ⟨rfl, rfl⟩
        · have hba : b ≠ a := fun hh => e (hv.inj hb (hh ▸ ho))
          rw [upd_ne _ _ hba] at ht ⊢
          have htt : t' ≠ t := by
            rintro rfl
            exact hnt q ((hi.tr q b hb _).mp ht)
          rw [upd_ne _ _ htt]
          exact hi.wr q b t' hb ht
      · show upd s.write t (.wrap a) t' = _
        have htt : t' ≠ t := by
          rintro rfl
          exact hf p ((hat p _).mpr (Or.inl ⟨rfl, rfl, l0, hl0⟩))
        rw [upd_ne _ _ htt]
        exact hi.free t' fun q hq => hf q ((hat q t').mpr (Or.inr hq))
  | lost p =>
    have hp : ∀ t, ¬ Attached (h ++ [.lost p]) p t := by
      intro t ht
      obtain ⟨k, hk⟩ := attached_listens ht
      rw [listens_snoc] at hk; simp at hk
    have hq : ∀ q t, q ≠ p → (Attached (h ++ [.lost p]) q t ↔ Attached h q t) := by
      intro q t hne
      rw [attached_snoc]
      constructor
      · rintro ⟨h1 | h1, _⟩
        · cases h1
        · exact h1
      · intro h1
        obtain ⟨k, hk⟩ := attached_listens h1
        exact ⟨Or.inr h1, k, (listens_snoc _ _ _ _).mpr (Or.inr ⟨hk, Ev.noConfusion, by simp [Ne.symm hne]⟩)⟩
    simp only [Obs.step]
    rw [callMethod_eq hv]
    show WInv _ (called s p .lost)
    unfold called
    cases ho : s.observed.get p with
    | none =>
      refine hi.same (fun _ => rfl) (fun _ _ _ => ⟨rfl, rfl⟩) rfl (fun q t => ?_)
      by_cases e : q = p
      · subst e
        refine ⟨fun hh => absurd hh (hp t), fun hh => ?_⟩
        obtain ⟨a, ha⟩ := attached_observed hv hh
        rw [ho] at ha; cases ha
      · exact hq q t e
    | some a =>
      have := WInv.restore hv hi ho (s.ad a).listeners (s.out ++ .orig p .lost :: (s.ad a).listeners.map fun l => .notify l p .lost) hp hq
      rw [show upd s.ad a { s.ad a with listeners := (s.ad a).listeners } = s.ad from by
        funext j; unfold upd; split
        · next hj => rw [hj]
        · rfl] at this
      exact this
  | data p d =>
    have hat : ∀ q t', Attached (h ++ [.data p d]) q t' ↔ Attached h q t' := by
      intro q t'
      rw [attached_snoc]
      simp only [listens_snoc]
      constructor
      · rintro ⟨h1 | h1, _⟩
        · cases h1
        · exact h1
      · intro h1
        obtain ⟨k, hk⟩ := attached_listens h1
        exact ⟨Or.inr h1, k, Or.inr ⟨hk, Ev.noConfusion, Ev.noConfusion⟩⟩
    simp only [Obs.step]
    rw [callMethod_eq hv]
    show WInv _ (called s p (.data d))
    unfold called
    cases ho : s.observed.get p with
    | none => exact hi.same (fun _ => rfl) (fun _ _ _ => ⟨rfl, rfl⟩) rfl hat
    | some a => exact hi.same (fun _ => rfl) (fun _ _ _ => ⟨rfl, rfl⟩) rfl hat
  | write t d =>
    have hat : ∀ q t', Attached (h ++ [.write t d]) q t' ↔ Attached h q t' := by
      intro q t'
      rw [attached_snoc]
      simp only [listens_snoc]
      constructor
      · rintro ⟨h1 | h1, _⟩
        · cases h1
        · exact h1
      · intro h1
        obtain ⟨k, hk⟩ := attached_listens h1
        exact ⟨Or.inr h1, k, Or.inr ⟨hk, Ev.noConfusion, Ev.noConfusion⟩⟩
    simp only [Obs.step]
    obtain ⟨o, hw⟩ := callWrite_frame d (s.nAd + 1) (s.write t) s
    rw [hw]
    exact hi.same (fun _ => rfl) (fun _ _ _ => ⟨rfl, rfl⟩) rfl hat

theorem WInv.reachable (h : List Ev) (ho : OneToOne h) : WInv h (exec .init h) := by
  induction h using List.reverseRecOn with
  | nil => exact WInv.init
  | append_singleton h e ih => rw [exec_snoc]; exact WInv.step (Inv.reachable h) (ih ho.prefix) e ho

/-- C46, data sent, when protocols and transports correspond one to one: a write on a transport writes the data once, and then tells
once every listener of the protocol that was given this transport, provided the protocol was observed at that time and ever since;
nobody else is told. -/
theorem C46_sent_partial (h : List Ev) (t : Nat) (d : Bytes) (ho : OneToOne h) :
    ∃ es, (exec .init (h ++ [.write t d])).out = (exec .init h).out ++ .sent t d :: es ∧ es.Nodup ∧
      ∀ x, x ∈ es ↔ ∃ l p, x = .notify l p (.sent d) ∧ Listens h p l ∧ Attached h p t := by
  have hi := Inv.reachable h
  have hw := WInv.reachable h ho
  rw [exec_snoc]
  generalize exec .init h = s at *
  by_cases hex : ∃ p, Attached h p t
  · obtain ⟨p, hp⟩ := hex
    obtain ⟨a, ha⟩ := attached_observed hi hp
    obtain ⟨h1, h2, h3, h4, h5, h6, h7⟩ := (hi.pr p).some ha
    obtain ⟨w1, w2⟩ := hw.wr p a t ha ((hw.tr p a ha t).mpr hp)
    obtain ⟨n, hn⟩ : ∃ n, s.nAd = n + 1 := ⟨s.nAd - 1, by omega⟩
    have hs : step s (.write t d) = report (s.emit (.sent t d)) p (.sent d) := by
      simp only [step]
      rw [w2, hn, callWrite, w1]
      show report (s.emit (.sent t d)) (s.ad a).protocol (.sent d) = _
      rw [h2]
    rw [hs]
    unfold report
    rw [show (s.emit (.sent t d)).observed.get p = some a from ha]
    refine ⟨(s.ad a).listeners.map fun l => .notify l p (.sent d), ?_, ?_, fun x => ?_⟩
    · show (s.out ++ [_]) ++ _ = _
      simp [St.emit]
    · refine List.Pairwise.map _ ?_ h5
      intro x y hxy h; cases h; exact hxy rfl
    · simp only [List.mem_map, h6]
      constructor
      · rintro ⟨l, hl, rfl⟩; exact ⟨l, p, rfl, hl, hp⟩
      · rintro ⟨l, q, rfl, hl, hq⟩
        have := nodup_val ho.2 (mem_mades.mpr (attached_made hp)) (mem_mades.mpr (attached_made hq))
        subst this
        exact ⟨l, hl, rfl⟩
  · have hf := hw.free t (fun p hp => hex ⟨p, hp⟩)
    refine ⟨[], ?_, List.nodup_nil, fun x => ⟨fun h => by simp at h, ?_⟩⟩
    · simp only [step]; rw [hf]; rfl
    · rintro ⟨l, p, _, _, hp⟩; exact absurd ⟨p, hp⟩ hex

/-- C46 is false for sent data when the listener comes after the connection: it hears of received data but never of sent data. -/
theorem C46_false_late : (exec .init [.made 1 5, .listen 1 9, .write 5 [7], .data 1 [8]]).out =
    [.orig 1 (.made 5), .sent 5 [7], .orig 1 (.data [8]), .notify 9 1 (.data [8])] := by decide +kernel

/-- When two observed protocols share a transport and both are un-observed in the order in which they were connected, the transport is
broken: every further write raises `TypeError` and sends nothing. -/
theorem C46_false_shared : (exec .init [.listen 1 9, .listen 2 9, .made 1 5, .made 2 5, .stop 1 9, .write 5 [6], .stop 2 9, .write 5 [7]]).out =
    [.orig 1 (.made 5), .notify 9 1 (.made 5), .orig 2 (.made 5), .notify 9 2 (.made 5), .sent 5 [6], .typeError] := by decide +kernel

/-- A second `connection_made` of an observed protocol with the same transport makes every write recurse for ever; with another
transport, what is written on the first goes out on the second. -/
theorem C46_false_twice :
    Eff.recursion ∈ (exec .init [.listen 1 9, .made 1 5, .made 1 5, .write 5 [7]]).out ∧
    (exec .init [.listen 1 9, .made 1 5, .made 1 6, .write 5 [7]]).out.getLast? = some (.notify 9 1 (.sent [7])) ∧
    Eff.sent 6 [7] ∈ (exec .init [.listen 1 9, .made 1 5, .made 1 6, .write 5 [7]]).out ∧
    Eff.sent 5 [7] ∉ (exec .init [.listen 1 9, .made 1 5, .made 1 6, .write 5 [7]]).out := by decide +kernel

/-- A case of the theorems. -/
example :
    let h := [Ev.listen 1 9, .listen 1 8, .made 1 5, .listen 2 9, .made 2 6, .stop 1 9]
    OneToOne h ∧ Listens h 1 8 ∧ ¬ Listens h 1 9 ∧ Attached h 1 5 ∧
    (exec .init (h ++ [.write 5 [7]])).out = (exec .init h).out ++ [.sent 5 [7], .notify 8 1 (.sent [7])] := by
  refine ⟨by unfold OneToOne; decide, ⟨[.listen 1 9], [.made 1 5, .listen 2 9, .made 2 6, .stop 1 9], rfl, by decide, by decide⟩, ?_, ?_, by decide +kernel⟩
  · intro h
    have := (listens_snoc [.listen 1 9, .listen 1 8, .made 1 5, .listen 2 9, .made 2 6] (.stop 1 9) 1 9).mp h
    simp at this
  · have l1 : ∀ h', (∀ e ∈ h', e ≠ Ev.stop 1 8 ∧ e ≠ .lost 1) → Listens ([.listen 1 9] ++ .listen 1 8 :: h') 1 8 := by
      intro h' hh
      exact ⟨_, _, rfl, fun h => (hh _ h).1 rfl, fun h => (hh _ h).2 rfl⟩
    refine ⟨[.listen 1 9, .listen 1 8], [.listen 2 9, .made 2 6, .stop 1 9], rfl, fun a b hab => ⟨8, ?_⟩⟩
    refine l1 (.made 1 5 :: a) ?_
    intro e he
    have : e ∈ [Ev.made 1 5, .listen 2 9, .made 2 6, .stop 1 9] := by
      rw [show [Ev.made 1 5, .listen 2 9, .made 2 6, .stop 1 9] = (.made 1 5 :: a) ++ b by rw [List.cons_append, ← hab]]
      exact List.mem_append_left _ he
    clear he
    revert e
    decide

end Verif.Obs
