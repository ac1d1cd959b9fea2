import Verif.Spec.Promiscuous
import Verif.Props.Switch
/-! # C38: promiscuous level -/
namespace Verif.Prom
open Addr

theorem clamp_asked (l : Option Int) : clampLevel l = asked l := by
  cases l with
  | none => rfl
  | some l =>
    simp only [clampLevel, asked]
    split
    · omega
    · split <;> omega

theorem asked_le (l : Option Int) : asked l ≤ 4 := by
  cases l with
  | none => simp [asked]
  | some l => simp only [asked]; omega

theorem levelFrom_le : ∀ (h : List Ev) (l : Nat), l ≤ 4 → levelFrom l h ≤ 4
  | [], _, hl => hl
  | .setLevel x :: h, _, _ => levelFrom_le h _ (asked_le x)
  | .factory :: h, l, hl => levelFrom_le h l hl
  | .made _ :: h, l, hl => levelFrom_le h l hl
  | .lost _ :: h, l, hl => levelFrom_le h l hl

theorem parents_wild (z n d i : Nat) : ∀ l, l ≤ 4 → ∃ b, parents l (addr z n d i) = some b ∧ b.str = wild z n d i l := by
  obtain ⟨h1, h2, h3, h4, _⟩ := C26_chain z n d i
  have hs : ∀ k : Nat, APart.str (.num k) = dec k := by
    intro k; simp [APart.str, intStr, dec]
  have hstar : APart.str .star = ['*'] := rfl
  intro l hl
  match l, hl with
  | 0, _ => exact ⟨addr z n d i, rfl, by simp only [addr, str_dotted, hs, wild]⟩
  | 1, _ => exact ⟨⟨.num z, .num n, .num d, .star⟩, by simp only [parents, h1], by simp only [str_dotted, hs, hstar, wild]⟩
  | 2, _ => exact ⟨⟨.num z, .num n, .star, .star⟩, by simp only [parents, h1, h2], by simp only [str_dotted, hs, hstar, wild]⟩
  | 3, _ => exact ⟨⟨.num z, .star, .star, .star⟩, by simp only [parents, h1, h2, h3], by simp only [str_dotted, hs, hstar, wild]⟩
  | 4, _ => exact ⟨⟨.star, .star, .star, .star⟩, by simp only [parents, h1, h2, h3, h4], by simp only [str_dotted, hstar, wild]⟩

theorem update_up {s : St} {z n d i tx l : Nat} (ha : s.address = addr z n d i) (hc : s.connected = true) (hl : s.link = some tx)
    (hu : s.up tx = true) (h4 : l ≤ 4) : update s l = s.emit (.announce tx (wild z n d i l)) := by
  obtain ⟨b, hb, hw⟩ := parents_wild z n d i l h4
  unfold update
  rw [if_pos hc, ha, hb, hl]
  dsimp only
  unfold change
  rw [if_pos hu, hw]

theorem announced_append (n : Nat) (x y : List Eff) : announced n (x ++ y) = announced n x ++ announced n y := by
  simp [announced]

/-- What is known in each phase. -/
structure Inv (z n d i : Nat) (s : St) (p : Phase) (l : Nat) : Prop where
  addr : s.address = Verif.addr z n d i
  level : promiscuousLevel s = l
  le : l ≤ 4
  noraise : Eff.raised ∉ s.out
  known : ∀ m a, Eff.announce m a ∈ s.out → m < s.nTx ∧ ∃ k, k ≤ 4 ∧ a = wild z n d i k
  phase : match p with
    | .idle => s.connected = false ∧ s.link = none
    | .opening m => s.connected = false ∧ s.link = some m ∧ m < s.nTx ∧ s.up m = false ∧ announced m s.out = []
    | .up m => s.connected = true ∧ s.link = some m ∧ m < s.nTx ∧ s.up m = true ∧
        (announced m s.out).getLast? = some (wild z n d i l)
  fresh : ∀ m, s.nTx ≤ m → s.up m = false

theorem announced_none {s : St} {z n d i : Nat} (h : ∀ m a, Eff.announce m a ∈ s.out → m < s.nTx ∧ ∃ k, k ≤ 4 ∧ a = wild z n d i k)
    (m : Nat) (hm : s.nTx ≤ m) : announced m s.out = [] := by
  unfold announced
  rw [List.filterMap_eq_nil_iff]
  intro x hx
  match x, hx with
  | .announce k a, hx =>
    have := (h k a hx).1
    simp only
    rw [if_neg (by omega)]
  | .close _, _ => rfl
  | .raised, _ => rfl

theorem Inv.step {z n d i : Nat} {s : St} {p p' : Phase} {l : Nat} (h : Inv z n d i s p l) {e : Ev}
    (he : nextPhase s.nTx p e = some p') :
    Inv z n d i (step s e) p' (levelFrom l [e]) ∧ (Prom.step s e).nTx = if e = .factory then s.nTx + 1 else s.nTx := by
  cases e with
  | setLevel x =>
    have hp : p' = p := by cases p <;> simp [nextPhase] at he <;> exact he.symm
    subst hp
    rw [if_neg (by simp)]
    show Inv z n d i (setLevel s x) p' (asked x) ∧ (setLevel s x).nTx = s.nTx
    unfold setLevel
    rw [clamp_asked]
    split
    · next hne =>
      cases p' with
      | idle =>
        obtain ⟨p1, p2⟩ := h.phase
        have : update { s with mode := some (asked x) } (asked x) = { s with mode := some (asked x) } := by
          unfold update; rw [if_neg (by simp [p1])]
        rw [this]
        exact ⟨⟨h.addr, rfl, asked_le x, h.noraise, h.known, ⟨p1, p2⟩, h.fresh⟩, rfl⟩
      | opening m =>
        obtain ⟨p1, p2⟩ := h.phase
        have : update { s with mode := some (asked x) } (asked x) = { s with mode := some (asked x) } := by
          unfold update; rw [if_neg (by simp [p1])]
        rw [this]
        exact ⟨⟨h.addr, rfl, asked_le x, h.noraise, h.known, ⟨p1, p2⟩, h.fresh⟩, rfl⟩
      | up m =>
        obtain ⟨p1, p2, p3, p4, p5⟩ := h.phase
        have hu := update_up (s := { s with mode := some (asked x) }) (tx := m) h.addr p1 p2 p4 (asked_le x)
        rw [hu]
        refine ⟨⟨h.addr, rfl, asked_le x, ?_, ?_, ⟨p1, p2, p3, p4, ?_⟩, h.fresh⟩, rfl⟩
        · simp [St.emit, h.noraise]
        · intro m' a ha
          rcases List.mem_append.mp ha with ha | ha
          · exact h.known m' a ha
          · have := List.mem_singleton.mp ha
            cases this
            exact ⟨p3, _, asked_le x, rfl⟩
        · show (announced m (s.out ++ _)).getLast? = _
          rw [announced_append]
          simp [announced]
    · next heq =>
      have hm : s.mode = some (asked x) := Classical.byContradiction heq
      have hl : l = asked x := by
        have := h.level
        unfold promiscuousLevel at this
        rw [hm] at this
        exact this.symm
      subst hl
      exact ⟨h, rfl⟩
  | factory =>
    rw [if_pos rfl]
    have hn : s.up s.nTx = false := h.fresh _ (Nat.le_refl _)
    have key : Prom.step s .factory = { s with link := some s.nTx, nTx := s.nTx + 1 } := by
      show factory s = _
      unfold factory
      cases p with
      | idle => obtain ⟨p1, p2⟩ := h.phase; rw [p2]
      | opening m => obtain ⟨p1, p2, p3, p4, p5⟩ := h.phase; rw [p2]; simp only [p4]; rfl
      | up m => simp [nextPhase] at he
    have hc : s.connected = false := by
      cases p with
      | idle => exact h.phase.1
      | opening m => exact h.phase.1
      | up m => simp [nextPhase] at he
    have hp : p' = .opening s.nTx := by cases p <;> simp [nextPhase] at he <;> exact he.symm
    subst hp
    rw [key]
    refine ⟨⟨h.addr, h.level, h.le, h.noraise, fun m a ha => ?_, ⟨hc, rfl, Nat.lt_succ_self _, hn, announced_none h.known _ (Nat.le_refl _)⟩,
      fun m hm => h.fresh m (Nat.le_of_succ_le hm)⟩, rfl⟩
    obtain ⟨h1, h2⟩ := h.known m a ha
    exact ⟨Nat.lt_succ_of_lt h1, h2⟩
  | made tx =>
    rw [if_neg (by simp)]
    cases p with
    | idle => simp [nextPhase] at he
    | up m => simp [nextPhase] at he
    | opening m =>
      simp only [nextPhase] at he
      split at he
      · next hm =>
        subst hm
        cases he
        obtain ⟨p1, p2, p3, p4, p5⟩ := h.phase
        have h0 : s.address.str = wild z n d i 0 := by
          obtain ⟨b, hb, hw⟩ := parents_wild z n d i 0 (by omega)
          cases hb
          rw [h.addr]; exact hw
        let s2 : St := { s with up := fun k => if k = tx then true else s.up k, connected := true, out := s.out ++ [.announce tx (wild z n d i 0)] }
        have hs2 : made s tx = if promiscuousLevel s2 ≠ 0 then update s2 (promiscuousLevel s2) else s2 := by
          unfold made change
          simp only [h0, if_true]
          rfl
        have hl2 : promiscuousLevel s2 = l := h.level
        have hk2 : ∀ m a, Eff.announce m a ∈ s2.out → m < s2.nTx ∧ ∃ k, k ≤ 4 ∧ a = wild z n d i k := by
          intro m a ha
          rcases List.mem_append.mp ha with ha | ha
          · exact h.known m a ha
          · have := List.mem_singleton.mp ha
            cases this
            exact ⟨p3, 0, by omega, rfl⟩
        have hf2 : ∀ m, s2.nTx ≤ m → s2.up m = false := by
          intro m hm
          show (if m = tx then true else s.up m) = false
          have hm' : s.nTx ≤ m := hm
          rw [if_neg (by omega)]
          exact h.fresh m hm
        have hu2 : s2.up tx = true := by
          show (if tx = tx then true else s.up tx) = true
          simp
        have ha2 : announced tx s2.out = [wild z n d i 0] := by
          show announced tx (s.out ++ _) = _
          rw [announced_append, p5]; simp [announced]
        have hr2 : Eff.raised ∉ s2.out := by
          show _ ∉ s.out ++ _
          simp [h.noraise]
        show Inv z n d i (made s tx) (.up tx) l ∧ (made s tx).nTx = s.nTx
        rw [hs2, hl2]
        split
        · rw [update_up (s := s2) (tx := tx) h.addr rfl p2 hu2 h.le]
          refine ⟨⟨h.addr, h.level, h.le, ?_, ?_, ⟨rfl, p2, p3, hu2, ?_⟩, hf2⟩, rfl⟩
          · show _ ∉ s2.out ++ _
            simp [hr2]
          · intro m a ha
            rcases List.mem_append.mp ha with ha | ha
            · exact hk2 m a ha
            · have := List.mem_singleton.mp ha
              cases this
              exact ⟨p3, l, h.le, rfl⟩
          · show (announced tx (s2.out ++ _)).getLast? = _
            rw [announced_append]; simp [announced]
        · next hz =>
          have hz : l = 0 := Classical.byContradiction hz
          subst hz
          exact ⟨⟨h.addr, h.level, h.le, hr2, hk2, ⟨rfl, p2, p3, hu2, by rw [ha2]; rfl⟩, hf2⟩, rfl⟩
      · cases he
  | lost tx =>
    rw [if_neg (by simp)]
    cases p with
    | idle => simp [nextPhase] at he
    | opening m => simp [nextPhase] at he
    | up m =>
      simp only [nextPhase] at he
      split at he
      · next hm =>
        cases he
        refine ⟨⟨h.addr, h.level, h.le, h.noraise, h.known, ⟨rfl, rfl⟩, fun k hk => ?_⟩, rfl⟩
        show (if k = tx then false else s.up k) = false
        split
        · rfl
        · exact h.fresh k hk
      · cases he

theorem levelFrom_cons (l : Nat) (e : Ev) (h : List Ev) : levelFrom l (e :: h) = levelFrom (levelFrom l [e]) h := by
  cases e <;> rfl

theorem Inv.exec {z n d i : Nat} : ∀ (h : List Ev) {s : St} {p p' : Phase} {l : Nat}, Inv z n d i s p l →
    phaseFrom s.nTx p h = some p' → Inv z n d i (exec s h) p' (levelFrom l h)
  | [], s, p, p', l, hi, hp => by cases hp; exact hi
  | e :: h, s, p, p', l, hi, hp => by
    simp only [phaseFrom] at hp
    split at hp
    · cases hp
    · next q hq =>
      obtain ⟨h1, h2⟩ := hi.step hq
      rw [levelFrom_cons]
      exact Inv.exec h h1 (by rw [h2]; exact hp)

theorem Inv.init (z n d i : Nat) : Inv z n d i (.init (Verif.addr z n d i)) .idle 0 :=
  ⟨rfl, rfl, by omega, by simp [St.init], by simp [St.init], ⟨rfl, rfl⟩, fun _ _ => rfl⟩

/-- C38. Whatever the history of level changes, connections and disconnections (a new connection to the switch being opened only
when there is none), as long as the link is up the last address announced on it is the VNIC's address with the last `min(level, 4)`
components replaced by wild cards, `level` being what was asked for last, before or after the connection was made; that level is
what the VNIC reports; and no exception is raised. -/
theorem C38_announced_partial (z n d i : Nat) (h : List Ev) (link : Nat) (hp : phase h = some (.up link)) :
    let s := exec (.init (addr z n d i)) h
    (announced link s.out).getLast? = some (wild z n d i (level h)) ∧ promiscuousLevel s = level h ∧ Eff.raised ∉ s.out := by
  have := Inv.exec h (Inv.init z n d i) hp
  exact ⟨this.phase.2.2.2.2, this.level, this.noraise⟩

/-- C38. The level is also kept while there is no link, and nothing but the address and its blocks is ever announced. -/
theorem C38_level_partial (z n d i : Nat) (h : List Ev) (p : Phase) (hp : phase h = some p) :
    let s := exec (.init (addr z n d i)) h
    promiscuousLevel s = level h ∧ ∀ m a, Eff.announce m a ∈ s.out → ∃ k, k ≤ 4 ∧ a = wild z n d i k := by
  have := Inv.exec h (Inv.init z n d i) hp
  exact ⟨this.level, fun m a ha => (this.known m a ha).2⟩

theorem dec_inj {a b : Nat} (h : dec a = dec b) : a = b := natStr_inj h

theorem dotted_inj {a b c d a' b' c' d' : Str} (h : dotted a b c d = dotted a' b' c' d') (ha : '.' ∉ a) (ha' : '.' ∉ a')
    (hb : '.' ∉ b) (hb' : '.' ∉ b') (hc : '.' ∉ c) (hc' : '.' ∉ c') : a = a' ∧ b = b' ∧ c = c' ∧ d = d' := by
  have key : ∀ {x x' y y' : Str}, x ++ '.' :: y = x' ++ '.' :: y' → '.' ∉ x → '.' ∉ x' → x = x' ∧ y = y' := by
    intro x
    induction x with
    | nil =>
      intro x' y y' h hx hx'
      cases x' with
      | nil => simp at h; exact ⟨rfl, h⟩
      | cons c x' => simp at h; exact absurd (by rw [h.1]; simp) hx'
    | cons c x ih =>
      intro x' y y' h hx hx'
      cases x' with
      | nil => simp at h; exact absurd (by rw [h.1]; simp) hx
      | cons c' x' =>
        simp at h
        obtain ⟨e1, e2⟩ := ih h.2 (fun hm => hx (List.mem_cons_of_mem _ hm)) (fun hm => hx' (List.mem_cons_of_mem _ hm))
        exact ⟨by rw [h.1, e1], e2⟩
  obtain ⟨h1, h⟩ := key h ha ha'
  obtain ⟨h2, h⟩ := key h hb hb'
  obtain ⟨h3, h4⟩ := key h hc hc'
  exact ⟨h1, h2, h3, h4⟩

/-- C38, the switch's side: a link registered with the block of level `l` gets exactly the packets whose destination agrees with the
address in all but the last `l` components. -/
theorem C38_switch (ops : List Switch.Op) (s : Switch) (hs : Switch.new.exec ops = .ok s) (z n d i l : Nat) (hl : l ≤ 4) (link : Nat)
    (hr : RegisteredAs ops link (wild z n d i l)) (z' n' d' i' : Nat) :
    ∃ links, s.getOutboundLinks (dotted (dec z') (dec n') (dec d') (dec i')) = .ok links ∧
      (link ∈ links ↔ sameBlock l z n d i z' n' d' i') := by
  have hd : ∀ k : Nat, DenotesNum (dec k) (.num k) := by
    intro k
    exact ⟨k, rfl, (pyInt_iff _ _).mp (pyInt_natStr k), natStr_no k '.' (Or.inl rfl)⟩
  obtain ⟨links, h1, _, h2⟩ := C27_links ops s hs _ z' n' d' i' ⟨_, _, _, _, rfl, hd _, hd _, hd _, hd _⟩
  refine ⟨links, h1, ?_⟩
  obtain ⟨s', g1, _, g3⟩ := Switch.exec_spec ops
  rw [hs] at g1; cases g1
  have hstar : ∀ k, ['*'] ≠ dec k := by
    intro k h
    exact natStr_no k '*' (Or.inr rfl) (by rw [show natStr k = ['*'] from h.symm]; simp)
  have hdot : ∀ k, '.' ∉ dec k := fun k => natStr_no k '.' (Or.inl rfl)
  have hsd : '.' ∉ ['*'] := by decide
  have hmem : link ∈ links ↔ wild z n d i l ∈ enclosing z' n' d' i' := by
    rw [h2]
    constructor
    · rintro ⟨a, ha, hra⟩
      have e1 := (g3 link _).mpr hr
      rw [(g3 link _).mpr hra] at e1
      cases e1
      exact ha
    · intro h; exact ⟨_, h, hr⟩
  rw [hmem]
  simp only [enclosing, List.mem_cons, List.not_mem_nil, or_false, sameBlock]
  match l, hl with
  | 0, _ =>
    constructor
    · rintro (h | h | h | h | h)
      · obtain ⟨e1, e2, e3, e4⟩ := dotted_inj h (hdot _) (hdot _) (hdot _) (hdot _) (hdot _) (hdot _)
        exact ⟨fun _ => dec_inj e1, fun _ => dec_inj e2, fun _ => dec_inj e3, fun _ => dec_inj e4⟩
      all_goals
        obtain ⟨e1, e2, e3, e4⟩ := dotted_inj h (by first | exact hdot _ | exact hsd) (by first | exact hdot _ | exact hsd) (by first | exact hdot _ | exact hsd) (by first | exact hdot _ | exact hsd) (by first | exact hdot _ | exact hsd) (by first | exact hdot _ | exact hsd)
        exact absurd e4.symm (hstar _)
    · rintro ⟨e1, e2, e3, e4⟩
      rw [e1 (by omega), e2 (by omega), e3 (by omega), e4 (by omega)]
      exact Or.inl rfl
  | 1, _ =>
    constructor
    · rintro (h | h | h | h | h) <;>
        obtain ⟨e1, e2, e3, e4⟩ := dotted_inj h (by first | exact hdot _ | exact hsd) (by first | exact hdot _ | exact hsd) (by first | exact hdot _ | exact hsd) (by first | exact hdot _ | exact hsd) (by first | exact hdot _ | exact hsd) (by first | exact hdot _ | exact hsd)
      · exact absurd e4 (hstar _)
      · exact ⟨fun _ => dec_inj e1, fun _ => dec_inj e2, fun _ => dec_inj e3, fun h => by omega⟩
      all_goals exact absurd e3.symm (hstar _)
    · rintro ⟨e1, e2, e3, e4⟩
      rw [e1 (by omega), e2 (by omega), e3 (by omega)]
      exact Or.inr (Or.inl rfl)
  | 2, _ =>
    constructor
    · rintro (h | h | h | h | h) <;>
        obtain ⟨e1, e2, e3, e4⟩ := dotted_inj h (by first | exact hdot _ | exact hsd) (by first | exact hdot _ | exact hsd) (by first | exact hdot _ | exact hsd) (by first | exact hdot _ | exact hsd) (by first | exact hdot _ | exact hsd) (by first | exact hdot _ | exact hsd)
      · exact absurd e4 (hstar _)
      · exact absurd e3 (hstar _)
      · exact ⟨fun _ => dec_inj e1, fun _ => dec_inj e2, fun h => by omega, fun h => by omega⟩
      all_goals exact absurd e2.symm (hstar _)
    · rintro ⟨e1, e2, e3, e4⟩
      rw [e1 (by omega), e2 (by omega)]
      exact Or.inr (Or.inr (Or.inl rfl))
  | 3, _ =>
    constructor
    · rintro (h | h | h | h | h) <;>
        obtain ⟨e1, e2, e3, e4⟩ := dotted_inj h (by first | exact hdot _ | exact hsd) (by first | exact hdot _ | exact hsd) (by first | exact hdot _ | exact hsd) (by first | exact hdot _ | exact hsd) (by first | exact hdot _ | exact hsd) (by first | exact hdot _ | exact hsd)
      · exact absurd e4 (hstar _)
      · exact absurd e3 (hstar _)
      · exact absurd e2 (hstar _)
      · exact ⟨fun _ => dec_inj e1, fun h => by omega, fun h => by omega, fun h => by omega⟩
      · exact absurd e1.symm (hstar _)
    · rintro ⟨e1, e2, e3, e4⟩
      rw [e1 (by omega)]
      exact Or.inr (Or.inr (Or.inr (Or.inl rfl)))
  | 4, _ =>
    constructor
    · intro _
      exact ⟨fun h => by omega, fun h => by omega, fun h => by omega, fun h => by omega⟩
    · intro _
      exact Or.inr (Or.inr (Or.inr (Or.inr rfl)))

/-- The restriction in `C38_announced_partial` is necessary: when a new connection is opened while the old one is up, the loss of the
old one, which comes later, makes the VNIC forget the new link. A level set after that is stored, and raises an exception instead of
being announced. -/
theorem C38_false_reopen :
    let s := exec (.init (addr 1 2 3 4)) [.factory, .made 0, .factory, .lost 0, .made 1, .setLevel (some 2)]
    announced 1 s.out = ["1.2.3.4".toList] ∧ promiscuousLevel s = 2 ∧ s.connected = true ∧ Eff.raised ∈ s.out := by decide +kernel

/-- A case of the theorems. -/
example :
    let h := [Ev.setLevel (some 7), .factory, .made 0, .setLevel (some 1), .lost 0, .setLevel none, .factory, .setLevel (some 2), .made 1]
    phase h = some (.up 1) ∧ level h = 2 ∧
    (exec (.init (addr 1 2 3 4)) h).out = [.announce 0 "1.2.3.4".toList, .announce 0 "*.*.*.*".toList, .announce 0 "1.2.3.*".toList,
      .announce 1 "1.2.3.4".toList, .announce 1 "1.2.*.*".toList] := by decide +kernel

example : RegisteredAs [.register "1.2.*.*".toList 7] 7 (wild 1 2 3 4 2) := by
  have : wild 1 2 3 4 2 = "1.2.*.*".toList := by decide +kernel
  rw [this]
  exact C28_valid_registered [] _ ((isValidBlockString_iff _).mp (by decide +kernel)) 7

end Verif.Prom
