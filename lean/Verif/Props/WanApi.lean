import Verif.Lemmas.WanApi
import Verif.Lemmas.PyStr
import Verif.Props.WanNet
/-! # C74: the management of a WAN -/
namespace Verif.WanApi
open Verif.WanNet (view routeEvs)
open Verif.Spmp (Res)

/-! ## Requests are calls -/

theorem register_append (c : WanNet.Cfg) (es : List WanNet.Ev) (p : Int) :
    (WanNet.exec c .new es).register p = WanNet.exec c .new (es ++ [.register p]) := by rw [WanNet.exec_append]; rfl

theorem has_iff' {c : WanNet.Cfg} {es : List WanNet.Ev} {p : Int} : (WanNet.exec c .new es).routes.has p = true ↔ p ∈ (view es).lans := by
  rw [Dict.has_iff, (WanNet.run c es).keys]

theorem lans_register {es : List WanNet.Ev} {p : Int} (hp : p ∉ (view es).lans) : (view (es ++ [.register p])).lans = (view es).lans ++ [p] := by
  rw [show view (es ++ [.register p]) = (view es).step (.register p) from WanNet.after_append ..]
  unfold WanNet.View.step
  dsimp only
  rw [if_neg hp]

theorem newSwitches_congr : ∀ (as : List Str) (k k' : List Int), (∀ x, x ∈ k ↔ x ∈ k') → newSwitches k as = newSwitches k' as
  | [], _, _, _ => rfl
  | a :: as, k, k', h => by
    unfold newSwitches
    cases pyInt a with
    | none => rfl
    | some p =>
      dsimp only
      by_cases hp : p ∈ k
      · rw [if_pos hp, if_pos ((h p).mp hp)]
      · rw [if_neg hp, if_neg (fun hh => hp ((h p).mpr hh)), newSwitches_congr as (p :: k) (p :: k') (fun x => by simp [h])]

theorem addSwitches_spec (c : Cfg) : ∀ (as : List Str) (es : List WanNet.Ev) (done : List Str),
    (addSwitches c (WanNet.exec c.net .new es) done as).1 = WanNet.exec c.net .new (es ++ (newSwitches (view es).lans as).map .register) ∧
    ((newSwitches (view es).lans as).length = as.length → (addSwitches c (WanNet.exec c.net .new es) done as).2 =
      .value (listText (done ++ as.map fun _ => noneText))) ∧
    (∀ a, as[(newSwitches (view es).lans as).length]? = some a → (addSwitches c (WanNet.exec c.net .new es) done as).2 =
      .raised (match pyInt a with | none => c.text (.int a) | some p => duplicateText p))
  | [], es, done => by simp [newSwitches, addSwitches]
  | a :: as, es, done => by
    unfold newSwitches addSwitches
    cases hp : pyInt a with
    | none => simp [hp]
    | some p =>
      dsimp only
      by_cases hk : p ∈ (view es).lans
      · rw [if_pos hk, if_pos (has_iff'.mpr hk)]; simp [hp]
      · rw [if_neg hk, if_neg (fun hh => hk (has_iff'.mp hh)), register_append]
        obtain ⟨i1, i2, i3⟩ := addSwitches_spec c as (es ++ [.register p]) (done ++ [noneText])
        rw [lans_register hk, newSwitches_congr as _ (p :: (view es).lans) (by simp [or_comm])] at i1 i2 i3
        refine ⟨by rw [i1]; simp, fun hl => ?_, fun b hb => ?_⟩
        · rw [i2 (by simpa using hl)]; simp
        · exact i3 b (by simpa using hb)

theorem numbers_ints : ∀ (as : List Str), (∀ ds, numbers as = some ds ↔ ints as = .ok ds)
  | [], ds => by simp [numbers, ints, eq_comm]
  | a :: as, ds => by
    unfold numbers ints
    cases pyInt a with
    | none => simp
    | some i =>
      have ih := numbers_ints as
      cases hi : ints as with
      | error e =>
        cases hn : numbers as with
        | none => simp
        | some l => rw [ih l] at hn; rw [hi] at hn; cases hn
      | ok l =>
        rw [(ih l).mpr hi]
        simp [eq_comm]

theorem setDirect_spec (c : Cfg) (es : List WanNet.Ev) (a : Str) (as : List Str) :
    (∀ r ds, numbers (a :: as) = some (r :: ds) →
      (setDirect c (WanNet.exec c.net .new es) a as).1 = WanNet.exec c.net .new (es ++ [.connect r ds]) ∧
      (setDirect c (WanNet.exec c.net .new es) a as).2 =
        if r ∈ (view es).lans then (match ds.find? (fun d => decide (d ∉ (view es).lans)) with
          | some d => .raised (noDestText d)
          | none => .value noneText) else .raised (noSwitchText r)) ∧
    (numbers (a :: as) = none → (setDirect c (WanNet.exec c.net .new es) a as).1 = WanNet.exec c.net .new es ∧
      ∃ b ∈ a :: as, pyInt b = none ∧ (setDirect c (WanNet.exec c.net .new es) a as).2 = .raised (c.text (.int b))) := by
  have hints : ∀ (l : List Str) (e : Str), ints l = .error e → e ∈ l ∧ pyInt e = none := by
    intro l
    induction l with
    | nil => intro e h; cases h
    | cons x l ih =>
      intro e h
      unfold ints at h
      cases hx : pyInt x with
      | none => rw [hx] at h; cases h; exact ⟨by simp, hx⟩
      | some i =>
        rw [hx] at h
        cases hl : ints l with
        | error e' => rw [hl] at h; cases h; exact ⟨by simp [(ih e hl).1], (ih e hl).2⟩
        | ok _ => rw [hl] at h; cases h
  have hcon : ∀ r ds, WanNet.exec c.net .new (es ++ [.connect r ds]) = (WanNet.exec c.net .new es).connect c.net r ds := by
    intro r ds; rw [WanNet.exec_append]; rfl
  unfold setDirect numbers
  cases hp : pyInt a with
  | none => exact ⟨fun r ds h => by simp at h, fun _ => ⟨rfl, a, by simp, hp, rfl⟩⟩
  | some q =>
    dsimp only
    cases hi : ints as with
    | error e =>
      obtain ⟨m1, m2⟩ := hints as e hi
      refine ⟨fun r ds h => ?_, fun _ => ⟨rfl, e, by simp [m1], m2, rfl⟩⟩
      cases hn : numbers as with
      | none => rw [hn] at h; simp at h
      | some l => rw [numbers_ints, hi] at hn; cases hn
    | ok l =>
      rw [(numbers_ints as l).mpr hi]
      dsimp only
      refine ⟨fun r ds h => ?_, fun h => by cases h⟩
      cases h
      have hfun : (fun d => !(WanNet.exec c.net .new es).routes.has d) = fun d => decide (d ∉ (view es).lans) := by
        funext d
        by_cases hd : d ∈ (view es).lans
        · simp [hd, has_iff'.mpr hd]
        · have : (WanNet.exec c.net .new es).routes.has d = false := by
            cases hh : (WanNet.exec c.net .new es).routes.has d with
            | false => rfl
            | true => exact absurd (has_iff'.mp hh) hd
          simp [hd, this]
      by_cases hr : q ∈ (view es).lans
      · rw [if_pos (has_iff'.mpr hr), if_pos hr, hcon, hfun]
        cases l.find? _ <;> exact ⟨rfl, rfl⟩
      · rw [if_neg (fun hh => hr (has_iff'.mp hh)), if_neg hr, hcon]
        refine ⟨?_, rfl⟩
        unfold WanNet.Net.connect
        rw [if_neg (fun hh => hr (has_iff'.mp hh))]

theorem setLocation_spec (c : Cfg) (es : List WanNet.Ev) (conn : Str) (q : Int) :
    setLocation c (WanNet.exec c.net .new es) conn q =
      match (connected es).find? fun i => decide (c.name i = conn) with
      | some i => (WanNet.exec c.net .new (es ++ [.locate i q]), .value "Changed".toList)
      | none => (WanNet.exec c.net .new es, .value ("No such connection ".toList ++ conn)) := by
  unfold setLocation
  rw [conns_eq]
  cases (connected es).find? _ with
  | none => rfl
  | some i => dsimp only; rw [WanNet.exec_append]; rfl

/-! ### The table of the verbs -/

theorem ask_fst (c : Cfg) (v : Str) (f) (args : List Str) (s : St) : (ask c v f args s).1 = s := by unfold ask; split <;> rfl

theorem get_add (c : Cfg) : (api c).get "add-switches".toList = some (add c) := rfl
theorem get_connect (c : Cfg) : (api c).get "set-direct-connections".toList = some (connect c "set-direct-connections".toList) := rfl
theorem get_locate (c : Cfg) : (api c).get "set-location".toList = some (locate c "set-location".toList) := rfl
theorem get_route (c : Cfg) : (api c).get "get-route".toList = some (route c "get-route".toList) := rfl

theorem meaning_idle {verb : Str} (h1 : verb ≠ "add-switches".toList) (h2 : verb ≠ "set-direct-connections".toList) (h3 : verb ≠ "set-location".toList)
    (name : Nat → Str) (es : List WanNet.Ev) (args : List Str) : meaning name es verb args = [] := by
  unfold meaning; rw [if_neg h1, if_neg h2, if_neg h3]

theorem meaning_connect (name : Nat → Str) (es : List WanNet.Ev) (args : List Str) :
    meaning name es "set-direct-connections".toList args = match numbers args with
      | some (r :: ds) => [.connect r ds]
      | _ => [] := by
  unfold meaning; rw [if_neg (by decide), if_pos rfl]; rfl

theorem meaning_locate (name : Nat → Str) (es : List WanNet.Ev) (args : List Str) :
    meaning name es "set-location".toList args = match args with
      | [conn, p] => match pyInt p, (connected es).find? fun i => decide (name i = conn) with
        | some q, some i => [.locate i q]
        | _, _ => []
      | _ => [] := by
  unfold meaning; rw [if_neg (by decide), if_neg (by decide), if_pos rfl]; rfl

theorem call_some {c : Cfg} {verb : Str} {f} (h : (api c).get verb = some f) (s : St) (args : List Str) :
    call c s verb args = ((f args s).1, some (f args s).2) := by unfold call; rw [h]

theorem call_net (c : Cfg) (s : St) (es : List WanNet.Ev) (hs : s.net = WanNet.exec c.net .new es) (verb : Str) (args : List Str) :
    (call c s verb args).1.net = WanNet.exec c.net .new (es ++ meaning c.name es verb args) := by
  by_cases h1 : verb = "add-switches".toList
  · subst h1
    rw [call_some (get_add c)]
    unfold add meaning
    rw [if_pos rfl, ← (addSwitches_spec c args es []).1, ← hs]
  by_cases h2 : verb = "set-direct-connections".toList
  · subst h2
    rw [call_some (get_connect c), meaning_connect]
    unfold connect
    cases args with
    | nil => simp [numbers, hs]
    | cons a as =>
      obtain ⟨d1, d2⟩ := setDirect_spec c es a as
      rw [hs]
      cases hn : numbers (a :: as) with
      | none => dsimp only; rw [(d2 hn).1, List.append_nil]
      | some l =>
        cases l with
        | nil =>
          unfold numbers at hn
          split at hn <;> simp at hn
        | cons r ds => exact (d1 r ds hn).1
  by_cases h3 : verb = "set-location".toList
  · subst h3
    rw [call_some (get_locate c), meaning_locate]
    unfold locate
    split
    · next conn p =>
      cases hp : pyInt p with
      | none => simp [hs, hp]
      | some q =>
        dsimp only
        rw [hs, setLocation_spec, hp]
        cases (connected es).find? _ with
        | none => simp
        | some i => rfl
    · next hne =>
      split
      · next conn p => exact absurd rfl (hne conn p)
      · simp [hs]
  · rw [meaning_idle h1 h2 h3, List.append_nil, ← hs]
    unfold call
    cases hg : (api c).get verb with
    | none => rfl
    | some f =>
      have hm := Dict.mem_of_get hg
      unfold api at hm
      simp only [List.mem_cons, Prod.mk.injEq, List.not_mem_nil, or_false] at hm
      dsimp only
      rcases hm with ⟨_, rfl⟩ | ⟨_, rfl⟩ | ⟨_, rfl⟩ | ⟨_, rfl⟩ | ⟨_, rfl⟩ | ⟨h, rfl⟩ | ⟨_, rfl⟩ | ⟨_, rfl⟩ | ⟨h, rfl⟩ | ⟨_, rfl⟩ | ⟨h, rfl⟩ | ⟨_, rfl⟩ | ⟨_, rfl⟩
      · rw [ask_fst]
      · rw [ask_fst]
      · rw [ask_fst]
      · unfold setLogLevel; split
        · split <;> rfl
        · rfl
      · rw [ask_fst]
      · exact absurd h h3
      · rw [ask_fst]
      · unfold setRate; split
        · split <;> rfl
        · rfl
      · exact absurd h h1
      · rfl
      · exact absurd h h2
      · unfold route; split <;> rfl
      · rw [ask_fst]

/-- C74. Whatever requests arrive, valid or not, mixed with whatever the devices do: the WAN is in the state into which the calls bring it that the
requests stand for. In particular everything C39–C41 and C56 say about the graph and the devices holds. -/
theorem C74_calls (c : Cfg) (h : List Ev) : (exec c .init h).net = WanNet.exec c.net .new (calls c.name h) := by
  suffices ∀ (h : List Ev) (es : List WanNet.Ev) (s : St), s.net = WanNet.exec c.net .new es →
      (exec c s h).net = WanNet.exec c.net .new (callsFrom c.name es h) from this h [] .init rfl
  intro h
  induction h with
  | nil => intro es s hs; exact hs
  | cons e h ih =>
    intro es s hs
    refine ih _ _ ?_
    cases e with
    | request verb args => exact call_net c s es hs verb args
    | accept i => rw [WanNet.exec_append, ← hs]; rfl
    | announce i a => rw [WanNet.exec_append, ← hs]; rfl
    | send i d x => rw [WanNet.exec_append, ← hs]; rfl
    | lost i => rw [WanNet.exec_append, ← hs]; rfl

/-! ## Answers -/

theorem call_route (c : Cfg) (h : List Ev) {a b : Str} {s d : Int} (ha : pyInt a = some s) (hb : pyInt b = some d) :
    call c (exec c .init h) "get-route".toList [a, b] = (exec c .init h,
      some (.value (listText ((Wan.getRoute (Wan.exec [] (routeEvs (calls c.name h))) s d).map intStr)))) := by
  rw [call_some (get_route c)]
  unfold route getRoute
  dsimp only
  rw [ha, hb]
  dsimp only
  rw [C74_calls, (WanNet.run c.net _).routes]

/-- C74. The answer to `get-route` is a list of prefixes that leads from the source to the destination along direct connections, as the requests
before have set them; it is empty only if there is nothing such. -/
theorem C74_route (c : Cfg) (h : List Ev) (a b : Str) (s d : Int) (ha : pyInt a = some s) (hb : pyInt b = some d) :
    ∃ l : List Int, call c (exec c .init h) "get-route".toList [a, b] = (exec c .init h, some (.value (listText (l.map intStr)))) ∧
      (l ≠ [] → Wan.Walk (graph c.name h).edge s l d) ∧ ((graph c.name h).edge s d → l = [d]) :=
  ⟨_, call_route c h ha hb, fun hne => Wan.C39_real _ s d hne, fun he => Wan.C39_direct _ s d he⟩

/-- C74. If the last `set-direct-connections` did not fail half way, there is no shorter way, and the answer is empty exactly if there is no way. -/
theorem C74_shortest_partial (c : Cfg) (h : List Ev) (hok : (graph c.name h).ok) (a b : Str) (s d : Int) (ha : pyInt a = some s) (hb : pyInt b = some d)
    (hsd : s ≠ d) :
    ∃ l : List Int, call c (exec c .init h) "get-route".toList [a, b] = (exec c .init h, some (.value (listText (l.map intStr)))) ∧
      (l = [] ↔ ¬ ∃ w, Wan.Walk (graph c.name h).edge s w d) ∧ ∀ w, Wan.Walk (graph c.name h).edge s w d → l.length ≤ w.length :=
  ⟨_, call_route c h ha hb, Wan.C40_unreachable_partial _ hok s d hsd, fun w hw => (Wan.C40_shortest_partial _ hok s d hsd w hw).2⟩

theorem intStr_inj {i j : Int} (h : intStr i = intStr j) : i = j := by
  have := pyInt_intStr i; rw [h, pyInt_intStr] at this; injection this with this; exact this.symm

theorem commas_join : ∀ (p : Str) (ps : List Str), commas (p :: ps) = joinWith ',' (p :: ps.map (' ' :: ·))
  | _, [] => rfl
  | p, q :: ps => by
    rw [commas, commas_join q ps, List.map_cons]
    cases ps with
    | nil => rfl
    | cons r rs => simp [joinWith]

theorem intStr_comma (i : Int) : ',' ∉ intStr i := by
  have h1 : ∀ n, ',' ∉ natStr n := by
    intro n hm
    obtain ⟨d, hd, e⟩ := natStr_digits n ',' hm
    have : d = 0 ∨ d = 1 ∨ d = 2 ∨ d = 3 ∨ d = 4 ∨ d = 5 ∨ d = 6 ∨ d = 7 ∨ d = 8 ∨ d = 9 := by omega
    rcases this with rfl | rfl | rfl | rfl | rfl | rfl | rfl | rfl | rfl | rfl <;> exact absurd e (by decide)
  unfold intStr
  split
  · simp only [List.mem_cons, not_or]; exact ⟨by decide, h1 _⟩
  · exact h1 _

theorem commas_ne {p : Str} {ps : List Str} (hp : p ≠ []) : commas (p :: ps) ≠ [] := by
  cases ps with
  | nil => exact hp
  | cons q qs => rw [commas]; intro h; exact hp (List.append_eq_nil_iff.mp h).1

theorem intStr_ne (i : Int) : intStr i ≠ [] := by
  unfold intStr; split
  · simp
  · exact natStr_ne_nil _

/-- C74. Such an answer can be read in one way only. -/
theorem C74_text (l l' : List Int) (h : listText (l.map intStr) = listText (l'.map intStr)) : l = l' := by
  unfold listText at h
  have h := List.append_cancel_right (List.cons.inj h).2
  match l, l', h with
  | [], [], _ => rfl
  | [], j :: l', h => exact absurd h.symm (commas_ne (intStr_ne j))
  | i :: l, [], h => exact absurd h (commas_ne (intStr_ne i))
  | i :: l, j :: l', h =>
    rw [List.map_cons, List.map_cons, commas_join, commas_join] at h
    have hno : ∀ (i : Int) (l : List Int), ∀ p ∈ intStr i :: (l.map intStr).map (' ' :: ·), ',' ∉ p := by
      intro i l p hp
      rcases List.mem_cons.mp hp with rfl | hp
      · exact intStr_comma i
      · obtain ⟨q, hq, rfl⟩ := List.mem_map.mp hp
        obtain ⟨k, _, rfl⟩ := List.mem_map.mp hq
        simp only [List.mem_cons, not_or]
        exact ⟨by decide, intStr_comma k⟩
    have := joinWith_inj (hno i l) (hno j l') (by simp) (by simp) h
    obtain ⟨e1, e2⟩ := List.cons.inj this
    rw [intStr_inj e1]
    congr 1
    have e3 := List.map_inj_right (f := fun x : Str => ' ' :: x) (fun _ _ hh => (List.cons.inj hh).2) |>.mp e2
    exact List.map_inj_right (fun _ _ => intStr_inj) |>.mp e3

end Verif.WanApi
