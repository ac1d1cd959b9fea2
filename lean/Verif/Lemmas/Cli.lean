import Verif.Spec.Cli
import Verif.Lemmas.PnmsStep
import Verif.Lemmas.PyStr
/-! # Lemmas about the command line tool -/
namespace Verif.Cli
open Verif.Pnms (Place Settings Net Mgr Cfg)
open Verif.Dict

/-! ## Text -/

theorem firstLine_iff {c line : Str} : (splitOn nl c).headD [] = line ↔ FirstLine c line := by
  constructor
  · intro h
    have hne := splitOn_ne_nil nl c
    cases hs : splitOn nl c with
    | nil => exact absurd hs hne
    | cons p ps =>
      rw [hs] at h
      have hp : p = line := h
      subst hp
      have hj := join_split nl c
      rw [hs] at hj
      refine ⟨splitOn_no_sep (c := nl) p (by rw [hs]; simp), ?_⟩
      cases ps with
      | nil => exact .inl hj.symm
      | cons q qs => exact .inr ⟨joinWith nl (q :: qs), hj.symm⟩
  · rintro ⟨h1, rfl | ⟨r, rfl⟩⟩
    · rw [splitOn_single (c := nl) h1]; rfl
    · rw [show '\n' = nl from rfl, splitOn_append (c := nl) h1]; rfl

theorem contains_iff (sub : Str) : ∀ s : Str, contains sub s = true ↔ sub <:+: s
  | [] => by
    rw [contains, List.isEmpty_iff]
    constructor
    · rintro rfl; exact List.infix_refl _
    · intro h; exact List.infix_nil.mp h
  | c :: cs => by
    rw [contains, Bool.or_eq_true, contains_iff sub cs, List.isPrefixOf_iff_prefix, List.infix_cons_iff]

def unlines (ls : List Str) : Str := ls.flatMap fun l => l ++ ['\n']

theorem unlines_cons (l : Str) (ls : List Str) : unlines (l :: ls) = l ++ '\n' :: unlines ls := by simp [unlines]
theorem unlines_append (a b : List Str) : unlines (a ++ b) = unlines a ++ unlines b := by simp [unlines]

theorem splitOn_unlines : ∀ (ls : List Str) (r : Str), (∀ l ∈ ls, '\n' ∉ l) → splitOn '\n' (unlines ls ++ r) = ls ++ splitOn '\n' r
  | [], _, _ => rfl
  | l :: ls, r, h => by
    rw [unlines_cons, List.append_assoc, List.cons_append, splitOn_append (h l (by simp)), splitOn_unlines ls r (fun x hx => h x (by simp [hx]))]; rfl

theorem groups_cons (r : List Str) : ∃ g gs, groups r = g :: gs := by
  cases r with
  | nil => exact ⟨[], [], rfl⟩
  | cons l ls =>
    rw [groups]
    split
    · exact ⟨_, _, rfl⟩
    · split <;> exact ⟨_, _, rfl⟩

theorem groups_para : ∀ (ls rest : List Str), [] ∉ ls → groups (ls ++ [] :: rest) = ls :: groups rest
  | [], rest, _ => by rw [List.nil_append, groups, if_pos rfl]
  | l :: ls, rest, h => by
    rw [List.cons_append, groups, if_neg (fun e => h (by simp [e])), groups_para ls rest (fun x => h (by simp [x]))]

theorem groups_paras : ∀ (ps : List (List Str)), (∀ p ∈ ps, [] ∉ p ∧ p ≠ []) →
    (groups (ps.flatMap (fun p => p ++ [[]]) ++ [[]])).filter (· ≠ []) = ps
  | [], _ => by decide
  | p :: ps, h => by
    have hp := h p (by simp)
    rw [List.flatMap_cons, List.append_assoc, List.append_assoc, List.singleton_append, groups_para _ _ hp.1, List.filter_cons_of_pos (by simpa using hp.2),
      groups_paras ps (fun q hq => h q (by simp [hq]))]

/-- A text made of paragraphs reads as these. -/
theorem paragraphs_unlines (ps : List (List Str)) (h1 : ∀ p ∈ ps, ∀ l ∈ p, '\n' ∉ l) (h2 : ∀ p ∈ ps, [] ∉ p ∧ p ≠ []) :
    paragraphs (unlines ([] :: ps.flatMap fun p => p ++ [[]])) = ps := by
  have e := splitOn_unlines ([] :: ps.flatMap fun p => p ++ [[]]) [] (by
    intro l hl
    rcases List.mem_cons.mp hl with rfl | hl
    · simp
    · obtain ⟨p, hp, hl⟩ := List.mem_flatMap.mp hl
      rcases List.mem_append.mp hl with hl | hl
      · exact h1 p hp l hl
      · rw [List.mem_singleton.mp hl]; simp)
  rw [List.append_nil] at e
  rw [paragraphs, e, show splitOn '\n' [] = [[]] from rfl, List.cons_append, groups, if_pos rfl, List.filter_cons_of_neg (by simp), groups_paras ps h2]

/-! ## Devices -/

theorem statusStr_word (s : Device.Status) : statusStr s = word s := by cases s <;> rfl

theorem pid_iff {E : Env} {k x : Str} : pidText E k = some x ↔ Pid E k x := by
  unfold pidText
  constructor
  · intro h
    cases hp : E.pidFile k with
    | none => rw [hp] at h; cases h; exact .nofile hp
    | some c =>
      rw [hp] at h
      simp only at h
      cases hi : pyInt c with
      | none => rw [hi] at h; cases h
      | some i =>
        rw [hi, Option.map_some] at h
        split at h
        · next h0 => subst h0; cases h; exact .zero hp hi
        · next h0 => cases h; exact .pid hp hi h0
  · intro h
    cases h with
    | nofile h => rw [h]
    | zero h h' => rw [h]; dsimp only; rw [h']; rfl
    | pid h h' h'' => rw [h]; dsimp only; rw [h', Option.map_some, if_neg h'']

theorem life_iff {E : Env} {k x : Str} : lifeText E k = some x ↔ Life E k x := by
  unfold lifeText
  constructor
  · intro h
    split at h
    · next hs =>
      cases hf : E.statusFile k with
      | none => rw [hf] at h; cases h
      | some c =>
        rw [hf, Option.map_some] at h
        split at h
        · next h1 => cases h; exact .failed hs hf ((contains_iff _ _).mp h1)
        · next h1 =>
          split at h
          · next h2 => cases h; exact .live hs hf (fun x => h1 ((contains_iff _ _).mpr x)) ((contains_iff _ _).mp h2)
          · next h2 => cases h; exact .unknown hs hf (fun x => h2 ((contains_iff _ _).mpr x))
    · next hs => cases h; exact .off hs
  · intro h
    cases h with
    | off h => rw [if_neg h]
    | failed h h1 h2 => rw [if_pos h, h1, Option.map_some, if_pos ((contains_iff _ _).mpr h2)]
    | live h h1 h2 h3 => rw [if_pos h, h1, Option.map_some, if_neg (fun x => h2 ((contains_iff _ _).mp x)), if_pos ((contains_iff _ _).mpr h3)]
    | unknown h h1 h2 =>
      rw [if_pos h, h1, Option.map_some, if_neg, if_neg (fun x => h2 ((contains_iff _ _).mp x))]
      intro x
      refine h2 (List.IsInfix.trans ?_ ((contains_iff _ _).mp x))
      exact ⟨"dis".toList, [], by decide⟩

/-- The places have different names. -/
theorem kinds : ("local".toList ≠ "managed".toList) ∧ ("public".toList ≠ "managed".toList) ∧ ("remote".toList ≠ "managed".toList) ∧ ("local".toList ≠ "remote".toList) ∧
    ("public".toList ≠ "remote".toList) ∧ ("local".toList ≠ "public".toList) := by decide

theorem listens_iff {E : Env} {k t : Str} {u b : Bool} {p : Place} {d : Dict Str Str} {l : Str} (hd : (Settings.ap u b p).Shown d) (ht : Pnms.isIface t = false) :
    tcpText E d k t = some l ↔ Listens E k p l := by
  obtain ⟨e1, e2, e3⟩ := hd.ap u b p rfl
  obtain ⟨k1, k2, k3, k4, k5, k6⟩ := kinds
  unfold tcpText apType Pnms.optType Pnms.optTcpAddress Pnms.optPort
  rw [ht, e1, e2, e3]
  rw [if_neg Bool.false_ne_true]
  dsimp only
  cases p with
  | managed =>
    rw [if_pos (show Place.kind .managed = "managed".toList from rfl)]
    constructor
    · intro h
      split at h
      · next hs =>
        unfold filePort at h
        cases hf : E.statusFile k with
        | none => rw [hf] at h; cases h
        | some c =>
          rw [hf] at h
          simp only at h
          cases hi : pyInt ((splitOn nl c).headD []) with
          | none => rw [hi] at h; cases h
          | some i =>
            rw [hi, Option.map_some] at h
            cases h
            exact .managed hs hf (firstLine_iff.mp rfl) hi
      · next hs => cases h; exact .managedOff hs
    · intro h
      cases h with
      | managedOff h => rw [if_neg h]
      | managed h h1 h2 h3 => rw [if_pos h, filePort, h1]; simp only; rw [firstLine_iff.mpr h2, h3]; rfl
  | loc q =>
    rw [if_neg (show Place.kind (.loc q) ≠ _ from k1), if_neg (show Place.kind (.loc q) ≠ _ from k4), if_neg (show Place.kind (.loc q) ≠ _ from k6)]
    rw [show (Place.loc q).port = some q from rfl, Option.bind_some]
    constructor
    · intro h
      obtain ⟨i, hi, rfl⟩ := Option.map_eq_some_iff.mp h
      exact .loc hi
    · intro h; cases h with | loc h => rw [h]; rfl
  | pub q =>
    rw [if_neg (show Place.kind (.pub q) ≠ _ from k2), if_neg (show Place.kind (.pub q) ≠ _ from k5), if_pos (show Place.kind (.pub q) = "public".toList from rfl)]
    rw [show (Place.pub q).port = some q from rfl, Option.bind_some]
    constructor
    · intro h
      obtain ⟨i, hi, rfl⟩ := Option.map_eq_some_iff.mp h
      exact .pub hi
    · intro h; cases h with | pub h => rw [h]; rfl
  | remote h q =>
    rw [if_neg (show Place.kind (.remote h q) ≠ _ from k3), if_pos (show Place.kind (.remote h q) = "remote".toList from rfl)]
    rw [show (Place.remote h q).port = some q from rfl, show (Place.remote h q).host = some h from rfl, Option.bind_some]
    constructor
    · intro g
      cases hi : pyInt q with
      | none => rw [hi] at g; cases g
      | some i =>
        rw [hi] at g
        have g' : h ++ ':' :: intStr i = l := Option.some.inj g
        subst g'
        have := Listens.remote (E := E) (k := k) (h := h) hi
        rw [List.append_assoc] at this
        exact this
    · intro g
      cases g with
      | remote hi => rw [hi, List.append_assoc]; rfl

theorem enabled_shown {E : Env} {k : Str} {s : Settings} {d : Dict Str Str} (hd : s.Shown d) : (enabled E d k s.type).map statusStr = some (shown E k s) := by
  obtain ⟨k1, k2, k3, k4, k5, k6⟩ := kinds
  cases s with
  | iface a b =>
    show some (statusStr (E.state k)) = _
    rw [statusStr_word]; rfl
  | ap u b p =>
    have ht : Pnms.isIface (Settings.ap u b p).type = false := by
      cases u
      · show Pnms.isIface "switch".toList = false; decide
      · show Pnms.isIface "unreliable_switch".toList = false; decide
    obtain ⟨e1, _, _⟩ := hd.ap u b p rfl
    unfold enabled apType Pnms.optType
    rw [ht, e1, if_neg Bool.false_ne_true]
    dsimp only
    cases p with
    | managed => rw [if_neg (show Place.kind .managed ≠ _ from Ne.symm k3), Option.map_some, statusStr_word]; rfl
    | loc q => rw [if_neg (show Place.kind (.loc q) ≠ _ from k4), Option.map_some, statusStr_word]; rfl
    | pub q => rw [if_neg (show Place.kind (.pub q) ≠ _ from k5), Option.map_some, statusStr_word]; rfl
    | remote h q => rw [if_pos (show Place.kind (.remote h q) = "remote".toList from rfl)]; rfl

theorem auto_yes {s : Settings} {d : Dict Str Str} (hd : s.Shown d) : boolStr (decide (d.get Pnms.optAuto = some "true".toList)) = yes s.auto := by
  unfold Pnms.optAuto
  rw [hd.auto]
  cases s.auto <;> decide

theorem baseText_iff {E : Env} {k x : Str} {s : Settings} {d : Dict Str Str} (hd : s.Shown d) :
    baseText E d k s.type = some x ↔ ∃ pid, Pid E k pid ∧ x = unlines (top E k s pid) := by
  have he := enabled_shown (E := E) (k := k) hd
  unfold baseText
  rw [auto_yes hd]
  have e1 : ":\n\tStatus: ".toList = ":".toList ++ '\n' :: "\tStatus: ".toList := by decide
  have e2 : "\n\tAuto-Enable: ".toList = '\n' :: "\tAuto-Enable: ".toList := by decide
  rw [e1, e2]
  cases hs : enabled E d k s.type with
  | none => rw [hs] at he; cases he
  | some st =>
    rw [hs, Option.map_some, Option.some.injEq] at he
    constructor
    · intro h
      cases hp : pidText E k with
      | none => rw [hp] at h; cases h
      | some pid =>
        rw [hp] at h
        simp only [Option.some.injEq] at h
        refine ⟨pid, pid_iff.mp hp, ?_⟩
        rw [← h, he, top, unlines_cons, unlines_cons, unlines_cons]
        simp [unlines]
    · rintro ⟨pid, hp, rfl⟩
      rw [pid_iff.mpr hp]
      simp only [Option.some.injEq]
      rw [he, top, unlines_cons, unlines_cons, unlines_cons]
      simp [unlines]

/-! ## The report -/

theorem link_iff {E : Env} {f : Option Cfg} {m : Mgr} {n : Net} (h : Pnms.Ready f m n) {k x : Str} (hk : Routes.norm k = k) :
    linkText E m k = some x ↔ Link E n k x := by
  have e : Pnms.connectedTo m k = n.link k := by rw [Pnms.connectedTo, hk, ← h.loaded.clean]
  unfold linkText
  rw [e]
  cases hl : n.link k with
  | none =>
    constructor
    · intro hx; cases hx; exact .nothing hl
    · intro hx
      cases hx with
      | nothing _ => rfl
      | to h1 _ _ => rw [hl] at h1; cases h1
  | some c =>
    have h0 := hl
    rw [h.rep.core.link] at h0
    obtain ⟨h3, h4⟩ := Option.filter_eq_some_iff.mp h0
    obtain ⟨_, h6, _, h8⟩ := h.rep.core.conn k c h3
    obtain ⟨t, ht⟩ := Option.isSome_iff_exists.mp h4
    have hg : Pnms.get m c = (m, .ok (some t)) := by
      rcases Pnms.get_loaded h.loaded c with ⟨t', h1, h2⟩ | ⟨h1, _⟩
      · rw [ht] at h1; cases h1; exact h2
      · rw [ht] at h1; cases h1
    have hne : t ≠ Pnms.vnic := fun e => h8 (by rw [ht, e])
    obtain ⟨u, b, p, hdev⟩ := Pnms.Net.ap_iff.mpr ⟨t, ht, hne⟩
    obtain ⟨d, hd, hsh⟩ := h.rep.settings c _ hdev
    have hi : Pnms.isIface t = false := by
      cases hx : Pnms.isIface t with
      | false => rfl
      | true => exact absurd (Pnms.isIface_iff.mp hx) hne
    have key := fun l => listens_iff (E := E) (k := c) (l := l) hsh hi
    cases c with
    | nil => exact absurd rfl h6
    | cons c0 cs =>
      dsimp only
      rw [hg]
      dsimp only
      rw [hd, Option.getD_some]
      constructor
      · intro hx
        obtain ⟨l, hl', rfl⟩ := Option.map_eq_some_iff.mp hx
        exact .to hl hdev ((key l).mp hl')
      · intro hx
        cases hx with
        | nothing h1 => rw [hl] at h1; cases h1
        | to h1 h2 h3 =>
          rw [hl] at h1
          cases h1
          rw [hdev] at h2
          cases h2
          rw [(key _).mpr h3]; rfl

theorem keys_filter_get {d : Dict Str Str} (h : WF d) (k : Str) : d.keys.filter (fun r => decide (d.get r = some k)) = (d.filter (·.2 = k)).map (·.1) := by
  have : ∀ l : Dict Str Str, (∀ x ∈ l, d.get x.1 = some x.2) → l.keys.filter (fun r => decide (d.get r = some k)) = (l.filter (·.2 = k)).map (·.1) := by
    intro l
    induction l with
    | nil => intro _; rfl
    | cons x t ih =>
      obtain ⟨a, b⟩ := x
      intro hx
      have e := hx (a, b) (by simp)
      have ih' := ih (fun y hy => hx y (by simp [hy]))
      dsimp only at e
      rw [keys_cons, List.filter_cons, List.filter_cons, e, ih']
      by_cases hb : b = k
      · simp [hb]
      · simp [hb]
  exact this d (fun x hx => get_of_mem h hx)

theorem routed {r : Dict Str Str} {n : Net} (h : Routes.Rep r n.routes) (k : Str) : Routed n k (Routes.lookupRoutesForDevice ⟨r, []⟩ k) := by
  have e : Routes.lookupRoutesForDevice ⟨r, []⟩ k = r.keys.filter (fun x => decide (r.get x = some k)) := by
    unfold Routes.lookupRoutesForDevice Routes.cget
    apply List.filter_congr
    intro x hx
    dsimp only at hx ⊢
    rw [h.low x hx]
  rw [e]
  refine ⟨?_, ?_, ?_⟩
  · rw [keys_filter_get h.wf, h.routes, ← show Routes.defaultKey = "__default__".toList from rfl]
    generalize Routes.defaultKey = z
    rw [List.filter_map, List.filter_filter, List.filter_filter]
    congr 1
    apply List.filter_congr
    intro x _
    simp [Bool.and_comm]
  · rw [h.default, ← show Routes.defaultKey = "__default__".toList from rfl, List.mem_filter, mem_keys_iff]
    generalize Routes.defaultKey = z
    simp only [decide_eq_true_eq]
    constructor
    · exact fun x => x.2
    · exact fun x => ⟨⟨k, x⟩, x⟩
  · exact h.wf.sublist List.filter_sublist

theorem unlines_routes (rs : List Str) : rs.flatMap routeText = unlines (rs.map ("\t\t".toList ++ ·)) := by
  unfold unlines
  rw [List.flatMap_map]
  rfl

theorem type_switch (b : Bool) (p : Place) : (Settings.ap false b p).type = Pnms.switch := rfl
theorem type_unreliable (b : Bool) (p : Place) : (Settings.ap true b p).type = Pnms.unreliableSwitch := rfl

theorem deviceText_spec {E : Env} {f : Option Cfg} {m : Mgr} {n : Net} (h : Pnms.Ready f m n) {k : Str} {s : Settings} (hs : n.dev k = some s) :
    (∀ x, deviceText E m k s.type = some x → ∃ r, Reports E n k r ∧ x = unlines r) ∧ (∀ r, Reports E n k r → ∃ x, deviceText E m k s.type = some x) := by
  obtain ⟨d, hd, hsh⟩ := h.rep.settings k s hs
  have hb := fun x => baseText_iff (E := E) (k := k) (x := x) hsh
  have hk := (h.rep.core.low k _ (Pnms.Net.ty_of hs)).1
  unfold deviceText
  rw [hd, Option.getD_some]
  dsimp only
  have n1 : Pnms.vnic ≠ Pnms.switch := by decide
  have n2 : Pnms.unreliableSwitch ≠ Pnms.switch := by decide
  have n3 : Pnms.unreliableSwitch ≠ Pnms.vnic := by decide
  cases s with
  | iface a b =>
    rw [Pnms.type_iface] at hb ⊢
    rw [if_neg n1, if_pos rfl]
    have ha : d.get Pnms.optAddress = some a := hsh.iface a b rfl
    unfold vnicText
    rw [ha, unlines_routes]
    constructor
    · intro x hx
      cases h1 : baseText E d k Pnms.vnic with
      | none => rw [h1] at hx; cases hx
      | some t =>
        cases h2 : linkText E m k with
        | none => rw [h1, h2] at hx; cases hx
        | some l =>
          cases h3 : lifeText E k with
          | none => rw [h1, h2, h3] at hx; cases hx
          | some y =>
            rw [h1, h2, h3] at hx
            obtain ⟨pid, p1, rfl⟩ := (hb t).mp h1
            refine ⟨_, .iface hs p1 ((link_iff h hk).mp h2) (life_iff.mp h3) (routed h.rep.routes k), ?_⟩
            rw [← Option.some.inj hx, unlines_append, unlines_append, unlines_cons _ [_, _], unlines_cons _ [_], unlines_cons _ []]
            have e1 : "\n\tConnected To: ".toList = '\n' :: "\tConnected To: ".toList := by decide
            have e2 : ")\n\tRoutes:\n".toList = ")".toList ++ '\n' :: ("\tRoutes:".toList ++ ['\n']) := by decide
            rw [e1, e2]
            generalize "\tConnected To: ".toList = z1
            generalize ")".toList = z2
            generalize "\tRoutes:".toList = z3
            generalize "\tPlayground Address: ".toList = z4
            generalize " (".toList = z5
            generalize "\t\t".toList = z6
            simp [unlines]
    · intro r hr
      cases hr with
      | switch h1 _ _ => rw [hs] at h1; cases h1
      | unreliable h1 _ => rw [hs] at h1; cases h1
      | iface h1 h2 h3 h4 h5 =>
        rw [(hb _).mpr ⟨_, h2, rfl⟩, (link_iff h hk).mpr h3, life_iff.mpr h4]
        exact ⟨_, rfl⟩
  | ap u b p =>
    cases u with
    | false =>
      have hi : Pnms.isIface Pnms.switch = false := by decide
      have ht : apType d = some p.kind := (hsh.ap false b p rfl).1
      rw [type_switch] at hb ⊢
      rw [if_pos rfl]
      have hm : boolStr (decide (p.kind = "managed".toList)) = yes (decide (p = .managed)) := by
        obtain ⟨k1, k2, k3, _⟩ := kinds
        cases p with
        | managed => decide
        | loc q => rw [decide_eq_false (show Place.kind (.loc q) ≠ _ from k1), decide_eq_false (by simp)]; rfl
        | pub q => rw [decide_eq_false (show Place.kind (.pub q) ≠ _ from k2), decide_eq_false (by simp)]; rfl
        | remote x q => rw [decide_eq_false (show Place.kind (.remote x q) ≠ _ from k3), decide_eq_false (by simp)]; rfl
      have key := fun l => listens_iff (E := E) (k := k) (l := l) hsh hi
      unfold switchText
      rw [ht]
      constructor
      · intro x hx
        cases h1 : baseText E d k Pnms.switch with
        | none => rw [h1] at hx; cases hx
        | some t =>
          cases h2 : tcpText E d k Pnms.switch with
          | none => rw [h1, h2] at hx; cases hx
          | some l =>
            rw [h1, h2] at hx
            dsimp only at hx
            rw [hm] at hx
            obtain ⟨pid, p1, rfl⟩ := (hb t).mp h1
            refine ⟨_, .switch hs p1 ((key l).mp h2), ?_⟩
            rw [← Option.some.inj hx, unlines_append, unlines_cons _ [_], unlines_cons _ []]
            have e1 : "\n\tTCP Location: ".toList = '\n' :: "\tTCP Location: ".toList := by decide
            rw [e1, show "\n".toList = ['\n'] from rfl]
            generalize "\tTCP Location: ".toList = z1
            generalize "\tPNMS Managed: ".toList = z2
            simp [unlines]
      · intro r hr
        cases hr with
        | switch h1 h2 h3 =>
          rw [hs] at h1
          cases h1
          rw [(hb _).mpr ⟨_, h2, rfl⟩, (key _).mpr h3]
          exact ⟨_, rfl⟩
        | unreliable h1 _ => rw [hs] at h1; cases h1
        | iface h1 _ _ _ _ => rw [hs] at h1; cases h1
    | true =>
      rw [type_unreliable] at hb ⊢
      rw [if_neg n2, if_neg n3]
      constructor
      · intro x hx
        obtain ⟨pid, p1, rfl⟩ := (hb x).mp hx
        exact ⟨_, .unreliable hs p1, rfl⟩
      · intro r hr
        cases hr with
        | switch h1 _ _ => rw [hs] at h1; cases h1
        | unreliable h1 h2 => exact ⟨_, (hb _).mpr ⟨_, h2, rfl⟩⟩
        | iface h1 _ _ _ _ => rw [hs] at h1; cases h1

theorem devicesText_spec {E : Env} {f : Option Cfg} {m : Mgr} {n : Net} (h : Pnms.Ready f m n) : ∀ l : Dict Str Str, (∀ x ∈ l, (n.dev x.1).map Settings.type = some x.2) →
    (∀ x, devicesText E m l = some x → ∃ rs, All2 (Reports E n) l.keys rs ∧ x = unlines (rs.flatMap fun p => p ++ [[]])) ∧
    ((∀ k ∈ l.keys, ∃ r, Reports E n k r) → ∃ x, devicesText E m l = some x)
  | [], _ => ⟨fun x hx => ⟨[], .nil, (Option.some.inj hx).symm⟩, fun _ => ⟨_, rfl⟩⟩
  | (k, t) :: l, hl => by
    obtain ⟨i1, i2⟩ := devicesText_spec h l (fun x hx => hl x (by simp [hx]))
    have e := hl (k, t) (by simp)
    obtain ⟨s, hs, hst⟩ := Option.map_eq_some_iff.mp e
    dsimp only at hs hst
    obtain ⟨j1, j2⟩ := deviceText_spec (E := E) h hs
    rw [hst] at j1 j2
    rw [devicesText]
    constructor
    · intro x hx
      cases h1 : deviceText E m k t with
      | none => rw [h1] at hx; cases hx
      | some a =>
        cases h2 : devicesText E m l with
        | none => rw [h1, h2] at hx; cases hx
        | some b =>
          rw [h1, h2] at hx
          obtain ⟨r, r1, rfl⟩ := j1 a h1
          obtain ⟨rs, rs1, rfl⟩ := i1 b h2
          refine ⟨r :: rs, .cons r1 rs1, ?_⟩
          rw [← Option.some.inj hx, List.flatMap_cons, unlines_append, unlines_append]
          simp [unlines]
    · intro hr
      obtain ⟨r, hr1⟩ := hr k (by simp)
      obtain ⟨a, ha⟩ := j2 r hr1
      obtain ⟨b, hb⟩ := i2 (fun j hj => hr j (by simp [hj]))
      rw [ha, hb]
      exact ⟨_, rfl⟩

theorem statusText_spec {E : Env} {f : Option Cfg} {m : Mgr} {n : Net} (h : Pnms.Ready f m n) :
    (∀ x, statusText E m = some x → ∃ rs, All2 (Reports E n) m.mem.devices.keys rs ∧ x = unlines ([] :: (title :: rs).flatMap fun p => p ++ [[]])) ∧
    ((∀ k ∈ m.mem.devices.keys, ∃ r, Reports E n k r) → ∃ x, statusText E m = some x) := by
  obtain ⟨i1, i2⟩ := devicesText_spec (E := E) h m.mem.devices (by
    rintro ⟨k, t⟩ hx
    have := get_of_mem h.rep.core.wfd hx
    rw [h.rep.core.devs] at this
    exact this)
  unfold statusText
  constructor
  · intro x hx
    obtain ⟨y, hy, rfl⟩ := Option.map_eq_some_iff.mp hx
    obtain ⟨rs, r1, rfl⟩ := i1 y hy
    refine ⟨rs, r1, ?_⟩
    have e : "\nPlayground Networking Configuration:\n-------------------------------------\n\n".toList = unlines ([] :: (title ++ [[]])) := by decide +kernel
    rw [e, List.flatMap_cons, ← unlines_append]
    rfl
  · intro hr
    obtain ⟨y, hy⟩ := i2 hr
    rw [hy]
    exact ⟨_, rfl⟩

/-! ## Lines -/

/-- What is in the network has no line breaks. -/
structure OneLine (n : Net) : Prop where
  names : ∀ k s, n.dev k = some s → '\n' ∉ k
  addresses : ∀ k a b, n.dev k = some (.iface a b) → '\n' ∉ a
  hosts : ∀ k u b h p, n.dev k = some (.ap u b (.remote h p)) → '\n' ∉ h
  routes : ∀ r k, (r, k) ∈ n.routes.routes → '\n' ∉ r

theorem intStr_nl (i : Int) : '\n' ∉ intStr i := by
  have h1 : ∀ n, '\n' ∉ natStr n := by
    intro n hm
    obtain ⟨d, hd, e⟩ := natStr_digits n _ hm
    have := (digitChar_props d hd).1
    rw [← e] at this
    revert this; decide
  unfold intStr
  split
  · intro h
    rcases List.mem_cons.mp h with h | h
    · exact absurd h (by decide)
    · exact h1 _ h
  · exact h1 _

theorem nl_append {a b : Str} (ha : '\n' ∉ a) (hb : '\n' ∉ b) : '\n' ∉ a ++ b := by
  intro h
  rcases List.mem_append.mp h with h | h
  · exact ha h
  · exact hb h

theorem listens_nl {E : Env} {k l : Str} {p : Place} (h : Listens E k p l) (hh : ∀ x q, p = .remote x q → '\n' ∉ x) : '\n' ∉ l := by
  cases h with
  | managedOff _ => decide
  | managed _ _ _ _ => exact nl_append (by decide) (intStr_nl _)
  | loc _ => exact nl_append (by decide) (intStr_nl _)
  | pub _ => exact nl_append (by decide) (intStr_nl _)
  | remote _ => exact nl_append (nl_append (hh _ _ rfl) (by decide)) (intStr_nl _)

theorem pid_nl {E : Env} {k l : Str} (h : Pid E k l) : '\n' ∉ l := by
  cases h with
  | nofile _ => simp
  | zero _ _ => simp
  | pid _ _ _ => exact nl_append (nl_append (by decide) (intStr_nl _)) (by decide)

theorem life_nl {E : Env} {k l : Str} (h : Life E k l) : '\n' ∉ l := by cases h <;> decide

theorem yes_nl (b : Bool) : '\n' ∉ yes b := by cases b <;> decide
theorem word_nl (s : Device.Status) : '\n' ∉ word s := by cases s <;> decide

theorem shown_nl (E : Env) (k : Str) (s : Settings) : '\n' ∉ shown E k s := by
  unfold shown
  split
  · decide
  · exact word_nl _

theorem type_nl (s : Settings) : '\n' ∉ s.type := by
  cases s with
  | iface a b => show '\n' ∉ "vnic".toList; decide
  | ap u b p =>
    cases u
    · show '\n' ∉ "switch".toList; decide
    · show '\n' ∉ "unreliable_switch".toList; decide

theorem line_ok {a b : Str} (ha : '\n' ∉ a) (hne : a ≠ []) (hb : '\n' ∉ b) : '\n' ∉ a ++ b ∧ a ++ b ≠ [] :=
  ⟨nl_append ha hb, fun h => hne (List.append_eq_nil_iff.mp h).1⟩

theorem top_ok {E : Env} {k pid : Str} {s : Settings} (hk : '\n' ∉ k) (hp : '\n' ∉ pid) : ∀ l ∈ top E k s pid, '\n' ∉ l ∧ l ≠ [] := by
  intro l hl
  unfold top at hl
  rcases List.mem_cons.mp hl with rfl | hl
  · rw [List.append_assoc, List.append_assoc]
    refine line_ok (type_nl s) ?_ (nl_append (by decide) (nl_append hk (by decide)))
    cases s with
    | iface a b => show "vnic".toList ≠ []; decide
    | ap u b p =>
      cases u
      · show "switch".toList ≠ []; decide
      · show "unreliable_switch".toList ≠ []; decide
  · rcases List.mem_cons.mp hl with rfl | hl
    · rw [List.append_assoc, List.append_assoc]
      exact line_ok (by decide) (by decide) (nl_append (shown_nl E k s) (nl_append (by decide) hp))
    · rcases List.mem_cons.mp hl with rfl | hl
      · exact line_ok (by decide) (by decide) (yes_nl _)
      · cases hl

theorem reports_ok {E : Env} {n : Net} (h1 : OneLine n) {k : Str} {r : List Str} (h : Reports E n k r) : (∀ l ∈ r, '\n' ∉ l ∧ l ≠ []) ∧ r ≠ [] := by
  cases h with
  | switch hd hp hl =>
    refine ⟨?_, by simp [top]⟩
    intro l hm
    rcases List.mem_append.mp hm with hm | hm
    · exact top_ok (h1.names k _ hd) (pid_nl hp) l hm
    · rcases List.mem_cons.mp hm with rfl | hm
      · exact line_ok (by decide) (by decide) (yes_nl _)
      · rw [List.mem_singleton.mp hm]
        exact line_ok (by decide) (by decide) (listens_nl hl (fun x q e => h1.hosts k _ _ x q (by rw [hd, e])))
  | unreliable hd hp => exact ⟨top_ok (h1.names k _ hd) (pid_nl hp), by simp [top]⟩
  | iface hd hp hl hx hr =>
    refine ⟨?_, by simp [top]⟩
    intro l hm
    rcases List.mem_append.mp hm with hm | hm
    · rcases List.mem_append.mp hm with hm | hm
      · exact top_ok (h1.names k _ hd) (pid_nl hp) l hm
      · rcases List.mem_cons.mp hm with rfl | hm
        · exact line_ok (by decide) (by decide) (h1.addresses k _ _ hd)
        · rcases List.mem_cons.mp hm with rfl | hm
          · rw [List.append_assoc, List.append_assoc, List.append_assoc]
            refine line_ok (by decide) (by decide) (nl_append ?_ (nl_append (by decide) (nl_append (life_nl hx) (by decide))))
            cases hl with
            | nothing _ => decide
            | to h2 h3 h4 =>
              refine nl_append (nl_append (nl_append (h1.names _ _ h3) (by decide)) ?_) (by decide)
              exact listens_nl h4 (fun x q e => h1.hosts _ _ _ x q (by rw [h3, e]))
          · rw [List.mem_singleton.mp hm]; decide
    · obtain ⟨y, hy, rfl⟩ := List.mem_map.mp hm
      refine line_ok (by decide) (by decide) ?_
      by_cases hd' : y = "__default__".toList
      · rw [hd']; decide
      · have : y ∈ (n.routes.routes.filter (·.2 = k)).map (·.1) := by
          rw [← hr.routes]; exact List.mem_filter.mpr ⟨hy, decide_eq_true hd'⟩
        obtain ⟨z, hz, rfl⟩ := List.mem_map.mp this
        exact h1.routes z.1 z.2 (List.mem_filter.mp hz).1

theorem all2_mem {α β : Type} {R : α → β → Prop} : ∀ {as : List α} {bs : List β}, All2 R as bs → ∀ b ∈ bs, ∃ a ∈ as, R a b
  | _, _, .nil, b, hb => by cases hb
  | _, _, .cons h t, b, hb => by
    rcases List.mem_cons.mp hb with rfl | hb
    · exact ⟨_, by simp, h⟩
    · obtain ⟨a, ha, hr⟩ := all2_mem t b hb
      exact ⟨a, by simp [ha], hr⟩

theorem all2_mem' {α β : Type} {R : α → β → Prop} : ∀ {as : List α} {bs : List β}, All2 R as bs → ∀ a ∈ as, ∃ b ∈ bs, R a b
  | _, _, .nil, a, ha => by cases ha
  | _, _, .cons h t, a, ha => by
    rcases List.mem_cons.mp ha with rfl | ha
    · exact ⟨_, by simp, h⟩
    · obtain ⟨b, hb, hr⟩ := all2_mem' t a ha
      exact ⟨b, by simp [hb], hr⟩

theorem report_paragraphs {E : Env} {n : Net} (h1 : OneLine n) {ks : List Str} {rs : List (List Str)} (h : All2 (Reports E n) ks rs) :
    paragraphs (unlines ([] :: (title :: rs).flatMap fun p => p ++ [[]])) = title :: rs := by
  have key : ∀ p ∈ title :: rs, (∀ l ∈ p, '\n' ∉ l ∧ l ≠ []) ∧ p ≠ [] := by
    intro p hp
    rcases List.mem_cons.mp hp with rfl | hp
    · decide
    · obtain ⟨k, _, hr⟩ := all2_mem h p hp
      exact reports_ok h1 hr
  exact paragraphs_unlines _ (fun p hp l hl => ((key p hp).1 l hl).1) (fun p hp => ⟨fun h => ((key p hp).1 [] h).2 rfl, (key p hp).2⟩)

/-! ## Usage -/

theorem asks_iff {argv : List Str} {c : Cmd} : parse argv = some c ↔ Asks argv c := by
  constructor
  · intro h
    cases argv with
    | nil => cases h; exact .nothing
    | cons sub args =>
      rw [parse] at h
      unfold parseSub at h
      by_cases e : sub = "help".toList
      · rw [if_pos e] at h
        subst e
        split at h
        · cases h; exact .help
        · cases h; exact .helpOn _
        · cases h
      rw [if_neg e] at h
      clear e
      by_cases e : sub = "initialize".toList
      · rw [if_pos e] at h
        subst e
        have key : ∀ (l : Str) (o : Option Str), (if l ∈ ["instance".toList, "user".toList, "system".toList] then some (Cmd.init l o) else none) = some c →
            l ∈ ["instance".toList, "user".toList, "system".toList] ∧ c = .init l o := by
          intro l o hx
          by_cases hm : l ∈ ["instance".toList, "user".toList, "system".toList]
          · rw [if_pos hm] at hx; exact ⟨hm, (Option.some.inj hx).symm⟩
          · rw [if_neg hm] at hx; cases hx
        cases args with
        | nil => cases h
        | cons l as => cases as with
          | nil => obtain ⟨h1, rfl⟩ := key l none h; exact .init l h1
          | cons o bs => cases bs with
            | nil => obtain ⟨h1, rfl⟩ := key l (some o) h; exact .initOver l o h1
            | cons _ _ => cases h
      rw [if_neg e] at h
      clear e
      by_cases e : sub = "on".toList
      · rw [if_pos e] at h
        subst e
        split at h
        · cases h; exact .on
        · cases h
      rw [if_neg e] at h
      clear e
      by_cases e : sub = "off".toList
      · rw [if_pos e] at h
        subst e
        split at h
        · cases h; exact .off
        · cases h
      rw [if_neg e] at h
      clear e
      by_cases e : sub = "add".toList
      · rw [if_pos e] at h
        subst e
        split at h
        · cases h; exact .add _ _ _
        · cases h
      rw [if_neg e] at h
      clear e
      by_cases e : sub = "remove".toList
      · rw [if_pos e] at h
        subst e
        split at h
        · cases h; exact .remove _
        · cases h
      rw [if_neg e] at h
      clear e
      by_cases e : sub = "enable".toList
      · rw [if_pos e] at h
        subst e
        split at h
        · cases h; exact .enable _
        · cases h
      rw [if_neg e] at h
      clear e
      by_cases e : sub = "disable".toList
      · rw [if_pos e] at h
        subst e
        split at h
        · cases h; exact .disable _
        · cases h
      rw [if_neg e] at h
      clear e
      by_cases e : sub = "config".toList
      · rw [if_pos e] at h
        subst e
        split at h
        · cases h; exact .config _ _ _
        · cases h
      rw [if_neg e] at h
      clear e
      by_cases e : sub = "query".toList
      · rw [if_pos e] at h
        subst e
        split at h
        · cases h; exact .query _ _ _
        · cases h
      rw [if_neg e] at h
      clear e
      by_cases e : sub = "routes".toList
      · rw [if_pos e] at h
        subst e
        split at h
        · cases h; exact .routes
        · cases h
      rw [if_neg e] at h
      clear e
      by_cases e : sub = "status".toList
      · rw [if_pos e] at h
        subst e
        split at h
        · cases h; exact .status
        · cases h; exact .statusOf _
        · cases h
      rw [if_neg e] at h
      clear e
      cases h
  · intro h
    cases h with
    | init l hl =>
      show (if l ∈ ["instance".toList, "user".toList, "system".toList] then some (Cmd.init l none) else none) = _
      rw [if_pos hl]
    | initOver l o hl =>
      show (if l ∈ ["instance".toList, "user".toList, "system".toList] then some (Cmd.init l (some o)) else none) = _
      rw [if_pos hl]
    | _ => rfl

/-! ## What was typed -/

theorem place_nl : ∀ (opts : List Pnms.Opt) (p : Place), (∀ x q, p = .remote x q → '\n' ∉ x) → (∀ a ∈ opts.flatMap Pnms.Opt.words, '\n' ∉ a) →
    ∀ x q, Pnms.placeOf p opts = .remote x q → '\n' ∉ x
  | [], p, hp, _, x, q, h => hp x q h
  | .manual :: l, p, hp, ha, x, q, h => place_nl l p hp (fun a hx => ha a (by rw [List.flatMap_cons]; exact List.mem_append.mpr (.inr hx))) x q h
  | .auto :: l, p, hp, ha, x, q, h => place_nl l p hp (fun a hx => ha a (by rw [List.flatMap_cons]; exact List.mem_append.mpr (.inr hx))) x q h
  | .place p' :: l, p, hp, ha, x, q, h => by
    refine place_nl l p' ?_ (fun a hx => ha a (by rw [List.flatMap_cons]; exact List.mem_append.mpr (.inr hx))) x q h
    rintro y r rfl
    exact ha y (by rw [List.flatMap_cons]; exact List.mem_append.mpr (.inl (by simp [Pnms.Opt.words])))

theorem describes_nl {t : Str} {args : List Str} {s : Settings} (h : Pnms.Describes t args s) (ha : ∀ a ∈ args, '\n' ∉ a) :
    (∀ a b, s = .iface a b → '\n' ∉ a) ∧ ∀ u b x q, s = .ap u b (.remote x q) → '\n' ∉ x := by
  cases h with
  | vnic address k =>
    refine ⟨?_, fun _ _ _ _ e => by cases e⟩
    intro a b e
    cases e
    exact ha address (by simp)
  | switch opts =>
    refine ⟨fun _ _ e => (by cases e), ?_⟩
    intro u b x q e
    have e' : Pnms.placeOf .managed opts = .remote x q := by injection e
    exact place_nl opts .managed (fun _ _ e => by cases e) ha x q e'
  | unreliable opts =>
    refine ⟨fun _ _ e => (by cases e), ?_⟩
    intro u b x q e
    have e' : Pnms.placeOf .managed opts = .remote x q := by injection e
    exact place_nl opts .managed (fun _ _ e => by cases e) ha x q e'

theorem OneLine.step {n n' : Net} {c : Pnms.Cmd} (h : OneLine n) (hc : Typable c) (hs : Pnms.Step n c n') : OneLine n' := by
  cases hs with
  | @add k t args s h1 h2 h3 =>
    obtain ⟨d1, d2⟩ := describes_nl h3 hc.2
    have put : ∀ j s', Pnms.put n.dev k (some s) j = some s' → j = k ∧ s' = s ∨ n.dev j = some s' := by
      intro j s' hj
      unfold Pnms.put at hj
      split at hj
      · next e => exact .inl ⟨e, (Option.some.inj hj).symm⟩
      · exact .inr hj
    refine ⟨?_, ?_, ?_, h.routes⟩
    · intro j s' hj
      rcases put j s' hj with ⟨rfl, _⟩ | hj
      · exact hc.1
      · exact h.names j s' hj
    · intro j a b hj
      rcases put j _ hj with ⟨_, e⟩ | hj
      · exact d1 a b e.symm
      · exact h.addresses j a b hj
    · intro j u b x q hj
      rcases put j _ hj with ⟨_, e⟩ | hj
      · exact d2 u b x q e.symm
      · exact h.hosts j u b x q hj
  | @remove k s h1 =>
    have put : ∀ j s', Pnms.put n.dev k none j = some s' → n.dev j = some s' := by
      intro j s' hj
      unfold Pnms.put at hj
      split at hj
      · cases hj
      · exact hj
    exact ⟨fun j s' hj => h.names j s' (put j s' hj), fun j a b hj => h.addresses j a b (put j _ hj), fun j u b x q hj => h.hosts j u b x q (put j _ hj),
      fun r j hj => h.routes r j (List.mem_filter.mp hj).1⟩
  | addRoute _ _ _ _ =>
    refine ⟨h.names, h.addresses, h.hosts, ?_⟩
    intro r j hj
    rcases List.mem_append.mp hj with hj | hj
    · exact h.routes r j hj
    · cases List.mem_singleton.mp hj
      exact hc _ (by simp)
  | removeRoute _ _ _ _ => exact ⟨h.names, h.addresses, h.hosts, fun r j hj => h.routes r j (List.mem_filter.mp hj).1⟩
  | _ => exact ⟨h.names, h.addresses, h.hosts, h.routes⟩

theorem OneLine.init : OneLine .init := ⟨(fun _ _ h => nomatch h), (fun _ _ _ h => nomatch h), (fun _ _ _ _ _ h => nomatch h), (fun _ _ h => nomatch h)⟩

theorem OneLine.happen : ∀ {cs : List Pnms.Cmd} {n n' : Net} {bs : List Bool}, OneLine n → (∀ c ∈ cs, Typable c) → Pnms.Happen n cs bs n' → OneLine n'
  | _, _, _, _, h, _, .nil => h
  | _, _, _, _, h, hc, .done (.asMeant _ s) t => OneLine.happen (h.step (hc _ (by simp)) s) (fun x hx => hc x (by simp [hx])) t
  | _, _, _, _, h, hc, .done (.lost _ _) t => OneLine.happen h (fun x hx => hc x (by simp [hx])) t
  | _, _, _, _, h, hc, .failed _ t => OneLine.happen h (fun x hx => hc x (by simp [hx])) t

end Verif.Cli
