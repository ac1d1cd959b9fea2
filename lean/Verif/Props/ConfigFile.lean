import Verif.Spec.Config
import Verif.Lemmas.Dict
import Verif.Lemmas.PyStr
import Verif.Props.Config
/-! # C73: configuration files -/
namespace Verif.Config

theorem last_ne_slash {a p : Str} (hp : p ≠ []) (hs : '/' ∉ p) : (a ++ p).getLast? ≠ some '/' := by
  intro h
  rw [List.getLast?_append] at h
  cases hl : p.getLast? with
  | none => exact hp (List.getLast?_eq_none_iff.1 hl)
  | some c =>
    rw [hl] at h
    injection h with h
    subst h
    exact hs (List.mem_of_getLast? hl)

theorem joins_under : ∀ (parts : List Str) (a : Str), a ≠ [] → a.getLast? ≠ some '/' → (∀ p ∈ parts, p ≠ [] ∧ '/' ∉ p) →
    parts.foldl pathJoin a = joinWith '/' (a :: parts)
  | [], _, _, _, _ => rfl
  | p :: ps, a, ha, hl, h => by
    obtain ⟨hp, hs⟩ := h p (.head _)
    rw [List.foldl_cons, pathJoin_under]
    unfold under
    rw [if_neg (by rintro (h1 | h1); exact ha h1; exact hl h1)]
    rw [joins_under ps _ (by simp) (last_ne_slash hp hs) (fun q hq => h q (.tail _ hq))]
    cases ps with
    | nil => simp [joinWith]
    | cons q qs => simp [joinWith]

/-- **C73**: the configuration named `a.b.c` of a directory is its file `a/b/c.ini`. -/
theorem C73_path (loc : Str) (parts : List Str) (h : GoodParts parts) :
    filePath loc (joinWith '.' parts) = under loc (joinWith '/' parts) ++ ".ini".toList := by
  unfold filePath pathJoins
  rw [split_join (fun p hp => (h.2 p hp).2.1) h.1]
  obtain ⟨hne, h⟩ := h
  cases parts with
  | nil => exact absurd rfl hne
  | cons p ps =>
    obtain ⟨hp, _, hs⟩ := h p (.head _)
    congr 1
    dsimp only
    rw [List.foldl_cons, pathJoin_under]
    have h2 : ∀ q ∈ ps, q ≠ [] ∧ '/' ∉ q := fun q hq => ⟨(h q (.tail _ hq)).1, (h q (.tail _ hq)).2.2⟩
    unfold under
    split
    · rw [joins_under ps _ (by simp [hp]) (last_ne_slash hp hs) h2]
      cases ps <;> simp [joinWith]
    · rw [joins_under ps _ (by simp [hp]) (last_ne_slash hp hs) h2]
      cases ps <;> simp [joinWith]

example : filePath "/p".toList "switch.routes.main".toList = "/p/switch/routes/main.ini".toList ∧
    filePath "/p/".toList "switch".toList = "/p/switch.ini".toList := by decide +kernel

theorem under_inj {d r r' : Str} (h : under d r = under d r') : r = r' := by
  unfold under at h
  split at h <;> exact List.append_cancel_left h

/-- **C73**: configurations of different names have different files. -/
theorem C73_distinct (loc : Str) (parts parts' : List Str) (h : GoodParts parts) (h' : GoodParts parts')
    (he : filePath loc (joinWith '.' parts) = filePath loc (joinWith '.' parts')) : parts = parts' := by
  rw [C73_path _ _ h, C73_path _ _ h'] at he
  have := under_inj (List.append_cancel_right he)
  exact joinWith_inj (fun p hp => (h.2 p hp).2.2) (fun p hp => (h'.2 p hp).2.2) h.1 h'.1 this

example : GoodParts ["a".toList, "b".toList] := by
  unfold GoodParts
  decide +kernel

/-- Names with an empty part do not name files of their own. -/
theorem C73_false_names : filePath "/p".toList "a..b".toList = filePath "/p".toList "a.b".toList := by decide +kernel

theorem addSpec_get : ∀ (spec cfg : Cfg) (k : Str), (addSpec cfg spec).get k = WithSpec cfg spec k
  | [], cfg, k => by
    unfold WithSpec addSpec
    rw [Dict.get_nil, Option.or_none]
  | (j, v) :: l, cfg, k => by
    unfold addSpec
    rw [addSpec_get l _ k]
    unfold WithSpec
    have hg : Dict.get ((j, v) :: l) k = if j = k then some v else Dict.get l k := by
      simp only [Dict.get]
    rw [hg]
    by_cases hj : cfg.has j = true
    · rw [if_pos hj]
      by_cases hk : j = k
      · subst hk
        rw [Dict.has_iff, Dict.mem_keys_iff] at hj
        obtain ⟨w, hw⟩ := hj
        rw [hw]
        rfl
      · rw [if_neg hk]
    · rw [if_neg hj, Dict.get_set]
      by_cases hk : j = k
      · subst hk
        have : cfg.get j = none := by
          rw [Dict.get_eq_none_iff]
          intro hm
          exact hj (Dict.has_iff.2 hm)
        rw [if_pos rfl, if_pos rfl, this]
        rfl
      · rw [if_neg hk, if_neg hk]

theorem exec_append : ∀ (h : List Ev) (s : St) (h' : List Ev), exec s (h ++ h') = exec (exec s h) h'
  | [], _, _ => rfl
  | _ :: h, _, h' => exec_append h _ h'

/-- An event changes a file only if it may. -/
theorem step_files (s : St) (e : Ev) (path : Str) (h : ¬ Touches s path e) : (step s e).1.files path = s.files path := by
  have hupd : ∀ (f : Str → Option (Cfg × Nat)) (p : Str) v, p ≠ path → updFile f p v path = f path := by
    intro f p v hp
    unfold updFile
    rw [if_neg (Ne.symm hp)]
  cases e with
  | set k sec v => rfl
  | del k sec =>
    show (match s.handles[k]? with | none => (s, none) | some h => _ : St × Option Err).1.files path = _
    split
    · rfl
    · split <;> rfl
  | reload k force =>
    show (match s.handles[k]? with | none => (s, none) | some h => _ : St × Option Err).1.files path = _
    split
    · rfl
    · split <;> rfl
  | save k mt =>
    show (match s.handles[k]? with | none => (s, none) | some h => _ : St × Option Err).1.files path = _
    split
    · rfl
    · rename_i hd hk
      by_cases hw : hd.write = true
      · rw [if_pos hw]
        apply hupd
        intro hp
        exact h ⟨hd, hk, hp, hw⟩
      · rw [if_neg hw]
  | other p v => exact hupd _ _ _ h
  | opn i a c loc spec now mt =>
    show (openFile s i a c loc spec now mt).1.files path = _
    unfold openFile
    split
    · rfl
    · split
      · rfl
      · cases loc with
        | none => rfl
        | some loc =>
          dsimp only
          have : (if (s.files (filePath loc i) = none ∧ c = .ifneeded) ∨ c = .overwrite then updFile s.files (filePath loc i) (some ([], mt))
              else s.files) path = s.files path := by
            split
            · rename_i hc
              apply hupd
              intro hp
              apply h
              refine ⟨hp, ?_⟩
              rcases hc with ⟨h1, h2⟩ | h1
              · exact .inr ⟨h2, by rw [← hp]; exact h1⟩
              · exact .inl h1
            · rfl
          split
          · exact this
          · exact this

/-- **C73**: a file is changed only by saving a configuration opened for writing at its path, by creating it, and by others; never by
assigning, deleting and reloading, nor through a configuration opened for reading. -/
theorem C73_frame (path : Str) : ∀ (h : List Ev) (s : St), Untouched path s h → (exec s h).files path = s.files path
  | [], _, _ => rfl
  | e :: h, s, hu => (C73_frame path h _ hu.2).trans (step_files s e path hu.1)

/-- **C73**: saving a configuration opened for reading raises and changes nothing. -/
theorem C73_read_only (s : St) (k mt : Nat) (h : Handle) (hk : s.handles[k]? = some h) (hw : h.write = false) :
    step s (.save k mt) = (s, some .readOnly) := by
  show (match s.handles[k]? with | none => (s, none) | some h => _ : St × Option Err) = _
  rw [hk]
  dsimp only
  rw [hw]
  rfl

/-- **C73**: opening gives the sections of the file, and those of the specification that it has not; it fails exactly when there is no file. -/
theorem C73_open (s : St) (i : Str) (a : Access) (loc : Str) (spec : Cfg) (now mt : Nat) (ha : a ≠ .other) :
    (∀ cfg t, s.files (filePath loc i) = some (cfg, t) → ∃ h, step s (.opn i a .no (some loc) spec now mt) = ({ s with handles := s.handles ++ [h] }, none) ∧
      (∀ k, h.cfg.get k = WithSpec cfg spec k) ∧ h.path = filePath loc i ∧ (h.write = true ↔ a = .write)) ∧
    (s.files (filePath loc i) = none → step s (.opn i a .no (some loc) spec now mt) = (s, some .noFile)) := by
  constructor
  · intro cfg t hf
    refine ⟨⟨filePath loc i, decide (a = .write), spec, now, addSpec cfg spec⟩, ?_, fun k => addSpec_get spec cfg k, rfl, decide_eq_true_iff⟩
    show openFile s i a .no (some loc) spec now mt = _
    unfold openFile
    rw [if_neg ha, if_neg (by decide)]
    dsimp only
    rw [if_neg (by rintro (⟨_, h⟩ | h) <;> cases h), hf]
  · intro hf
    show openFile s i a .no (some loc) spec now mt = _
    unfold openFile
    rw [if_neg ha, if_neg (by decide)]
    dsimp only
    rw [if_neg (by rintro (⟨_, h⟩ | h) <;> cases h), hf]

/-- **C73**: what is saved is what is opened: after saving, and as long as nothing else may change the file, opening it anywhere gives exactly
the sections saved. -/
theorem C73_saved (s : St) (k mt : Nat) (hd : Handle) (hk : s.handles[k]? = some hd) (hw : hd.write = true) (h : List Ev)
    (hu : Untouched hd.path (step s (.save k mt)).1 h) (i loc : Str) (hp : filePath loc i = hd.path) (a : Access) (ha : a ≠ .other) (now mt' : Nat) :
    ∃ h', (step (exec s (.save k mt :: h)) (.opn i a .no (some loc) [] now mt')).1.handles = (exec s (.save k mt :: h)).handles ++ [h'] ∧
      ∀ j, h'.cfg.get j = hd.cfg.get j := by
  have hfile : (step s (.save k mt)).1.files hd.path = some (hd.cfg, mt) := by
    show (match s.handles[k]? with | none => (s, none) | some h => _ : St × Option Err).1.files hd.path = _
    rw [hk]
    dsimp only
    rw [if_pos hw]
    show updFile s.files hd.path (some (hd.cfg, mt)) hd.path = _
    unfold updFile
    rw [if_pos rfl]
  have h2 : (exec s (.save k mt :: h)).files (filePath loc i) = some (hd.cfg, mt) := by
    rw [hp]
    exact (C73_frame hd.path h _ hu).trans hfile
  obtain ⟨h', e1, e2, _⟩ := (C73_open (exec s (.save k mt :: h)) i a loc [] now mt' ha).1 _ _ h2
  refine ⟨h', by rw [e1], ?_⟩
  intro j
  rw [e2]
  unfold WithSpec
  rw [Dict.get_nil, Option.or_none]

def exSec : Dict Str Str := [("a".toList, "1".toList)]
def exSt : St := ⟨fun _ => none, []⟩

example : ((step (exec exSt [.opn "net.x".toList .write .ifneeded (some "/p".toList) [] 5 5, .set 0 "s".toList exSec, .save 0 6])
    (.opn "net.x".toList .read .no (some "/p".toList) [] 9 9)).1.handles.map (·.cfg)) = [[("s".toList, exSec)], [("s".toList, exSec)]] := by
  decide +kernel
example : filePath "/p".toList "net.x".toList = "/p/net/x.ini".toList := by decide +kernel
example : (step (exec exSt [.opn "n".toList .read .ifneeded (some "/p".toList) [] 5 5]) (.save 0 6)).2 = some .readOnly := by decide +kernel

/-- The handles and their opening times, paths and specifications stay. -/
theorem handle_stays (s : St) (e : Ev) (k : Nat) (hd : Handle) (hk : s.handles[k]? = some hd) :
    ∃ hd', (step s e).1.handles[k]? = some hd' ∧ hd'.path = hd.path ∧ hd'.modtime = hd.modtime ∧ hd'.spec = hd.spec := by
  have hmod : ∀ (j : Nat) (f : Handle → Handle), (∀ hd, s.handles[j]? = some hd → (f hd).path = hd.path ∧ (f hd).modtime = hd.modtime ∧ (f hd).spec = hd.spec) →
      ∃ hd', (modHandle s j f).handles[k]? = some hd' ∧ hd'.path = hd.path ∧ hd'.modtime = hd.modtime ∧ hd'.spec = hd.spec := by
    intro j f hf
    show ∃ hd', (s.handles.modify j f)[k]? = some hd' ∧ _
    rw [List.getElem?_modify, hk]
    by_cases hj : j = k
    · subst hj
      refine ⟨f hd, by simp, hf hd hk⟩
    · exact ⟨hd, by simp [hj], rfl, rfl, rfl⟩
  have same : ∃ hd', s.handles[k]? = some hd' ∧ hd'.path = hd.path ∧ hd'.modtime = hd.modtime ∧ hd'.spec = hd.spec := ⟨hd, hk, rfl, rfl, rfl⟩
  cases e with
  | set j sec v => exact hmod j _ (fun _ _ => ⟨rfl, rfl, rfl⟩)
  | del j sec =>
    show ∃ hd', (match s.handles[j]? with | none => (s, none) | some h => _ : St × Option Err).1.handles[k]? = some hd' ∧ _
    split
    · exact same
    · split
      · exact hmod j _ (fun _ _ => ⟨rfl, rfl, rfl⟩)
      · exact same
  | reload j force =>
    show ∃ hd', (match s.handles[j]? with | none => (s, none) | some h => _ : St × Option Err).1.handles[k]? = some hd' ∧ _
    split
    · exact same
    · rename_i h0 hj
      cases hr : reloadHandle s.files h0 force with
      | error x => exact same
      | ok h1 =>
        apply hmod
        intro h2 h3
        rw [hj] at h3
        cases h3
        unfold reloadHandle at hr
        split at hr
        · cases hr
        · split at hr <;> cases hr <;> exact ⟨rfl, rfl, rfl⟩
  | save j mt =>
    show ∃ hd', (match s.handles[j]? with | none => (s, none) | some h => _ : St × Option Err).1.handles[k]? = some hd' ∧ _
    split
    · exact same
    · split <;> exact same
  | other p v => exact same
  | opn i a c loc spec now mt =>
    show ∃ hd', (openFile s i a c loc spec now mt).1.handles[k]? = some hd' ∧ _
    unfold openFile
    split
    · exact same
    · split
      · exact same
      · cases loc with
        | none => exact same
        | some loc =>
          dsimp only
          split
          · exact same
          · refine ⟨hd, ?_, rfl, rfl, rfl⟩
            have hlt : k < s.handles.length := (List.getElem?_eq_some_iff.1 hk).1
            show (s.handles ++ [_])[k]? = some hd
            rw [List.getElem?_append_left hlt]
            exact hk

theorem handle_stays_exec (k : Nat) : ∀ (h : List Ev) (s : St) (hd : Handle), s.handles[k]? = some hd →
    ∃ hd', (exec s h).handles[k]? = some hd' ∧ hd'.path = hd.path ∧ hd'.modtime = hd.modtime ∧ hd'.spec = hd.spec
  | [], _, hd, hk => ⟨hd, hk, rfl, rfl, rfl⟩
  | e :: h, s, hd, hk => by
    obtain ⟨h1, a, b, c, d⟩ := handle_stays s e k hd hk
    obtain ⟨h2, a', b', c', d'⟩ := handle_stays_exec k h _ h1 a
    exact ⟨h2, a', b'.trans b, c'.trans c, d'.trans d⟩

/-- **C73** (partial: changes with a time later than that of opening; C73_false_stale): `reload` shows what somebody else wrote to the file
after it was opened, whatever was done in between, if nothing else may have changed the file since. -/
theorem C73_reload_partial (s : St) (k : Nat) (hd : Handle) (hk : s.handles[k]? = some hd) (cfg : Cfg) (t : Nat) (ht : hd.modtime < t)
    (h1 h2 : List Ev) (hu : Untouched hd.path (exec s (h1 ++ [.other hd.path (some (cfg, t))])) h2) (force : Bool) :
    ∃ hd', (exec s (h1 ++ .other hd.path (some (cfg, t)) :: h2 ++ [.reload k force])).handles[k]? = some hd' ∧
      ∀ j, hd'.cfg.get j = WithSpec cfg hd.spec j := by
  have hs : h1 ++ Ev.other hd.path (some (cfg, t)) :: h2 = (h1 ++ [.other hd.path (some (cfg, t))]) ++ h2 := by simp
  rw [exec_append, hs, exec_append]
  have hf : (exec (exec s (h1 ++ [.other hd.path (some (cfg, t))])) h2).files hd.path = some (cfg, t) := by
    rw [C73_frame _ _ _ hu, exec_append]
    show updFile _ hd.path (some (cfg, t)) hd.path = _
    unfold updFile
    rw [if_pos rfl]
  obtain ⟨x, a, b, c, d⟩ := handle_stays_exec k (h1 ++ [.other hd.path (some (cfg, t))] ++ h2) s hd hk
  rw [exec_append] at a
  generalize exec (exec s (h1 ++ [.other hd.path (some (cfg, t))])) h2 = s' at hf a
  show ∃ hd', (match s'.handles[k]? with | none => (s', none) | some h => _ : St × Option Err).1.handles[k]? = some hd' ∧ _
  rw [a]
  dsimp only
  have hr : reloadHandle s'.files x force = .ok { x with cfg := addSpec cfg x.spec } := by
    unfold reloadHandle
    rw [b, hf]
    dsimp only
    rw [if_pos (.inl (by rw [c]; exact ht))]
  rw [hr]
  dsimp only
  refine ⟨{ x with cfg := addSpec cfg x.spec }, ?_, ?_⟩
  · show (s'.handles.modify k _)[k]? = _
    rw [List.getElem?_modify, a]
    simp
  · intro j
    rw [addSpec_get, d]

example : ((exec exSt [.opn "n".toList .write .ifneeded (some "/p".toList) [("z".toList, [])] 5 5, .set 0 "y".toList [],
    .other "/p/n.ini".toList (some ([("s".toList, exSec)], 6)), .reload 0 false]).handles.map (·.cfg)) = [[("s".toList, exSec), ("z".toList, [])]] := by
  decide +kernel
example : Untouched "/p/n.ini".toList exSt [.set 0 "y".toList [], .opn "m".toList .write .ifneeded (some "/p".toList) [] 5 5, .save 0 6] := by
  refine ⟨(fun h => h), ?_, ?_, trivial⟩
  · rintro ⟨h, _⟩
    revert h
    decide +kernel
  · rintro ⟨h, h1, h2, _⟩
    have : (step (step exSt (.set 0 "y".toList [])).1 (.opn "m".toList .write .ifneeded (some "/p".toList) [] 5 5)).1.handles[0]? =
        some ⟨"/p/m.ini".toList, true, [], 5, []⟩ := by decide +kernel
    rw [this] at h1
    cases h1
    revert h2
    decide +kernel

/-- **C73 is false**: a change in the moment of opening (clocks of files are coarse) is never shown by `reload`. -/
theorem C73_false_stale : ((exec exSt [.opn "n".toList .write .ifneeded (some "/p".toList) [] 5 5, .other "/p/n.ini".toList (some ([("s".toList, exSec)], 5)),
    .reload 0 false]).handles.map (·.cfg)) = [[]] := by decide +kernel

/-- **C73 is false**: `reload` throws away changes that were not saved though nobody changed the file since the last `reload` (here it is
this configuration itself that was saved): the time of the file is always compared with the time of opening. -/
theorem C73_false_lost : ((exec exSt [.opn "n".toList .write .ifneeded (some "/p".toList) [] 5 5, .save 0 6, .reload 0 false,
    .set 0 "s".toList exSec, .reload 0 false]).handles.map (·.cfg)) = [[]] ∧
    ((exec exSt [.opn "n".toList .write .ifneeded (some "/p".toList) [] 5 5, .reload 0 false,
    .set 0 "s".toList exSec, .reload 0 false]).handles.map (·.cfg)) = [[("s".toList, exSec)]] := by decide +kernel

/-- Opening for reading can empty a file. -/
theorem C73_read_overwrites : ((exec exSt [.other "/p/n.ini".toList (some ([("s".toList, exSec)], 5)),
    .opn "n".toList .read .overwrite (some "/p".toList) [] 6 6]).files "/p/n.ini".toList) = some ([], 6) := by decide +kernel

end Verif.Config
