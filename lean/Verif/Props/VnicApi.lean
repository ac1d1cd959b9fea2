import Verif.Lemmas.VnicApi
import Verif.Props.SpmpFramed
/-! # C79: management of a VNIC -/
namespace Verif.VnicApi
open Verif.Spmp (Res)

variable {c : Cfg} {z n d i : Nat} {old : Str} {w : Launch.Write} {s : St}

theorem inv (h : start c (addr z n d i) old w = some s) (es : List Ev) :
    ∃ m p, Launch.Inv z n d i (Launch.Safe c.daemon (daemonEvents es)) (promLevel es) (exec c s es).d m p := by
  obtain ⟨m, p, hi⟩ := Launch.Inv.reachable (start_some h).1 (daemonEvents es)
  rw [level_eq, ← d_exec] at hi
  exact ⟨m, p, hi⟩

/-! ## The promiscuity level -/

/-- C79. `get-promiscuity-level` answers the level last asked for, by whatever way, brought into the range from 0 to 4; 0 before any was. -/
theorem C79_level (h : start c (addr z n d i) old w = some s) (es : List Ev) :
    call c (exec c s es) "get-promiscuity-level".toList [] = (exec c s es, some (.value (natStr (promLevel es)))) := by
  obtain ⟨m, p, hi⟩ := inv h es
  rw [call_some (f := ask c "get-promiscuity-level".toList fun s => natStr (Prom.promiscuousLevel s.d.net)) rfl]
  unfold ask
  dsimp only
  rw [hi.net.level]

/-- C79. So does the answer to a packet on a control connection, which may set the level before. -/
theorem C79_packet (h : start c (addr z n d i) old w = some s) (es : List Ev) (set : Option Int) :
    (promPacket (exec c s es) set).2 = promLevel (es ++ [.packet set]) := by
  obtain ⟨m, p, hi⟩ := inv h (es ++ [.packet set])
  rw [exec_append] at hi
  have := hi.net.level
  cases set <;> exact this

theorem promLevel_snoc (es : List Ev) (e : Ev) {l : Int} (he : levelsAsked [e] = [l]) : promLevel (es ++ [e]) = (min (max l 0) 4).toNat := by
  unfold promLevel
  have : levelsAsked (es ++ [e]) = levelsAsked es ++ [l] := by rw [← he]; unfold levelsAsked; rw [List.flatMap_append]
  rw [this, getLastD_append]
  rfl

theorem asked_prom {a : Str} {l : Int} (ha : pyInt a = some l) : levelsAsked [.request "set-promiscuity-level".toList [a]] = [l] := by
  unfold levelsAsked
  rw [List.flatMap_cons]
  dsimp only
  rw [if_pos rfl, ha]
  rfl

/-- C79. `set-promiscuity-level` with an integer answers None and sets the level; with anything else, or another number of arguments, it answers an exception and
changes nothing. -/
theorem C79_set (h : start c (addr z n d i) old w = some s) (es : List Ev) (args : List Str) :
    (∃ a l, args = [a] ∧ pyInt a = some l ∧
      (call c (exec c s es) "set-promiscuity-level".toList args).2 = some (.value "None".toList) ∧
      promLevel (es ++ [.request "set-promiscuity-level".toList args]) = (min (max l 0) 4).toNat) ∨
    ((¬ ∃ a l, args = [a] ∧ pyInt a = some l) ∧ ∃ e, call c (exec c s es) "set-promiscuity-level".toList args = (exec c s es, some (.raised e))) := by
  rw [prom_call]
  rcases args with _ | ⟨a, _ | ⟨b, as⟩⟩
  · exact .inr ⟨(fun ⟨_, _, h, _⟩ => nomatch h), _, rfl⟩
  · cases ha : pyInt a with
    | none =>
      refine .inr ⟨?_, ?_⟩
      · rintro ⟨a', l, h1, h2⟩
        cases h1
        rw [ha] at h2
        cases h2
      · refine ⟨c.text (.int a), ?_⟩
        unfold setProm
        dsimp only
        rw [ha]
    | some l =>
      refine .inl ⟨a, l, rfl, ha, ?_, promLevel_snoc es _ (asked_prom ha)⟩
      obtain ⟨m, p, hi⟩ := inv h (es ++ [.request "set-promiscuity-level".toList [a]])
      have hd : (exec c s (es ++ [.request "set-promiscuity-level".toList [a]])).d.net = Prom.setLevel (exec c s es).d.net (some l) := by
        rw [exec_append]
        show (call c (exec c s es) "set-promiscuity-level".toList [a]).1.d.net = _
        rw [prom_call]
        unfold setProm
        dsimp only
        rw [ha]
      have hr := Launch.raised_false (a := (exec c s es).d.net) hi.net
      rw [hd] at hr
      unfold setProm
      dsimp only
      rw [ha]
      dsimp only
      rw [hr]
      rfl
  · exact .inr ⟨(fun ⟨_, _, h, _⟩ => nomatch h), _, rfl⟩

/-- C79. While there is a link, the address last announced on it is that of the VNIC with as many components replaced by `*` as the level says. -/
theorem C79_announced (h : start c (addr z n d i) old w = some s) (es : List Ev) (tx : Nat) (hl : tx ∈ (exec c s es).d.links) :
    (Prom.announced tx (exec c s es).d.net.out).getLast? = some (Prom.wild z n d i (promLevel es)) := by
  have h1 := (start_some h).1
  rw [d_exec] at hl ⊢
  rw [← level_eq]
  exact (Launch.C68_announced h1 _ tx hl).1

/-! ## The link -/

/-- C79. `switch-live` answers Connected while there is a link and Not Connected while there is none. -/
theorem C79_live (h : start c (addr z n d i) old w = some s) (es : List Ev) :
    call c (exec c s es) "switch-live".toList [] =
      (exec c s es, some (.value (if (exec c s es).d.links = [] then "Not Connected".toList else "Connected".toList))) := by
  rw [call_some (f := ask c "switch-live".toList (·.d.live)) rfl]
  unfold ask
  dsimp only
  have := Launch.C68_live (start_some h).1 (daemonEvents es)
  rw [← d_exec] at this
  rw [this]

/-- C79. Whatever is asked of the daemon, it dials as before: what can be seen of it is as in `C68`, and as long as the reconnecting listener is alerted there
is a link, an attempt or a timer. -/
theorem C79_dials (h : start c (addr z n d i) old w = some s) (es : List Ev) :
    (∃ m, Launch.Trace (exec c s es).d.out m) ∧
    (Launch.Safe c.daemon (daemonEvents es) → (∃ due, Launch.OnlyTimer (exec c s es).d due) ∨ (∃ k, Launch.OnlyTask (exec c s es).d k) ∨
      ∃ tx, Launch.OnlyLink (exec c s es).d tx) := by
  rw [d_exec]
  exact ⟨Launch.C68_trace (start_some h).1 _, Launch.C68_one_partial (start_some h).1 _⟩

/-- C79. A management request never opens, loses or closes a link, nor does a packet about the level. -/
theorem C79_quiet (s : St) (e : Ev) (he : ∀ x, e ≠ .env x) :
    (step c s e).d.links = s.d.links ∧ (step c s e).d.out = s.d.out ∧ (step c s e).d.files = s.d.files ∧ (step c s e).d.timers = s.d.timers := by
  rw [d_step]
  have : ∀ l, (Launch.exec c.daemon s.d [.setLevel l]).links = s.d.links ∧ (Launch.exec c.daemon s.d [.setLevel l]).out = s.d.out ∧
      (Launch.exec c.daemon s.d [.setLevel l]).files = s.d.files ∧ (Launch.exec c.daemon s.d [.setLevel l]).timers = s.d.timers := fun l => ⟨rfl, rfl, rfl, rfl⟩
  cases e with
  | env x => exact absurd rfl (he x)
  | packet set =>
    cases set with
    | none => exact ⟨rfl, rfl, rfl, rfl⟩
    | some l => exact this _
  | request v args =>
    rcases args with _ | ⟨a, _ | ⟨b, as⟩⟩
    · exact ⟨rfl, rfl, rfl, rfl⟩
    · unfold daemonEvents
      rw [List.flatMap_cons, List.flatMap_nil, List.append_nil]
      dsimp only
      split
      · cases pyInt a with
        | none => exact ⟨rfl, rfl, rfl, rfl⟩
        | some l => exact this _
      · exact ⟨rfl, rfl, rfl, rfl⟩
    · exact ⟨rfl, rfl, rfl, rfl⟩

/-! ## The log level -/

/-- C79. `get-log-level` answers the log level that was last set with success. -/
theorem C79_log (h : start c (addr z n d i) old w = some s) (es : List Ev) :
    call c (exec c s es) "get-log-level".toList [] = (exec c s es, some (.value (logLevel c es))) := by
  obtain ⟨_, h2, h3, _⟩ := start_some h
  rw [call_some (f := ask c "get-log-level".toList (·.level)) rfl]
  unfold ask logLevel
  dsimp only
  rw [(log_exec c es s).2.2, h2, h3]

/-- C79. `set-log-level` answers None when the level is one of the seven and, unless it is NONE or TEST, the log file can be opened; otherwise an exception. -/
theorem C79_setLog (h : start c (addr z n d i) old w = some s) (es : List Ev) (args : List Str) :
    (∃ l, args = [l] ∧ Settable (c.fileOk (1 + (logRequests es).length)) l ∧
      (call c (exec c s es) "set-log-level".toList args).2 = some (.value "None".toList) ∧
      logLevel c (es ++ [.request "set-log-level".toList args]) = l) ∨
    ((¬ ∃ l, args = [l] ∧ Settable (c.fileOk (1 + (logRequests es).length)) l) ∧
      (∃ e, (call c (exec c s es) "set-log-level".toList args).2 = some (.raised e)) ∧
      logLevel c (es ++ [.request "set-log-level".toList args]) = logLevel c es) := by
  obtain ⟨_, h2, h3, _⟩ := start_some h
  have hcalls : (exec c s es).calls = 1 + (logRequests es).length := by rw [(log_exec c es s).2.1, h3]
  have hl : ∀ e, logLevel c (es ++ [e]) = (goodFrom c.fileOk (1 + (logRequests es).length) (logRequests [e])).getLastD (logLevel c es) := by
    intro e
    unfold logLevel
    have : logRequests (es ++ [e]) = logRequests es ++ logRequests [e] := by unfold logRequests; rw [List.flatMap_append]
    rw [this, good_append, getLastD_append]
  rw [hl, log_call]
  rcases args with _ | ⟨a, _ | ⟨b, as⟩⟩
  · exact .inr ⟨(fun ⟨_, h, _⟩ => nomatch h), ⟨_, rfl⟩, rfl⟩
  · have hq : logRequests [.request "set-log-level".toList [a]] = [a] := by
      unfold logRequests
      rw [List.flatMap_cons]
      dsimp only
      rw [if_pos rfl]; rfl
    have hr := raises c.aux (c.fileOk (exec c s es).calls) (exec c s es).log a
    rw [hq, goodFrom, ← hcalls]
    unfold setLogLevel
    dsimp only
    cases hp : Logging.enablePreset c.aux (c.fileOk (exec c s es).calls) (exec c s es).log (preset a) with
    | mk log f =>
      rw [hp] at hr
      dsimp only at hr
      cases f with
      | true =>
        have hn : ¬ Settable (c.fileOk (exec c s es).calls) a := fun x => absurd (hr.2 x) (by simp)
        rw [if_neg hn]
        refine .inr ⟨?_, ⟨_, rfl⟩, rfl⟩
        rintro ⟨l, h1, h2⟩
        cases h1
        exact hn h2
      | false =>
        rw [if_pos (hr.1 rfl)]
        exact .inl ⟨a, rfl, hr.1 rfl, rfl, rfl⟩
  · exact .inr ⟨(fun ⟨_, h, _⟩ => nomatch h), ⟨_, rfl⟩, rfl⟩

/-- The history of logging. -/
def logHistory (c : Cfg) (es : List Ev) : List Logging.Ev := .preset .dbg true :: presets c.fileOk 1 (logRequests es)

theorem log_eq (h : start c (addr z n d i) old w = some s) (es : List Ev) : (exec c s es).log = Logging.exec c.aux .init (logHistory c es) := by
  obtain ⟨_, _, h3, _, h5⟩ := start_some h
  rw [(log_exec c es s).1, h3, h5]
  rfl

theorem logged_eq (h : start c (addr z n d i) old w = some s) (es : List Ev) (name : Str) (l : Nat) :
    logged (exec c s es) name l = Logging.writtenTo c.aux (logHistory c es) name l := by
  unfold logged Logging.writtenTo
  rw [logging_append, ← log_eq h]
  show _ = List.map _ (List.drop _ (_ ++ _))
  rw [List.drop_left, List.map_map]
  exact (List.map_id'' (fun _ => rfl) _).symm

theorem calls_presets (ok : Nat → Bool) (ls : List Str) : ∀ k, Logging.calls (presets ok k ls) = (ls.zipIdx k).map fun x => (preset x.1, ok x.2) := by
  induction ls with
  | nil => intro k; rfl
  | cons l ls ih =>
    intro k
    rw [presets, List.zipIdx_cons, List.map_cons, ← ih]
    rfl

theorem calls_last (c : Cfg) (es : List Ev) (l : Str) (hl : (logRequests es).getLast? = some l) :
    (Logging.calls (logHistory c es)).getLast? = some (preset l, c.fileOk (logRequests es).length) := by
  have : Logging.calls (logHistory c es) = (.dbg, true) :: Logging.calls (presets c.fileOk 1 (logRequests es)) := rfl
  rw [this, calls_presets]
  obtain ⟨a, ha⟩ := List.getLast?_eq_some_iff.1 hl
  rw [ha, List.zipIdx_append, List.map_append, List.length_append, List.length_singleton, List.zipIdx_cons, List.zipIdx_nil, List.map_cons, List.map_nil,
    ← List.cons_append, List.getLast?_concat, Nat.add_comm 1]

theorem means {l : Str} {e f : Option Nat} (h : (l, e, f) ∈ meanings) : Logging.toStderr (preset l) = e ∧ Logging.toFile (preset l) = f := by
  simp only [meanings, List.mem_cons, List.not_mem_nil, or_false, Prod.mk.injEq] at h
  rcases h with h | h | h | h | h | h | h <;> (rcases h with ⟨rfl, rfl, rfl⟩; exact ⟨rfl, rfl⟩)

/-- C79 (partial: not for the loggers of `asyncio` and of modules that programs add, see `C70_false_sticky`). When the last `set-log-level` succeeded, the messages of Playground's own loggers go from then on where that level
says, whatever was set before: to stderr, and to a log file, those of at least the level's own bounds and no others. -/
theorem C79_log_means_partial (h : start c (addr z n d i) old w = some s) (es : List Ev) (l : Str) (e f : Option Nat) (hm : (l, e, f) ∈ meanings)
    (hl : (logRequests es).getLast? = some l) (hs : Settable (c.fileOk (logRequests es).length) l) (name : Str)
    (hu : Logging.Under "playground".toList name) (ht : ∀ tag, ¬ Logging.HasTag name tag) (v : Nat) :
    (0 ∈ logged (exec c s es) name v ↔ ∃ m, e = some m ∧ (v = 0 ∨ m ≤ v)) ∧
    ((∃ k, k ≠ 0 ∧ k ∈ logged (exec c s es) name v) ↔ ∃ m, f = some m ∧ (v = 0 ∨ m ≤ v)) := by
  rw [logged_eq h]
  have := Logging.C70_playground_partial c.aux (logHistory c es) name v hu ht _ _ (calls_last c es l hl)
  obtain ⟨m1, m2⟩ := means hm
  rw [m1, m2] at this
  refine ⟨this.1, this.2.trans ⟨fun x => x.2, fun x => ⟨?_, x⟩⟩⟩
  obtain ⟨m, hf, _⟩ := x
  subst hf
  rcases hs with hs | hs
  · exfalso
    simp only [List.mem_cons, List.not_mem_nil, or_false] at hs
    rcases hs with rfl | rfl <;> cases m2
  · exact hs.2

/-- The claim that the log level answered is the one in force is false: before the first `set-log-level` the answer is NONE, and everything is logged, to stderr and to
the log file. -/
theorem C79_false_level (h : start c (addr z n d i) old w = some s) (es : List Ev) (hn : logRequests es = []) (name : Str)
    (hu : Logging.Under "playground".toList name) (ht : ∀ tag, ¬ Logging.HasTag name tag) (v : Nat) :
    call c (exec c s es) "get-log-level".toList [] = (exec c s es, some (.value "NONE".toList)) ∧
    0 ∈ logged (exec c s es) name v ∧ ∃ k, k ≠ 0 ∧ k ∈ logged (exec c s es) name v := by
  refine ⟨?_, ?_⟩
  · rw [C79_log h]
    unfold logLevel
    rw [hn]
    rfl
  · rw [logged_eq h]
    have := Logging.C70_playground_partial c.aux (logHistory c es) name v hu ht .dbg true (by unfold logHistory; rw [hn]; rfl)
    exact ⟨this.1.2 ⟨0, rfl, by omega⟩, this.2.2 ⟨rfl, 0, rfl, by omega⟩⟩

/-- Nor is it after a `set-log-level` that was refused because there is no such level: the answer is as before, and nothing is logged any more. -/
theorem C79_false_refused (h : start c (addr z n d i) old w = some s) (es : List Ev) (l : Str) (hl : ∀ e f, (l, e, f) ∉ meanings) (name : Str) (v : Nat) :
    (∃ e, (call c (exec c s es) "set-log-level".toList [l]).2 = some (.raised e)) ∧
    logLevel c (es ++ [.request "set-log-level".toList [l]]) = logLevel c es ∧
    logged (exec c s (es ++ [.request "set-log-level".toList [l]])) name v = [] := by
  have hk : ∀ ok, ¬ Settable ok l := by
    rintro ok hx
    unfold Settable at hx
    simp only [List.mem_cons, List.not_mem_nil, or_false] at hx
    rcases hx with (rfl | rfl) | ⟨rfl | rfl | rfl | rfl | rfl, _⟩
    · exact hl none none (by simp [meanings])
    · exact hl (some 0) none (by simp [meanings])
    · exact hl none (some 40) (by simp [meanings])
    · exact hl none (some 20) (by simp [meanings])
    · exact hl (some 40) (some 10) (by simp [meanings])
    · exact hl (some 0) (some 0) (by simp [meanings])
    · exact hl (some 0) (some 10) (by simp [meanings])
  have hp : preset l = .unknown := by
    have hr := raises c.aux true .init l
    cases hq : preset l with
    | unknown => rfl
    | _ => exact absurd (hr.1 (by rw [hq]; rfl)) (hk true)
  rcases C79_setLog h es [l] with ⟨l', h1, h2, _⟩ | ⟨_, h2, h3⟩
  · cases h1
    exact absurd h2 (hk _)
  · refine ⟨h2, h3, ?_⟩
    rw [logged_eq h]
    have hq : logRequests (es ++ [.request "set-log-level".toList [l]]) = logRequests es ++ [l] := by
      unfold logRequests
      rw [List.flatMap_append]
      congr 1
    have hh : logHistory c (es ++ [.request "set-log-level".toList [l]]) = logHistory c es ++ [.preset .unknown (c.fileOk (1 + (logRequests es).length))] := by
      unfold logHistory
      rw [hq, presets_append, presets, presets, hp]
      rfl
    rw [hh]
    exact (Logging.C70_false_unknown c.aux .init (logHistory c es) _ name v).2

/-! ## The rest -/

/-- C79. `verbs` lists exactly the verbs that the daemon knows; another verb is unknown. -/
theorem C79_verbs (c : Cfg) (s : St) (v : Str) (args : List Str) :
    call c s "verbs".toList [] = (s, some (.value (WanApi.commas verbs))) ∧ ((call c s v args).2 = none ↔ v ∉ verbs) := by
  refine ⟨rfl, ?_⟩
  rcases api_get c v with ⟨h, h'⟩ | ⟨h, h'⟩ | ⟨_, _, ⟨h', h⟩ | ⟨h, a, h'⟩⟩
  · rw [call_some h', h]; simp [verbs]
  · rw [call_some h', h]; simp [verbs]
  · unfold call; rw [h']; simp [h]
  · rw [call_some h']; simp [h]

/-- C79. Only `set-promiscuity-level` and `set-log-level` change anything; and with the wrong number of arguments nothing changes and an exception is answered. -/
theorem C79_arguments (c : Cfg) (s : St) (v : Str) (args : List Str) (hv : v ∈ verbs) :
    (v ≠ "set-promiscuity-level".toList → v ≠ "set-log-level".toList → (call c s v args).1 = s) ∧
    (args.length ≠ (if v = "set-promiscuity-level".toList ∨ v = "set-log-level".toList then 1 else 0) →
      ∃ e, call c s v args = (s, some (.raised e))) := by
  refine ⟨request_same c s v args, fun hn => ?_⟩
  rcases api_get c v with ⟨h, h'⟩ | ⟨h, h'⟩ | ⟨h1, h2, ⟨h', h⟩ | ⟨h, a, h'⟩⟩
  · rw [if_pos (.inl h)] at hn
    rw [call_some h']
    rcases args with _ | ⟨x, _ | ⟨y, as⟩⟩
    · exact ⟨_, rfl⟩
    · exact absurd rfl hn
    · exact ⟨_, rfl⟩
  · rw [if_pos (.inr h)] at hn
    rw [call_some h']
    rcases args with _ | ⟨x, _ | ⟨y, as⟩⟩
    · exact ⟨_, rfl⟩
    · exact absurd rfl hn
    · exact ⟨_, rfl⟩
  · exact absurd hv h
  · rw [if_neg (fun x => x.elim h1 h2)] at hn
    rw [call_some h']
    rcases args with _ | ⟨x, as⟩
    · exact absurd rfl hn
    · exact ⟨_, rfl⟩

/-! ## Asking for the level that is set -/

theorem mode_update (s : Prom.St) (l : Nat) : (Prom.update s l).mode = s.mode := by
  unfold Prom.update
  split
  · split
    · unfold Prom.change; split <;> rfl
    · rfl
  · rfl

theorem mode_setLevel (s : Prom.St) (l : Option Int) : (Prom.setLevel s l).mode.isSome = true := by
  unfold Prom.setLevel
  split
  · rw [mode_update]; rfl
  · next h =>
    have : s.mode = some (Prom.clampLevel l) := by
      by_cases hm : s.mode = some (Prom.clampLevel l)
      · exact hm
      · exact absurd hm h
    rw [this]; rfl

theorem mode_made (s : Prom.St) (tx : Nat) : (Prom.made s tx).mode = s.mode := by
  have hc : ∀ (x : Prom.St) a, (Prom.change x tx a).mode = x.mode := by
    intro x a
    unfold Prom.change
    split <;> rfl
  unfold Prom.made
  dsimp only
  split
  · rw [mode_update]; exact hc _ _
  · exact hc _ _

theorem mode_factory (s : Prom.St) : (Prom.factory s).mode = s.mode := by
  unfold Prom.factory
  dsimp only
  split
  · split <;> rfl
  · rfl

theorem net_alert (c : Launch.Cfg) (w : Launch.Write) (s : Launch.St) (a : Launch.Alert) : (Launch.alert c w s a).1.net = s.net := by
  cases a with
  | connectionMade => obtain ⟨f, h⟩ := Launch.alert_made c w s; rw [h]
  | connectionLost => obtain ⟨f, h | ⟨_, _, h⟩⟩ := Launch.alert_lost c w s <;> rw [h]

theorem mode_step (c : Launch.Cfg) (s : Launch.St) (e : Launch.Ev) (h : s.net.mode.isSome = true ∨ ∃ l, e = .setLevel l) :
    (Launch.step c s e).net.mode.isSome = true := by
  cases e with
  | setLevel l => exact mode_setLevel _ _
  | wait m => exact h.resolve_right (fun ⟨_, h⟩ => nomatch h)
  | fire due => unfold Launch.step; dsimp only; split <;> exact h.resolve_right (fun ⟨_, h⟩ => nomatch h)
  | refuse k => unfold Launch.step; dsimp only; split <;> exact h.resolve_right (fun ⟨_, h⟩ => nomatch h)
  | accept k =>
    have := h.resolve_right (fun ⟨_, h⟩ => nomatch h)
    unfold Launch.step; dsimp only; split
    · show (Prom.factory s.net).mode.isSome = true
      rw [mode_factory]; exact this
    · exact this
  | made k w =>
    have := h.resolve_right (fun ⟨_, h⟩ => nomatch h)
    unfold Launch.step; dsimp only; split
    · unfold Launch.connectionMade
      dsimp only
      split
      · show (Prom.made s.net _).mode.isSome = true
        rw [mode_made]; exact this
      · rw [net_alert]
        show (Prom.made s.net _).mode.isSome = true
        rw [mode_made]; exact this
    · exact this
  | lost tx w =>
    have := h.resolve_right (fun ⟨_, h⟩ => nomatch h)
    unfold Launch.step; dsimp only; split
    · unfold Launch.connectionLost
      dsimp only
      rw [net_alert]
      exact this
    · exact this
  | finish k =>
    have := h.resolve_right (fun ⟨_, h⟩ => nomatch h)
    unfold Launch.step; dsimp only; split
    · exact this
    · exact this
    · exact this

theorem mode_exec (c : Launch.Cfg) : ∀ (es : List Launch.Ev) (s : Launch.St), (s.net.mode.isSome = true ∨ ∃ l, .setLevel l ∈ es) →
    (Launch.exec c s es).net.mode.isSome = true
  | [], s, h => h.resolve_right (fun ⟨_, h⟩ => nomatch h)
  | e :: es, s, h => by
    refine mode_exec c es _ ?_
    rcases h with h | ⟨l, h⟩
    · exact .inl (mode_step c s e (.inl h))
    · rcases List.mem_cons.1 h with h | h
      · exact .inl (mode_step c s e (.inr ⟨l, h.symm⟩))
      · exact .inr ⟨l, h⟩

theorem asked_sets {es : List Ev} (h : levelsAsked es ≠ []) : ∃ l, Launch.Ev.setLevel l ∈ daemonEvents es := by
  obtain ⟨x, hx⟩ := List.exists_mem_of_ne_nil _ h
  unfold levelsAsked at hx
  obtain ⟨e, he, hx⟩ := List.mem_flatMap.1 hx
  unfold daemonEvents
  cases e with
  | env y =>
    cases y with
    | setLevel l => exact ⟨l, List.mem_flatMap.2 ⟨_, he, by simp⟩⟩
    | _ => cases hx
  | packet set =>
    cases set with
    | none => cases hx
    | some l => exact ⟨some l, List.mem_flatMap.2 ⟨_, he, by simp⟩⟩
  | request v args =>
    rcases args with _ | ⟨a, _ | ⟨b, as⟩⟩
    · cases hx
    · dsimp only at hx
      by_cases hv : v = "set-promiscuity-level".toList
      · rw [if_pos hv] at hx
        refine ⟨some x, List.mem_flatMap.2 ⟨_, he, ?_⟩⟩
        dsimp only
        rw [if_pos hv]
        exact List.mem_map.2 ⟨x, hx, rfl⟩
      · rw [if_neg hv] at hx; cases hx
    · cases hx

/-- C79 (partial: not for the first time a level is asked for). Asking for the level that is set changes nothing, in particular nothing is announced. -/
theorem C79_same_partial (h : start c (addr z n d i) old w = some s) (es : List Ev) (hne : levelsAsked es ≠ []) (a : Str) (l : Int) (ha : pyInt a = some l)
    (hl : (min (max l 0) 4).toNat = promLevel es) :
    exec c s (es ++ [.request "set-promiscuity-level".toList [a]]) = exec c s es := by
  obtain ⟨m, p, hi⟩ := inv h es
  have hm := mode_exec c.daemon (daemonEvents es) s.d (.inr (asked_sets hne))
  rw [← d_exec] at hm
  have hs : Prom.setLevel (exec c s es).d.net (some l) = (exec c s es).d.net := by
    unfold Prom.setLevel
    have hv := hi.net.level
    unfold Prom.promiscuousLevel at hv
    cases hq : (exec c s es).d.net.mode with
    | none => rw [hq] at hm; cases hm
    | some k =>
      rw [hq] at hv
      dsimp only at hv
      rw [if_neg]
      rw [Prom.clamp_asked, hv, ← hl]
      simp [Prom.asked]
  rw [exec_append]
  show (call c (exec c s es) "set-promiscuity-level".toList [a]).1 = _
  rw [prom_call]
  unfold setProm
  dsimp only
  rw [ha]
  dsimp only
  rw [hs]

/-! ## Examples -/

/-- A daemon at 20174.1.2.3; the log file cannot be opened at the second request to set the log level. -/
def exCfg : Cfg := ⟨Launch.exCfg true, fun _ => "error".toList, [], fun k => k != 2⟩

def exRun (es : List Ev) : Option St := (start exCfg (addr 20174 1 2 3) [] .ok).map fun s => exec exCfg s es

def req (v : String) (args : List String) : Ev := .request v.toList (args.map String.toList)

/-- The level is set before the link comes up, wrongly asked for, and set again by a control connection. -/
def exHist : List Ev := [req "set-promiscuity-level" [" 2 "], .env (.accept 0), .env (.made 0 .ok), req "set-promiscuity-level" ["x"], .packet (some 9),
  .packet none, req "set-promiscuity-level" ["-1"], req "set-log-level" ["QUIET"], req "set-log-level" ["MAX"], req "set-promiscuity-level" ["3"]]

def answer (es : List Ev) (v : String) : Option Res := ((exRun es).map fun s => (call exCfg s v.toList []).2).join

example : (start exCfg (addr 20174 1 2 3) [] .ok).isSome = true := by decide +kernel
example : levelsAsked exHist = [2, 9, -1, 3] ∧ promLevel exHist = 3 ∧ promLevel (exHist.take 6) = 4 ∧ promLevel (exHist.take 7) = 0 ∧ promLevel [] = 0 := by decide +kernel
example : answer exHist "get-promiscuity-level" = some (.value "3".toList) ∧ answer (exHist.take 5) "get-promiscuity-level" = some (.value "4".toList) := by decide +kernel
example : (exRun exHist).map (fun s => (s.d.links, Prom.announced 0 s.d.net.out)) =
    some ([0], ["20174.1.2.3".toList, "20174.1.*.*".toList, "*.*.*.*".toList, "20174.1.2.3".toList, "20174.*.*.*".toList]) := by decide +kernel
example : answer exHist "switch-live" = some (.value "Connected".toList) ∧ answer [] "switch-live" = some (.value "Not Connected".toList) := by decide +kernel
example : answer exHist "get-log-level" = some (.value "QUIET".toList) ∧ logLevel exCfg exHist = "QUIET".toList ∧ logRequests exHist = ["QUIET".toList, "MAX".toList] := by decide +kernel
example : answer [] "verbs" = some (.value
    "verbs, get-promiscuity-level, set-promiscuity-level, all-log-levels, get-log-level, set-log-level, switch-live".toList) := by decide +kernel
example : (logRequests (exHist.take 8)).getLast? = some "QUIET".toList ∧ ("QUIET".toList, none, some 20) ∈ meanings ∧
    Settable (exCfg.fileOk (logRequests (exHist.take 8)).length) "QUIET".toList := by decide +kernel
example : Logging.Under "playground".toList "playground.network".toList := ⟨"network".toList, rfl⟩
example : (exRun (exHist.take 8)).map (fun s => (logged s "playground.network".toList 20, logged s "playground.network".toList 19)) = some ([2], []) := by decide +kernel
example : (exRun [req "set-log-level" ["LOUD"]]).map (fun s => (s.level, logged s "playground.network".toList 50)) = some ("NONE".toList, []) := by decide +kernel
example : (exRun []).map (fun s => (s.level, logged s "playground.network".toList 50)) = some ("NONE".toList, [0, 1]) := by decide +kernel

/-- Without its condition `C79_same_partial` is false: the first request to set the level to 0, which it is, announces the address once more. (At an unreliable switch,
each announcement puts the packets of the link through one more layer of errors and delays: `C75_false_rate`.) -/
theorem C79_false_same : promLevel [.env (.accept 0), .env (.made 0 .ok)] = 0 ∧
    (exRun [.env (.accept 0), .env (.made 0 .ok)]).map (fun s => Prom.announced 0 s.d.net.out) = some ["20174.1.2.3".toList] ∧
    (exRun [.env (.accept 0), .env (.made 0 .ok), req "set-promiscuity-level" ["0"]]).map (fun s => Prom.announced 0 s.d.net.out) =
      some ["20174.1.2.3".toList, "20174.1.2.3".toList] := by decide +kernel

/-- A refused request may leave the log where it was not before: when the log file cannot be opened, `set-log-level VERBOSE` answers an exception, `get-log-level` answers
the level before, and errors go to stderr. -/
theorem C79_false_halfway : (exRun [req "set-log-level" ["NONE"]]).map (fun s => logged s "playground.network".toList 50) = some [] ∧
    ((exRun [req "set-log-level" ["NONE"]]).map fun s => (call exCfg s "set-log-level".toList ["VERBOSE".toList]).2) = some (some (.raised "error".toList)) ∧
    (exRun [req "set-log-level" ["NONE"], req "set-log-level" ["VERBOSE"]]).map (fun s => (s.level, logged s "playground.network".toList 50)) = some ("NONE".toList, [0]) := by
  decide +kernel

end Verif.VnicApi
