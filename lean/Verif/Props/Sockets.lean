import Verif.Model.Sockets
import Verif.Props.ConnectorClose
/-! # C100: the sockets of a server -/
namespace Verif.Callback
open Verif.Cli (Kind)

/-- The table of connections is in order. -/
structure Tidy (s : St) : Prop where
  inv : Inv s
  wfb : Dict.WF s.backptr
  back : ∀ n cid, s.backptr.get n = some cid ↔ n ∈ conns s cid
  nodup : ∀ cid, (conns s cid).Nodup
  running : ∀ n cid, n ∈ conns s cid → n < s.nProto ∧ (s.proto n).made = true ∧ Eff.closed n ∉ s.out
  gone : ∀ n, Eff.closed n ∈ s.out → n < s.nProto ∧ (s.proto n).made = true
  kept : ∀ n, n < s.nProto → (s.proto n).made = true → Eff.closed n ∈ s.out ∨ ∃ cid, n ∈ conns s cid
  bm : ∀ n k f, Eff.built n k f ∈ s.out → n < s.nProto ∧ (s.proto n).made = true

theorem Tidy.init : Tidy .init where
  inv := Inv.init
  wfb := Dict.WF.nil
  back := fun n cid => by simp [St.init, conns]
  nodup := fun cid => by simp [St.init, conns]
  running := fun n cid h => by simp [St.init, conns] at h
  gone := fun n h => by simp [St.init] at h
  kept := fun n h => by simp [St.init] at h
  bm := fun n k f h => by simp [St.init] at h

/-- Without the invariant of the tables of what waits. -/
structure Tidy' (s : St) : Prop where
  wfb : Dict.WF s.backptr
  back : ∀ n cid, s.backptr.get n = some cid ↔ n ∈ conns s cid
  nodup : ∀ cid, (conns s cid).Nodup
  running : ∀ n cid, n ∈ conns s cid → n < s.nProto ∧ (s.proto n).made = true ∧ Eff.closed n ∉ s.out
  gone : ∀ n, Eff.closed n ∈ s.out → n < s.nProto ∧ (s.proto n).made = true
  kept : ∀ n, n < s.nProto → (s.proto n).made = true → Eff.closed n ∈ s.out ∨ ∃ cid, n ∈ conns s cid
  bm : ∀ n k f, Eff.built n k f ∈ s.out → n < s.nProto ∧ (s.proto n).made = true

theorem Tidy.weak {s : St} (h : Tidy s) : Tidy' s := ⟨h.wfb, h.back, h.nodup, h.running, h.gone, h.kept, h.bm⟩
theorem Tidy'.strong {s : St} (h : Tidy' s) (hi : Inv s) : Tidy s := ⟨hi, h.wfb, h.back, h.nodup, h.running, h.gone, h.kept, h.bm⟩

theorem conns_set (s : St) (cid c : Nat) (l : List Nat) (x : Dict Nat (List Nat)) (hx : x = s.spawn.set cid l) (t : St) (ht : t.spawn = x) :
    conns t c = if cid = c then l else conns s c := by
  unfold conns
  rw [ht, hx, Dict.get_set]
  split <;> rfl

theorem Tidy'.tryBuild {s : St} {p : Nat} (h : Tidy' s)
    (dat : ∀ n, s.dataProtocols.get p = some n → n < s.nProto ∧ (s.proto n).made = false) : Tidy' (tryBuild s p) := by
  unfold Callback.tryBuild
  split
  · next cid k app n _ hn =>
    obtain ⟨hlt, hm⟩ := dat n hn
    have hno : ∀ c, n ∉ conns s c := fun c hc => by
      have := (h.running n c hc).2.1
      rw [hm] at this; exact nomatch this
    have hcl : Eff.closed n ∉ s.out := fun hc => by
      have := (h.gone n hc).2
      rw [hm] at this; exact nomatch this
    have hconns : ∀ c, conns (build s p n cid k app) c = if cid = c then conns s cid ++ [n] else conns s c := fun c =>
      conns_set s cid c _ _ rfl _ rfl
    have hproto : ∀ m, ((build s p n cid k app).proto m).made = if m = n then true else (s.proto m).made := by
      intro m
      show (if m = n then { s.proto n with made := true, backlog := [] } else s.proto m).made = _
      split <;> rfl
    have hout : ∀ m, Eff.closed m ∈ (build s p n cid k app).out ↔ Eff.closed m ∈ s.out := by
      intro m
      show _ ∈ s.out ++ _ :: _ ↔ _
      simp
    have hblt : ∀ m k' f, Eff.built m k' f ∈ (build s p n cid k app).out → Eff.built m k' f ∈ s.out ∨ m = n := by
      intro m k' f hh
      have hh : Eff.built m k' f ∈ s.out ++ .built n k app :: (s.proto n).backlog.map (.push n) := hh
      simp at hh
      rcases hh with hh | hh
      · exact .inl hh
      · exact .inr hh.1
    refine ⟨h.wfb.set _ _, ?_, ?_, ?_, ?_, ?_, ?_⟩
    · intro m c
      show (s.backptr.set n cid).get m = _ ↔ _
      rw [Dict.get_set, hconns]
      by_cases e : n = m
      · subst e
        rw [if_pos rfl]
        by_cases e2 : cid = c
        · simp [e2]
        · rw [if_neg e2]; simp [e2, hno]
      · rw [if_neg e, h.back]
        by_cases e2 : cid = c
        · subst e2; simp [Ne.symm e]
        · rw [if_neg e2]
    · intro c
      rw [hconns]
      split
      · rw [List.nodup_append]
        refine ⟨h.nodup cid, by simp, ?_⟩
        intro a ha b hb e
        simp at hb
        subst e hb
        exact hno cid ha
      · exact h.nodup c
    · intro m c hm'
      rw [hproto, hout]
      by_cases e : m = n
      · subst e; rw [if_pos rfl]; exact ⟨hlt, rfl, hcl⟩
      · rw [if_neg e]
        rw [hconns] at hm'
        split at hm'
        · simp [e] at hm'; exact h.running m cid hm'
        · exact h.running m c hm'
    · intro m hm'
      rw [hout] at hm'
      have := h.gone m hm'
      rw [hproto]
      exact ⟨this.1, by split <;> simp [this.2]⟩
    · intro m hl hm'
      rw [hout]
      by_cases e : m = n
      · subst e; right; exact ⟨cid, by rw [hconns, if_pos rfl]; simp⟩
      · rw [hproto, if_neg e] at hm'
        rcases h.kept m hl hm' with hk | ⟨c, hk⟩
        · exact .inl hk
        · right
          refine ⟨c, ?_⟩
          rw [hconns]
          split
          · next e2 => subst e2; simp [hk]
          · exact hk
    · intro m k' f hm'
      rw [hproto]
      rcases hblt m k' f hm' with hx | hx
      · have := h.bm m k' f hx
        exact ⟨this.1, by split <;> simp [this.2]⟩
      · subst hx; exact ⟨hlt, by simp⟩
  · exact h

theorem Tidy.step {s : St} (h : Tidy s) (e : Ev) : Tidy (step s e) := by
  have hi := h.inv.step e
  cases e with
  | conn p =>
    refine Tidy'.strong (Tidy'.tryBuild ?_ ?_) hi
    · have pr : ∀ n, n < s.nProto → ({ setP s s.nProto ⟨p, false, [], false⟩ with nProto := s.nProto + 1, dataProtocols := s.dataProtocols.set p s.nProto } : St).proto n = s.proto n := by
        intro n hn
        show (if n = s.nProto then _ else s.proto n) = _
        rw [if_neg (by omega)]
      refine ⟨h.wfb, h.back, h.nodup, ?_, ?_, ?_, ?_⟩
      · intro n c hc
        obtain ⟨h1, h2, h3⟩ := h.running n c hc
        exact ⟨Nat.lt_succ_of_lt h1, by rw [pr n h1]; exact h2, h3⟩
      · intro n hc
        obtain ⟨h1, h2⟩ := h.gone n hc
        exact ⟨Nat.lt_succ_of_lt h1, by rw [pr n h1]; exact h2⟩
      · intro n hl hm
        have hl : n < s.nProto + 1 := hl
        by_cases e : n = s.nProto
        · subst e
          have : (if s.nProto = s.nProto then (⟨p, false, [], false⟩ : Proto) else s.proto s.nProto).made = true := hm
          rw [if_pos rfl] at this
          exact nomatch this
        · rw [pr n (by omega)] at hm
          exact h.kept n (by omega) hm
      · intro n k f hc
        obtain ⟨h1, h2⟩ := h.bm n k f hc
        exact ⟨Nat.lt_succ_of_lt h1, by rw [pr n h1]; exact h2⟩
    · intro n hn
      have hn : (s.dataProtocols.set p s.nProto).get p = some n := hn
      rw [Dict.get_set_self] at hn
      cases hn
      refine ⟨Nat.lt_succ_self _, ?_⟩
      show (if s.nProto = s.nProto then (⟨p, false, [], false⟩ : Proto) else _).made = false
      rw [if_pos rfl]
  | announce cid k app p =>
    refine Tidy'.strong (Tidy'.tryBuild ⟨h.wfb, h.back, h.nodup, h.running, h.gone, h.kept, h.bm⟩ ?_) hi
    intro n hn
    have := h.inv.dat p n hn
    exact ⟨this.1, this.2.2⟩
  | data n d =>
    simp only [Callback.step] at hi ⊢
    split
    · next hc =>
      rw [if_pos hc] at hi
      unfold Callback.data at hi ⊢
      split
      · next hm =>
        rw [if_pos hm] at hi
        refine ⟨hi, h.wfb, h.back, h.nodup, ?_, ?_, ?_, ?_⟩
        · intro m c hmc
          have := h.running m c hmc
          exact ⟨this.1, this.2.1, by simpa using this.2.2⟩
        · intro m hmc
          exact h.gone m (by simpa using hmc)
        · intro m hl hmm
          rcases h.kept m hl hmm with hk | hk
          · exact .inl (by simp [hk])
          · exact .inr hk
        · intro m k f hmc
          exact h.bm m k f (by simpa using hmc)
      · next hm =>
        rw [if_neg hm] at hi
        have pr : ∀ m, ((setP s n { s.proto n with backlog := (s.proto n).backlog ++ [d] }).proto m).made = (s.proto m).made := by
          intro m
          show (if m = n then _ else s.proto m).made = _
          split
          · next e => subst e; rfl
          · rfl
        refine ⟨hi, h.wfb, h.back, h.nodup, ?_, ?_, ?_, ?_⟩
        · intro m c hmc; rw [pr]; exact h.running m c hmc
        · intro m hmc; rw [pr]; exact h.gone m hmc
        · intro m hl hmm; rw [pr] at hmm; exact h.kept m hl hmm
        · intro m k f hmc; rw [pr]; exact h.bm m k f hmc
    · exact h
  | lost n =>
    simp only [Callback.step] at hi ⊢
    split
    · next hc =>
      rw [if_pos hc] at hi
      refine Tidy'.strong ?_ hi
      unfold Callback.lost
      dsimp only
      have pr : ∀ m, ((setP s n { s.proto n with lost := true }).proto m).made = (s.proto m).made := by
        intro m
        show (if m = n then _ else s.proto m).made = _
        split
        · next e => subst e; rfl
        · rfl
      split
      · next hm =>
        unfold dataClosed
        dsimp only
        split
        · next hb =>
          have hno : ∀ c, n ∉ conns s c := fun c hx => by
            have := (h.back n c).2 hx
            have hb : s.backptr.get n = none := hb
            rw [hb] at this; exact nomatch this
          refine ⟨h.wfb, h.back, h.nodup, ?_, ?_, ?_, ?_⟩
          · intro m c hmc
            have hmc : m ∈ conns s c := hmc
            have := h.running m c hmc
            refine ⟨this.1, by rw [pr]; exact this.2.1, ?_⟩
            have hne : m ≠ n := fun e => hno c (e ▸ hmc)
            show Eff.closed m ∉ s.out ++ [.closed n]
            simp [this.2.2, hne]
          · intro m hmc
            have hmc : Eff.closed m ∈ s.out ++ [.closed n] := hmc
            rw [pr]
            simp at hmc
            rcases hmc with hmc | hmc
            · exact h.gone m hmc
            · subst hmc; exact ⟨hc.1, hm⟩
          · intro m hl hmm
            rw [pr] at hmm
            rcases h.kept m hl hmm with hk | hk
            · left; show _ ∈ s.out ++ _; simp [hk]
            · exact .inr hk
          · intro m k f hmc
            have hmc : Eff.built m k f ∈ s.out ++ [.closed n] := hmc
            rw [pr]
            exact h.bm m k f (by simpa using hmc)
        · next cid hb =>
          have hb : s.backptr.get n = some cid := hb
          have hconns : ∀ (t : St), t.spawn = s.spawn.set cid ((conns s cid).erase n) → ∀ c, conns t c = if cid = c then (conns s cid).erase n else conns s c :=
            fun t ht c => conns_set s cid c _ _ rfl t ht
          have hc2 : ∀ (t : St), t.spawn = s.spawn.set cid ((conns s cid).erase n) → ∀ m c, m ∈ conns t c ↔ m ∈ conns s c ∧ m ≠ n := by
            intro t ht m c
            rw [hconns t ht]
            split
            · next e =>
              subst e
              rw [(h.nodup cid).mem_erase_iff]
              exact and_comm
            · next e =>
              constructor
              · intro hx
                refine ⟨hx, ?_⟩
                intro e2
                subst e2
                have := (h.back m c).2 hx
                rw [hb] at this
                exact e (Option.some.inj this)
              · exact fun hx => hx.1
          refine ⟨h.wfb.del _, ?_, ?_, ?_, ?_, ?_, ?_⟩
          · intro m c
            rw [hc2 _ rfl]
            show (s.backptr.del n).get m = _ ↔ _
            rw [Dict.get_del h.wfb, ← h.back]
            by_cases e : n = m
            · subst e; simp
            · rw [if_neg e]; simp [Ne.symm e]
          · intro c
            rw [hconns _ rfl]
            split
            · exact (h.nodup cid).erase _
            · exact h.nodup c
          · intro m c hmc
            rw [hc2 _ rfl] at hmc
            have := h.running m c hmc.1
            refine ⟨this.1, by rw [pr]; exact this.2.1, ?_⟩
            show Eff.closed m ∉ s.out ++ [.closed n]
            simp [this.2.2, hmc.2]
          · intro m hmc
            have hmc : Eff.closed m ∈ s.out ++ [.closed n] := hmc
            rw [pr]
            simp at hmc
            rcases hmc with hmc | hmc
            · exact h.gone m hmc
            · subst hmc; exact ⟨hc.1, hm⟩
          · intro m hl hmm
            rw [pr] at hmm
            rcases h.kept m hl hmm with hk | ⟨c, hk⟩
            · left; show _ ∈ s.out ++ _; simp [hk]
            · by_cases e : m = n
              · left; show _ ∈ s.out ++ _; simp [e]
              · right; exact ⟨c, by rw [hc2 _ rfl]; exact ⟨hk, e⟩⟩
          · intro m k f hmc
            have hmc : Eff.built m k f ∈ s.out ++ [.closed n] := hmc
            rw [pr]
            exact h.bm m k f (by simpa using hmc)
      · next hm =>
        refine ⟨h.wfb, h.back, h.nodup, ?_, ?_, ?_, ?_⟩
        · intro m c hmc
          have := h.running m c hmc
          refine ⟨this.1, by rw [pr]; exact this.2.1, ?_⟩
          show Eff.closed m ∉ s.out ++ [.raised n]
          simp [this.2.2]
        · intro m hmc
          have hmc : Eff.closed m ∈ s.out ++ [.raised n] := hmc
          rw [pr]
          exact h.gone m (by simpa using hmc)
        · intro m hl hmm
          rw [pr] at hmm
          rcases h.kept m hl hmm with hk | hk
          · left; show _ ∈ s.out ++ _; simp [hk]
          · exact .inr hk
        · intro m k f hmc
          have hmc : Eff.built m k f ∈ s.out ++ [.raised n] := hmc
          rw [pr]
          exact h.bm m k f (by simpa using hmc)
    · exact h

end Verif.Callback

namespace Verif.Connect
open Verif.Cli (Kind)

theorem tidy_entry {s : Callback.St} {id : Nat} (h : Callback.Tidy s) (hn : s.spawn.has id = false) :
    Callback.Tidy { s with spawn := s.spawn.set id [] } := by
  have hc : ∀ c, Callback.conns { s with spawn := s.spawn.set id [] } c = Callback.conns s c := by
    intro c
    unfold Callback.conns
    dsimp only
    rw [Dict.get_set]
    split
    · next e =>
      subst e
      have : s.spawn.get id = none := by
        cases hg : s.spawn.get id with
        | none => rfl
        | some x => simp [Dict.has, hg] at hn
      rw [this]; rfl
    · rfl
  refine ⟨⟨h.inv.wfd, h.inv.wfc, h.inv.dat, h.inv.pair⟩, h.wfb, ?_, ?_, ?_, h.gone, ?_, h.bm⟩
  · intro n c; rw [hc]; exact h.back n c
  · intro c; rw [hc]; exact h.nodup c
  · intro n c hn; rw [hc] at hn; exact h.running n c hn
  · intro n hl hm
    rcases h.kept n hl hm with hk | ⟨c, hk⟩
    · exact .inl hk
    · exact .inr ⟨c, by rw [hc]; exact hk⟩

theorem absorbed {s : St} (h : Callback.Tidy s.cb) (e : Callback.Ev) : Callback.Tidy (absorb s e).cb := h.step e

theorem tidy_reachable (h : List Ev) : Callback.Tidy (exec .init h).cb := by
  refine micro_ind (fun _ s => Callback.Tidy s.cb) Callback.Tidy.init (fun _ _ _ hp => hp) ?_ h
  intro _ e s t _ hp hm
  cases hm with
  | announce _ _ _ _ _ _ => exact absorbed hp _
  | conn _ => exact absorbed hp _
  | data _ _ => exact absorbed hp _
  | lost _ => exact absorbed hp _
  | entry _ _ _ he => exact tidy_entry hp he
  | _ => exact hp

/-- C100: the sockets of a server are its own address, first, and one for each of its connections, each once: those whose application
the server's factory made, until they are told that they are lost; also after `close`. Provided that no call over another control
connection used the same connection id. -/
theorem C100_sockets_partial (h : List Ev) (i c id a p : Nat) (b : Bool) (hi : i < (exec .init h).nCall)
    (hs : ((exec .init h).call i).stage = .serving c id b) (ho : OwnId (exec .init h) i) :
    ∃ ns : List Nat, sockets (exec .init h) i a p = .pair a p :: ns.map .protocol ∧ ns.Nodup ∧
      ∀ n, n ∈ ns ↔ RunsFor (exec .init h) n i ∧ Callback.Eff.closed n ∉ (exec .init h).cb.out := by
  have hc := Core.reachable h
  have ht := tidy_reachable h
  generalize exec .init h = s at *
  have hst := hc.stage i hi
  unfold StageOk at hst
  rw [hs] at hst
  have ha : Asked s i c id := ⟨hi, hst⟩
  have runs : ∀ n cid, n ∈ Callback.conns s.cb cid → RunsFor s n i → cid = id := by
    intro n cid hn hr
    obtain ⟨f, c', h1, h2⟩ := hc.spawn cid n hn
    have := runs_once hc h1 hr
    subst this
    have h3 := h2.2
    rw [hst] at h3
    cases h3
    rfl
  refine ⟨Callback.conns s.cb id, ?_, ht.nodup id, ?_⟩
  · unfold sockets; rw [hs]
  · intro n
    constructor
    · intro hn
      obtain ⟨f, c', h1, h2⟩ := hc.spawn id n hn
      have := ho c id f c' ha h2
      subst this
      have := asked_inj hc h2 ha
      subst this
      exact ⟨h1, (ht.running n id hn).2.2⟩
    · rintro ⟨hr, hcl⟩
      obtain ⟨k, hk⟩ := hr
      obtain ⟨h1, h2⟩ := ht.bm n k i hk
      rcases ht.kept n h1 h2 with h3 | ⟨cid, h3⟩
      · exact absurd h3 hcl
      · exact runs n cid h3 ⟨k, hk⟩ ▸ h3

/-- C100 with one control connection. -/
theorem C100_one_vnic (h : List Ev) (hd : dials h ≤ 1) (i c id a p : Nat) (b : Bool) (hi : i < (exec .init h).nCall)
    (hs : ((exec .init h).call i).stage = .serving c id b) :
    ∃ ns : List Nat, sockets (exec .init h) i a p = .pair a p :: ns.map .protocol ∧ ns.Nodup ∧
      ∀ n, n ∈ ns ↔ RunsFor (exec .init h) n i ∧ Callback.Eff.closed n ∉ (exec .init h).cb.out :=
  C100_sockets_partial h i c id a p b hi hs (own_single h hd i)

/-- C100: the first socket has the address of the server, as of an asyncio server. -/
theorem C100_name (s : St) (i c id a p : Nat) (b : Bool) (hs : (s.call i).stage = .serving c id b) :
    ∃ x, (sockets s i a p)[0]? = some x ∧ getsockname x = .name (.pair a p) ∧ gethostname x = .address a := by
  refine ⟨.pair a p, ?_, rfl, rfl⟩
  unfold sockets; rw [hs]; rfl

/-- C100 is false for the sockets of connections: not one of them has an address as its name, and `gethostname` raises; and no socket
knows its peer. -/
theorem C100_false_names (s : St) (i a p : Nat) : ∀ x ∈ (sockets s i a p).drop 1,
    (∃ n, getsockname x = .name (.protocol n)) ∧ gethostname x = .typeError ∧ getpeername x = .noPeer := by
  intro x hx
  unfold sockets at hx
  split at hx
  · simp only [List.drop_succ_cons, List.drop_zero, List.mem_map] at hx
    obtain ⟨n, _, rfl⟩ := hx
    exact ⟨⟨n, rfl⟩, rfl, rfl⟩
  · simp at hx

/-- C100 is false for a connection that was lost before its announcement came: it is listed for ever. -/
theorem C100_false_dead :
    let s := exec .init [.call .listen (some 1), .serviceOk 0, .dialOk 0, .response 0 1 (.port 80), .opened 0, .callback 500, .lost 0,
      .spawned 0 1 500 80]
    (s.cb.proto 0).lost = true ∧ sockets s 0 7 80 = [.pair 7 80, .protocol 0] := by
  decide +kernel

/-- C100 is false for servers on two interfaces: the connections of the other one are listed. -/
theorem C100_false_two_vnics :
    let s := exec .init [.call .listen (some 1), .serviceOk 0, .dialOk 0, .call .listen (some 2), .dialOk 1, .response 0 1 (.port 80),
      .response 1 1 (.port 80), .opened 0, .opened 1, .spawned 1 1 500 80, .callback 500]
    RunsFor s 0 1 ∧ sockets s 0 7 80 = [.pair 7 80, .protocol 0] := by
  exact ⟨⟨.listen, by decide +kernel⟩, by decide +kernel⟩

/-- A case of the theorems: a server with two connections, one of which is lost; after `close` they are still listed until they are
lost. -/
example : let h : List Ev := [.call .listen (some 1), .serviceOk 0, .dialOk 0, .response 0 1 (.port 80), .opened 0, .spawned 0 1 500 80, .callback 500,
      .callback 501, .spawned 0 1 501 80, .lost 0, .closeServer 0]
    ((exec .init h).call 0).stage = .serving 0 1 true ∧ dials h ≤ 1 ∧ sockets (exec .init h) 0 7 80 = [.pair 7 80, .protocol 1] ∧
    sockets (exec .init (h ++ [.lost 1])) 0 7 80 = [.pair 7 80] := by
  decide +kernel

end Verif.Connect
