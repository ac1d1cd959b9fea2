import Verif.Lemmas.Host
import Verif.Props.Connector
/-! # C64: an application and its socket -/
namespace Verif.Host
open Verif.Cli (Kind)
open Verif.Connect (Asked RunsFor Returned OwnId)

theorem exec_append (want : Nat → Str × Nat) : ∀ (a b : List Ev) (s : St), exec want s (a ++ b) = exec want (exec want s a) b
  | [], _, _ => rfl
  | e :: a, b, s => exec_append want a b (step want s e)

theorem For.of_fits {want : Nat → Str × Nat} {a : Str} {k : Kind} {f : Nat} {x : Vnic.Key} (h : Vnic.Fits a (reqOf want k f) x) : For a k (want f) x := by
  cases k
  · exact h
  · exact h

theorem pushed_append (m : Nat) (a b : List Callback.Eff) : pushed m (a ++ b) = pushed m a ++ pushed m b := by
  induction a with
  | nil => rfl
  | cons e a ih => cases e <;> simp [pushed, ih]

theorem pushed_on (m : Nat) (l : List Callback.Eff) : pushed m l = pushed m (Callback.effectsOn m l) := by
  induction l with
  | nil => rfl
  | cons e l ih =>
    simp only [Callback.effectsOn, List.filter_cons] at ih ⊢
    by_cases he : e.on = m
    · rw [if_pos (by simpa using he)]
      cases e <;> simp [pushed, ih]
    · rw [if_neg (by simpa using he), ← ih]
      cases e with
      | push n d => simp only [Callback.Eff.on] at he; simp [pushed, he]
      | _ => rfl

theorem pushed_map (m : Nat) (ds : List Bytes) : pushed m (ds.map (.push m)) = ds.flatten := by
  induction ds with
  | nil => rfl
  | cons d ds ih => simp [pushed, ih]

/-- What the application has, from what is known about its connection. -/
theorem pushed_good {c : Callback.St} {m : Nat} {ds : List Bytes} (hg : Callback.Good c m ds) :
    (pushed m c.out = [] ∨ pushed m c.out = ds.flatten) ∧ ((∃ k f, Callback.Eff.built m k f ∈ c.out) → pushed m c.out = ds.flatten) := by
  by_cases hn : m < c.nProto
  · cases hm : (c.proto m).made with
    | false =>
      have hw := (hg.waiting hn hm).2
      refine ⟨.inl ?_, ?_⟩
      · rw [pushed_on, hw]; split <;> rfl
      · rintro ⟨k, f, hb⟩
        have : Callback.Eff.built m k f ∈ Callback.effectsOn m c.out := by simp [Callback.effectsOn, Callback.Eff.on, hb]
        rw [hw] at this
        split at this <;> simp at this
    | true =>
      obtain ⟨_, k, app, h1⟩ := hg.running hn hm
      have : pushed m c.out = ds.flatten := by
        rw [pushed_on]
        rcases h1 with ⟨_, h1⟩ | ⟨_, h1 | h1⟩
        · rw [h1]; exact pushed_map m ds
        · rw [h1]; exact pushed_map m ds
        · rw [h1, List.cons_append]; simp only [pushed]; rw [pushed_append, pushed_map]; simp [pushed]
      exact ⟨.inr this, fun _ => this⟩
  · have := hg.fresh (by omega)
    refine ⟨.inl (by rw [pushed_on, this.1]; rfl), ?_⟩
    rintro ⟨k, f, hb⟩
    have h2 : Callback.Eff.built m k f ∈ Callback.effectsOn m c.out := by simp [Callback.effectsOn, Callback.Eff.on, hb]
    rw [this.1] at h2
    cases h2

section
variable (want : Nat → Str × Nat) (a : Str) (h : List Ev)

/-- C64. In every history of a process and its VNIC, whatever happens in other processes and at the switch: an application that was made for a call is on a
callback connection whose socket is one for this very call: the destination and port that the call gave (`create_connection`), or a connection accepted at the
port that the call gave (`create_server`). -/
theorem C64_pair (f n : Nat) (hx : AppOn (exec want (.init a) h) f n) :
    n < (exec want (.init a) h).vnic.nSpawn ∧ f < (exec want (.init a) h).side.con.nCall ∧
      For a ((exec want (.init a) h).side.con.call f).kind (want f) ((exec want (.init a) h).vnic.spawn n).key := by
  obtain ⟨hc, hi⟩ := Inv.reachable want a h
  obtain ⟨m, hp, hr⟩ := hx
  obtain ⟨h1, h2, h3, h4⟩ := hi.peer n m hp
  obtain ⟨c, id, sp, g1, g2⟩ := hi.co.built m f hr
  rw [h4] at g1
  obtain ⟨k, hk, -⟩ := hi.told c id n sp g1
  obtain ⟨t1, t2, t3, t4⟩ := hi.vo.told _ _ _ _ hk
  obtain ⟨_, r, s1, s2⟩ := hi.vo.spawn n t1
  rw [t2, t3] at s1
  obtain ⟨f', u1, rfl⟩ := hi.opn c id r s1
  have hff := Connect.asked_inj hi.co.core u1 g2
  subst hff
  have ha : (exec want (.init a) h).vnic.address = a := by rw [hi.vnic]; exact (Vnic.Lasts.exec _ _).address
  rw [ha] at s2
  exact ⟨h1, u1.1, For.of_fits s2⟩

/-- C64. No two applications are on one callback connection, and no application of the process is on one of another process. -/
theorem C64_one (f g n : Nat) (hf : AppOn (exec want (.init a) h) f n) (hg : AppOn (exec want (.init a) h) g n) :
    f = g ∧ mine (exec want (.init a) h).vnic n = true := by
  obtain ⟨hc, hi⟩ := Inv.reachable want a h
  obtain ⟨m, hp, hr⟩ := hf
  obtain ⟨m', hp', hr'⟩ := hg
  rw [hp] at hp'
  cases hp'
  exact ⟨Connect.runs_once hi.co.core hr hr', (hi.peer n m hp).2.1⟩

/-- C64. What an application has got is always a prefix of what the VNIC wrote for its socket; and all of it that has arrived, as soon as the application is
there. -/
theorem C64_in (n m : Nat) (hp : (exec want (.init a) h).side.peer n = some m) :
    appGot (exec want (.init a) h) m <+: Vnic.written (exec want (.init a) h).vnic.out n ∧
      ((∃ f, RunsFor (exec want (.init a) h).side.con m f) →
        appGot (exec want (.init a) h) m = (Vnic.written (exec want (.init a) h).vnic.out n).take ((exec want (.init a) h).side.got n)) := by
  obtain ⟨hc, hi⟩ := Inv.reachable want a h
  obtain ⟨ds, hg, h1, h2⟩ := hi.got n m hp
  obtain ⟨g1, g2⟩ := pushed_good hg
  constructor
  · unfold appGot
    rcases g1 with g1 | g1
    · rw [g1]; exact List.nil_prefix
    · rw [g1, h1]; exact List.take_prefix _ _
  · rintro ⟨f, k, hb⟩
    unfold appGot
    rw [g2 ⟨k, f, hb⟩, h1]

/-- C64. What arrives at the VNIC on the callback connection of an application is always a prefix of what the application has written. -/
theorem C64_out (f n : Nat) (hx : AppOn (exec want (.init a) h) f n) :
    heard n (vnicHist want (.init a) h) <+: (exec want (.init a) h).side.wrote n := by
  obtain ⟨hc, hi⟩ := Inv.reachable want a h
  obtain ⟨m, hp, _⟩ := hx
  rw [(hi.given n (fun _ => (hi.peer n m hp).2.1)).1]
  exact List.take_prefix _ _

/-- C64. What `create_connection` returns is an application on a socket to the destination and port it was called with (C61 for the condition: no other control
connection has used the connection id). -/
theorem C64_client_partial (i m : Nat) (hr : Returned (exec want (.init a) h).side.con i m) (ho : OwnId (exec want (.init a) h).side.con i) :
    ∃ n, (exec want (.init a) h).side.peer n = some m ∧ AppOn (exec want (.init a) h) i n ∧
      For a ((exec want (.init a) h).side.con.call i).kind (want i) ((exec want (.init a) h).vnic.spawn n).key := by
  obtain ⟨hc, hi⟩ := Inv.reachable want a h
  have hr' := hr
  have ho' := ho
  rw [hi.con] at hr' ho'
  have hb := (Connect.C61_own_partial hc i m hr' ho').1
  rw [← hi.con] at hb
  obtain ⟨k, hk⟩ := hb
  obtain ⟨ds, hg⟩ := hi.co.core.good m
  have hp := hi.port m (hg.built_made hk).1
  have hx : AppOn (exec want (.init a) h) i ((exec want (.init a) h).side.con.cb.proto m).port := ⟨m, hp, k, hk⟩
  exact ⟨_, hp, hx, (C64_pair want a h i _ hx).2.2⟩

/-- C64. With one control connection there is no condition. -/
theorem C64_client_one (i m : Nat) (h1 : (exec want (.init a) h).side.con.nCli ≤ 1) (hr : Returned (exec want (.init a) h).side.con i m) :
    ∃ n, (exec want (.init a) h).side.peer n = some m ∧ AppOn (exec want (.init a) h) i n ∧
      For a ((exec want (.init a) h).side.con.call i).kind (want i) ((exec want (.init a) h).vnic.spawn n).key := by
  obtain ⟨hc, hi⟩ := Inv.reachable want a h
  refine C64_client_partial want a h i m hr ?_
  intro c id j c' g1 g2
  have x1 := hi.co.core.low _ _ _ g1
  have x2 := hi.co.core.low _ _ _ g2
  omega

theorem peer_lasts (s : St) (e : Ev) {n m : Nat} (hp : s.side.peer n = some m) : (step want s e).side.peer n = some m := by
  cases e with
  | own e => simp only [step, sideStep]; split <;> exact hp
  | other e => exact hp
  | accept c => simp only [step, sideStep]; split <;> exact hp
  | toVnic c => simp only [step, sideStep]; split <;> exact hp
  | toCon c =>
    simp only [step, sideStep]
    split
    · unfold receive
      split
      · exact hp
      · next x _ => exact (congrFun (learn_same s.side c x).2.2.1 n).trans hp
    · exact hp
  | lostVnic c => exact hp
  | lostCon c => exact hp
  | callback k =>
    simp only [step, sideStep]
    split
    · next hx =>
      simp only [upd]
      split
      · next e => subst e; rw [hx.2.2] at hp; cases hp
      · exact hp
    · exact hp
  | toApp k j =>
    simp only [step, sideStep, take]
    split
    · exact hp
    · split <;> exact hp
  | write k d =>
    simp only [step, sideStep, put]
    split
    · exact hp
    · split <;> exact hp
  | toSock k j => simp only [step, sideStep]; split <;> exact hp
  | endVnic k => exact hp
  | endApp k => simp only [step, sideStep]; split <;> exact hp

/-- C64. As long as its connection lasts, the application can get everything that the VNIC wrote for its socket. -/
theorem C64_in_can (f n m : Nat) (hp : (exec want (.init a) h).side.peer n = some m) (hr : RunsFor (exec want (.init a) h).side.con m f)
    (hl : running (exec want (.init a) h).side m = true) :
    ∃ k, appGot (exec want (.init a) (h ++ [.toApp n k])) m = Vnic.written (exec want (.init a) h).vnic.out n ∧
      (exec want (.init a) (h ++ [.toApp n k])).vnic = (exec want (.init a) h).vnic := by
  obtain ⟨hc, hi⟩ := Inv.reachable want a h
  generalize hs : exec want (.init a) h = s at hi hp hr hl ⊢
  refine ⟨(Vnic.written s.vnic.out n).length, ?_, ?_⟩
  · have hp' : (exec want (.init a) (h ++ [.toApp n (Vnic.written s.vnic.out n).length])).side.peer n = some m := by
      rw [exec_append, hs]; exact peer_lasts want s _ hp
    obtain ⟨ds, g1, g2, g3⟩ := hi.got n m hp
    have hv : (exec want (.init a) (h ++ [.toApp n (Vnic.written s.vnic.out n).length])).vnic = s.vnic := by rw [exec_append, hs]; rfl
    have hside : (exec want (.init a) (h ++ [.toApp n (Vnic.written s.vnic.out n).length])).side =
        take want s.side n (chunk (written s.vnic.out n) (s.side.got n) (Vnic.written s.vnic.out n).length) (some m) := by
      rw [exec_append, hs]; show sideStep want s.vnic s.side (.toApp n _) = _
      simp only [sideStep]; rw [hp]
    rw [written_eq] at hside
    have hch : (chunk (Vnic.written s.vnic.out n) (s.side.got n) (Vnic.written s.vnic.out n).length) = (Vnic.written s.vnic.out n).drop (s.side.got n) := by
      unfold chunk
      exact List.take_of_length_le (by simp)
    rw [hch] at hside
    have hrun : RunsFor (exec want (.init a) (h ++ [.toApp n (Vnic.written s.vnic.out n).length])).side.con m f ∧
        (exec want (.init a) (h ++ [.toApp n (Vnic.written s.vnic.out n).length])).side.got n = (Vnic.written s.vnic.out n).length := by
      rw [hside]
      simp only [take]
      split
      · exact ⟨(Connect.Core.step hi.co.core (.data m _)).2.runsFor hr, by simp [upd, conStep]; omega⟩
      · next hx =>
        have : (Vnic.written s.vnic.out n).drop (s.side.got n) = [] := Decidable.byContradiction fun y => hx ⟨hl, y⟩
        have := List.drop_eq_nil_iff.mp this
        exact ⟨hr, by omega⟩
    have := (C64_in want a (h ++ [.toApp n (Vnic.written s.vnic.out n).length]) n m hp').2 ⟨f, hrun.1⟩
    rw [hrun.2, hv, List.take_length] at this
    exact this
  · rw [exec_append, hs]; rfl

theorem vnicHist_append : ∀ (x y : List Ev) (s : St), vnicHist want s (x ++ y) = vnicHist want s x ++ vnicHist want (exec want s x) y
  | [], _, _ => rfl
  | e :: x, y, s => by
    show vnicEv s.vnic s.side e ++ vnicHist want (step want s e) (x ++ y) = _
    rw [vnicHist_append x y]
    simp [vnicHist, exec]

/-- C64. As long as its connection lasts, everything that the application has written can arrive at the VNIC. -/
theorem C64_out_can (f n : Nat) (hx : AppOn (exec want (.init a) h) f n) (hl : live (exec want (.init a) h).vnic n = true) :
    ∃ k, heard n (vnicHist want (.init a) (h ++ [.toSock n k])) = (exec want (.init a) h).side.wrote n := by
  obtain ⟨hc, hi⟩ := Inv.reachable want a h
  obtain ⟨m, hp, _⟩ := hx
  have hm := (hi.peer n m hp).2.1
  obtain ⟨g1, g2⟩ := hi.given n (fun _ => hm)
  generalize hs : exec want (.init a) h = s at hi hp hm g1 g2 hl ⊢
  refine ⟨(s.side.wrote n).length, ?_⟩
  rw [vnicHist_append, heard_append, g1, hs]
  have hch : chunk (s.side.wrote n) (s.side.given n) (s.side.wrote n).length = (s.side.wrote n).drop (s.side.given n) := by
    unfold chunk
    exact List.take_of_length_le (by simp)
  simp only [vnicHist, vnicEv, hch, List.append_nil]
  split
  · simp [heard]
  · next hx =>
    have : (s.side.wrote n).drop (s.side.given n) = [] := Decidable.byContradiction fun y => hx ⟨hm, hl, y⟩
    have h3 := List.drop_eq_nil_iff.mp this
    simp only [heard, List.append_nil]
    rw [List.take_of_length_le h3]

end

/-! ## A case of the theorems: a client connects, its peer sends before the application is there, and both send -/

def wants : Nat → Str × Nat := fun _ => ("2.2.2.2".toList, 80)
def sock0 : Vnic.Key := ⟨"1.1.1.1".toList, 2000, "2.2.2.2".toList, 80⟩
def client : List Ev := [.own (.call .connect (some 1)), .own (.serviceOk 0), .own (.dialOk 0), .accept 0, .toVnic 0, .other (.connected 0), .other (.finished 0),
  .other (.data sock0.inverse [1, 2, 3]), .toCon 0, .toCon 0, .own (.opened 0), .callback 0, .own .notify, .own (.resume 0), .own (.made 0), .own (.madeResume 0),
  .toApp 0 2, .write 0 [7, 8, 9], .toSock 0 2]

theorem client_on : AppOn (exec wants (.init "1.1.1.1".toList) client) 0 0 := ⟨0, by decide +kernel, .connect, by decide +kernel⟩

example : Returned (exec wants (.init "1.1.1.1".toList) client).side.con 0 0 ∧ (exec wants (.init "1.1.1.1".toList) client).side.con.nCli = 1 ∧
    ((exec wants (.init "1.1.1.1".toList) client).vnic.spawn 0).key = sock0 ∧ appGot (exec wants (.init "1.1.1.1".toList) client) 0 = [1, 2] ∧
    Vnic.written (exec wants (.init "1.1.1.1".toList) client).vnic.out 0 = [1, 2, 3] ∧ heard 0 (vnicHist wants (.init "1.1.1.1".toList) client) = [7, 8] ∧
    (exec wants (.init "1.1.1.1".toList) client).side.wrote 0 = [7, 8, 9] ∧ running (exec wants (.init "1.1.1.1".toList) client).side 0 = true ∧
    live (exec wants (.init "1.1.1.1".toList) client).vnic 0 = true :=
  ⟨by unfold Returned; decide +kernel, by decide +kernel, by decide +kernel, by decide +kernel, by decide +kernel, by decide +kernel, by decide +kernel, by decide +kernel, by decide +kernel⟩

/-- A server accepts two connections while another process uses the VNIC too. -/
def server : List Ev := [.other (.ctlMade 1), .other (.openSocket 1 1 (.listen 90)), .own (.call .listen (some 1)), .own (.serviceOk 0), .own (.dialOk 0), .accept 0, .toVnic 0, .toCon 0,
  .own (.opened 0), .other (.data sock0 [1]), .other (.data ⟨"3.3.3.3".toList, 2000, "1.1.1.1".toList, 80⟩ [2]), .other (.data ⟨"3.3.3.3".toList, 2000, "1.1.1.1".toList, 90⟩ [3]),
  .other (.connected 1), .other (.finished 1), .other (.connected 0), .other (.finished 0), .other (.connected 2), .other (.finished 2), .callback 0, .callback 1, .callback 2,
  .toCon 0, .toCon 0, .toApp 0 9, .toApp 1 9]

example : AppOn (exec wants (.init "2.2.2.2".toList) server) 0 0 ∧ AppOn (exec wants (.init "2.2.2.2".toList) server) 0 1 ∧
    (∀ f, ¬ AppOn (exec wants (.init "2.2.2.2".toList) server) f 2) ∧ (exec wants (.init "2.2.2.2".toList) server).vnic.nSpawn = 3 ∧
    appGot (exec wants (.init "2.2.2.2".toList) server) 0 = [1] ∧ appGot (exec wants (.init "2.2.2.2".toList) server) 1 = [2] := by
  refine ⟨⟨0, by decide +kernel, .listen, by decide +kernel⟩, ⟨1, by decide +kernel, .listen, by decide +kernel⟩, ?_, by decide +kernel, by decide +kernel, by decide +kernel⟩
  intro f hf
  have h1 := (C64_one _ _ _ f f 2 hf hf).2
  have h2 : mine (exec wants (.init "2.2.2.2".toList) server).vnic 2 = false := by decide +kernel
  rw [h2] at h1
  cases h1

end Verif.Host
