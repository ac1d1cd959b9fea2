import Verif.Lemmas.AppsFlow
import Verif.Props.VnicData
/-! # C65: applications talk over sockets -/
namespace Verif.Apps

section
variable {c : Link.Classes} {want : Nat → Nat → Str × Nat} {addr : Nat → Str}

theorem net_world (h : List Ev) : ((World.init addr).exec c want h).net = (E2E.World.init addr).exec c (netHist c want (.init addr) h) := net_exec c want h _

theorem Attached.onSwitch (ha : Addresses addr) (hw : Sane want) {h1 h2 : List Ev} (hok : ∀ e ∈ h1 ++ h2, Ok e) {v l : Nat} (h : Attached c want addr h1 h2 v l) :
    E2E.OnSwitch c addr (netHist c want (.init addr) h1) (netHist c want ((World.init addr).exec c want h1) h2) v l := by
  have hn := netHist_ok (c := c) (addr := addr) hw (h1 ++ h2) [] hok
  have hn2 := netHist_ok (c := c) (addr := addr) hw h2 h1 (fun e he => hok e (List.mem_append_right _ he))
  have e := netHist_append c want h1 h2 (World.init addr)
  refine ⟨by rw [← net_world]; exact h.up, fun hx => h.stays ((hn2 _ hx).2.2.2.2 (fun _ _ _ => nofun)), ?_, ?_, ha.block v⟩
  · rw [← e]
    exact fun hx => h.kept ((hn _ hx).2.2.2.2 (fun _ _ _ => nofun))
  · intro a
    rw [← e]
    exact fun hx => (hn _ hx).2.1 v a rfl

theorem stream_sofar {h1 h2 : List Ev} {a n b m : Nat} {k : Vnic.Key} (hs : Setting c want addr h1 h2 a n b m k) (hbt : Between addr a b k) :
    ∃ p, p <+: Host.heard n (Host.vnicHist (want a) (((World.init addr).exec c want h1).host a) (hostHist c want a ((World.init addr).exec c want h1) h2)) ∧
      Vnic.written (((World.init addr).exec c want (h1 ++ h2)).net.vnic b).out m = p ∧
      ((∃ l, ((World.init addr).exec c want h1).net.link b = some l ∧ E2E.Quiet ((World.init addr).exec c want (h1 ++ h2)).net l) →
        p = Host.heard n (Host.vnicHist (want a) (((World.init addr).exec c want h1).host a) (hostHist c want a ((World.init addr).exec c want h1) h2))) := by
  obtain ⟨la, hla⟩ := hs.a_on
  obtain ⟨lb, hlb, hq⟩ := hs.b_on
  obtain ⟨hsrc, hdst⟩ := hbt
  have ht := hs.talks
  obtain ⟨i, hh, hwr, hrc⟩ := hs.listens.conn
  have hok2 : ∀ e ∈ h2, Ok e := fun e he => hs.ok e (List.mem_append_right _ he)
  have hn := netHist_ok (c := c) (addr := addr) hs.sane (h1 ++ h2) [] hs.ok
  have hn2 := netHist_ok (c := c) (addr := addr) hs.sane h2 h1 hok2
  have e := netHist_append c want h1 h2 (World.init addr)
  have hobs := hlb.onSwitch hs.addresses hs.sane hs.ok
  obtain ⟨hc, hi⟩ := hostInv c want addr (h1 ++ h2) a
  have hpeer : ∃ m', (((World.init addr).exec c want (h1 ++ h2)).side a).peer n = some m' := Option.ne_none_iff_exists'.mp ht.peer
  obtain ⟨m', hm'⟩ := hpeer
  obtain ⟨p1, p2, _, _⟩ := hi.peer n m' hm'
  have hbytes := bytes_heard (((World.init addr).exec c want (h1 ++ h2)).net.vnic a) ht.key p1 p2 ht.only h2 h1 rfl hla.up hok2 hla.stays hs.sane
  have hraw : ∀ x ∈ netHist c want ((World.init addr).exec c want h1) h2, ¬ E2E.IsRaw x := fun x hx => (hn2 x hx).2.2.1
  have hsmall := fun v => sentBy_small c v (netHist c want ((World.init addr).exec c want h1) h2) ((World.init addr).exec c want h1).net hraw
    (fun u q d id hx => (hn2 _ hx).2.2.2.1 u q d id rfl)
  have hprop : ∀ x ∈ netHist c want (World.init addr) h1 ++ netHist c want ((World.init addr).exec c want h1) h2, E2E.Proper x := by
    rw [← e]; exact fun x hx => (hn x hx).1
  have hann : ∀ v a, .announce v a ∉ netHist c want (World.init addr) h1 ++ netHist c want ((World.init addr).exec c want h1) h2 := by
    rw [← e]; exact fun v a hx => (hn _ hx).2.1 v a rfl
  have hatt : ∀ v l, .attach v l ∈ netHist c want (World.init addr) h1 ++ netHist c want ((World.init addr).exec c want h1) h2 → .net (.attach v l) ∈ h1 ++ h2 := by
    rw [← e]; exact fun v l hx => (hn _ hx).2.2.2.2 (fun _ _ _ => nofun)
  have hdet : .detach a ∉ netHist c want ((World.init addr).exec c want h1) h2 := fun hx => hla.stays ((hn2 _ hx).2.2.2.2 (fun _ _ _ => nofun))
  have hla' := hla.up
  have hlbup := hlb.up
  rw [net_world] at hla' hq hsmall hbytes hrc hlbup
  rw [net_world, net_world, e] at hh
  have hwr' := hwr
  rw [net_world, e] at hwr' ⊢
  rw [net_world (h := h1)]
  have honly : ∀ v, v ≠ a → ∀ x ∈ E2E.sentBy c v ((E2E.World.init addr).exec c (netHist c want (World.init addr) h1)) (netHist c want ((World.init addr).exec c want h1) h2), x.1 ≠ k := by
    intro v hv x hx he
    obtain ⟨l, hl⟩ := E2E.sentBy_attached c addr v _ _ hx
    exact hv (hs.unique v l x.1.source (hatt v l hl)
      (E2E.C60_source hs.classes addr hs.addresses.plain hs.addresses.self _ _ hprop hann hraw v x hx) (by rw [he]; exact hsrc))
  have hrcv : E2E.received (((E2E.World.init addr).exec c (netHist c want (World.init addr) h1 ++ netHist c want ((World.init addr).exec c want h1) h2)).vnic b) i =
      Vnic.written (((E2E.World.init addr).exec c (netHist c want (World.init addr) h1 ++ netHist c want ((World.init addr).exec c want h1) h2)).vnic b).out m := by
    unfold E2E.received
    rw [if_pos, hwr']
    exact ((E2E.Inv.reachable addr c _).vnics b |>.conn1 _ _ hh.now).1
  obtain ⟨p, g1, g2⟩ := E2E.C60_stream_sofar hs.classes addr hs.addresses.plain _ _ hprop a b la lb hla' hdet hobs k hdst hq
    (fun v x hx _ => hsmall v x hx) honly i hh
  rw [hrcv, hrc, List.nil_append] at g2
  refine ⟨p, by rw [← hbytes]; exact g1, g2, ?_⟩
  rintro ⟨l, hl, hq2⟩
  rw [hlbup] at hl
  cases hl
  have := E2E.C60_stream hs.classes addr hs.addresses.plain _ _ hprop a b la lb hla' hdet hobs k hdst hq hq2
    (fun v x hx _ => hsmall v x hx) honly i hh
  rw [hrcv, hrc, List.nil_append, hbytes] at this
  rw [← this, g2]

/-- What the process at `a` wrote and what arrived at the VNIC. -/
theorem wrote_heard {h1 h2 : List Ev} {a n b m : Nat} {k : Vnic.Key} (hs : Setting c want addr h1 h2 a n b m k) :
    Host.heard n (Host.vnicHist (want a) (((World.init addr).exec c want h1).host a) (hostHist c want a ((World.init addr).exec c want h1) h2)) =
      ((((World.init addr).exec c want (h1 ++ h2)).side a).wrote n).take ((((World.init addr).exec c want (h1 ++ h2)).side a).given n) := by
  have ht := hs.talks
  obtain ⟨hc, hi⟩ := hostInv c want addr (h1 ++ h2) a
  obtain ⟨hc1, hi1⟩ := hostInv c want addr h1 a
  obtain ⟨m', hm'⟩ := Option.ne_none_iff_exists'.mp ht.peer
  obtain ⟨p1, p2, _, _⟩ := hi.peer n m' hm'
  have hl : Vnic.Lasts (((World.init addr).exec c want h1).host a).vnic (((World.init addr).exec c want (h1 ++ h2)).host a).vnic := by
    rw [exec_append]; exact exec_lasts c want a _ _
  have g1 := (hi1.given n (fun hlt => by rw [← Host.mine_lasts hi1.vi hl hlt]; exact p2)).1
  have g2 := (hi.given n (fun _ => p2)).1
  rw [show (((World.init addr).exec c want h1).host a).side.wrote n = [] from ht.fresh, List.take_nil] at g1
  rw [hostHist_append, Host.vnicHist_append, Host.heard_append, g1, List.nil_append] at g2
  rw [host_exec c want a h1]
  exact g2

/-- C65. At every moment the application at `b` has got a prefix of what the application at `a` has written on its connection: nothing is lost in between,
duplicated, reordered, altered or mixed with what others send, whatever all other processes, VNICs and connections do and in whatever portions bytes arrive. -/
theorem C65_sofar {h1 h2 : List Ev} {a n b m q : Nat} {k : Vnic.Key} (hs : Setting c want addr h1 h2 a n b m k) (hbt : Between addr a b k) (hq : (((World.init addr).exec c want (h1 ++ h2)).side b).peer m = some q) :
    appGot ((World.init addr).exec c want (h1 ++ h2)) b q <+: (((World.init addr).exec c want (h1 ++ h2)).side a).wrote n := by
  obtain ⟨p, g1, g2, _⟩ := stream_sofar hs hbt
  rw [wrote_heard hs] at g1
  have hb := (Host.C64_in (want b) (addr b) (hostHist c want b (.init addr) (h1 ++ h2)) m q (by
    have := host_exec c want b (h1 ++ h2) (World.init addr)
    rw [show Host.St.init (addr b) = (World.init addr).host b from rfl, ← this]; exact hq)).1
  rw [show Host.St.init (addr b) = (World.init addr).host b from rfl, ← host_exec c want b (h1 ++ h2) (World.init addr)] at hb
  refine hb.trans ?_
  show Vnic.written (((World.init addr).exec c want (h1 ++ h2)).net.vnic b).out m <+: _
  rw [g2]
  exact g1.trans (List.take_prefix _ _)

/-- C65. And it has got all of it when all bytes have arrived: at VNIC `a`, at the switch, at VNIC `b` and at the process at `b`. -/
theorem C65_all {h1 h2 : List Ev} {a n b m q l f : Nat} {k : Vnic.Key} (hs : Setting c want addr h1 h2 a n b m k) (hbt : Between addr a b k) (hq : (((World.init addr).exec c want (h1 ++ h2)).side b).peer m = some q)
    (hr : Connect.RunsFor (((World.init addr).exec c want (h1 ++ h2)).side b).con q f)
    (hl : ((World.init addr).exec c want h1).net.link b = some l) (hd : E2E.Quiet ((World.init addr).exec c want (h1 ++ h2)).net l)
    (ha : (((World.init addr).exec c want (h1 ++ h2)).side a).given n = ((((World.init addr).exec c want (h1 ++ h2)).side a).wrote n).length)
    (hb : (((World.init addr).exec c want (h1 ++ h2)).side b).got m = (Vnic.written (((World.init addr).exec c want (h1 ++ h2)).net.vnic b).out m).length) :
    appGot ((World.init addr).exec c want (h1 ++ h2)) b q = (((World.init addr).exec c want (h1 ++ h2)).side a).wrote n := by
  obtain ⟨p, g1, g2, g3⟩ := stream_sofar hs hbt
  have g4 := g3 ⟨l, hl, hd⟩
  rw [wrote_heard hs, ha, List.take_length] at g4
  have hx := (Host.C64_in (want b) (addr b) (hostHist c want b (.init addr) (h1 ++ h2)) m q (by
    have := host_exec c want b (h1 ++ h2) (World.init addr)
    rw [show Host.St.init (addr b) = (World.init addr).host b from rfl, ← this]; exact hq)).2
  rw [show Host.St.init (addr b) = (World.init addr).host b from rfl, ← host_exec c want b (h1 ++ h2) (World.init addr)] at hx
  have hx := hx ⟨f, hr⟩
  rw [show (((World.init addr).exec c want (h1 ++ h2)).host b).side.got m = _ from hb] at hx
  rw [appGot, hx]
  show (Vnic.written (((World.init addr).exec c want (h1 ++ h2)).net.vnic b).out m).take (Vnic.written (((World.init addr).exec c want (h1 ++ h2)).net.vnic b).out m).length = _
  rw [List.take_length, g2, g4]

/-- C65. The socket of the application of a `create_connection` to the address of `b` goes from `a` to `b`, and the socket at the other side from `b` to `a`. -/
theorem C65_between (ha : Addresses addr) (h : List Ev) {a b f n : Nat} (hx : Host.AppOn (((World.init addr).exec c want h).host a) f n)
    (hk : (((((World.init addr).exec c want h).side a).con.call f)).kind = .connect) (hb : (want a f).1 = addr b) :
    Between addr a b ((((World.init addr).exec c want h).net.vnic a).spawn n).key ∧ Between addr b a ((((World.init addr).exec c want h).net.vnic a).spawn n).key.inverse := by
  have hx' := hx
  rw [host_exec] at hx'
  have := (Host.C64_pair (want a) (addr a) (hostHist c want a (.init addr) h) f n hx').2.2
  rw [show Host.St.init (addr a) = (World.init addr).host a from rfl, ← host_exec c want a h (World.init addr)] at this
  rw [show (((World.init addr).exec c want h).host a).side.con.call f = _ from rfl] at this
  have hk' : ((((World.init addr).exec c want h).host a).side.con.call f).kind = .connect := hk
  rw [hk'] at this
  obtain ⟨h1, h2, h3⟩ := this
  rw [hb] at h2
  have e1 : ((((World.init addr).exec c want h).net.vnic a).spawn n).key.source = addr a := h1
  have e2 : ((((World.init addr).exec c want h).net.vnic a).spawn n).key.destination = addr b := h2
  refine ⟨⟨by rw [e1]; exact ha.self a, by rw [e2]; exact ha.self b⟩, ⟨?_, ?_⟩⟩
  · show Link.Reaches ((((World.init addr).exec c want h).net.vnic a).spawn n).key.destination (addr b)
    rw [e2]; exact ha.self b
  · show Link.Reaches ((((World.init addr).exec c want h).net.vnic a).spawn n).key.source (addr a)
    rw [e1]; exact ha.self a

/-- C65. From the client to the server: `create_connection` at `a` to the address of `b`; the application there has got a prefix of what the one of this call wrote. -/
theorem C65_to_server {h1 h2 : List Ev} {a n b m q f : Nat} {k : Vnic.Key} (hs : Setting c want addr h1 h2 a n b m k)
    (hx : Host.AppOn (((World.init addr).exec c want (h1 ++ h2)).host a) f n) (hk : ((((World.init addr).exec c want (h1 ++ h2)).side a).con.call f).kind = .connect)
    (hb : (want a f).1 = addr b) (hq : (((World.init addr).exec c want (h1 ++ h2)).side b).peer m = some q) :
    appGot ((World.init addr).exec c want (h1 ++ h2)) b q <+: (((World.init addr).exec c want (h1 ++ h2)).side a).wrote n := by
  have := (C65_between hs.addresses (h1 ++ h2) hx hk hb).1
  rw [hs.talks.key] at this
  exact C65_sofar hs this hq

/-- The key of an open connection. -/
theorem Listens.key {h1 h2 : List Ev} {b m : Nat} {k : Vnic.Key} (h : Listens ((World.init addr).exec c want h1) ((World.init addr).exec c want h2) b m k) :
    ((((World.init addr).exec c want h2).net.vnic b).spawn m).key = k := by
  obtain ⟨i, hh, hw, _⟩ := h.conn
  obtain ⟨hc, hi⟩ := hostInv c want addr h2 b
  obtain ⟨g1, g2⟩ := hi.vi.conn1 _ _ hh.now
  have hv : ((World.init addr).exec c want h2).net.vnic b = _ := hi.vnic
  have hf := Vnic.Fed.reachable (addr b) (Host.vnicHist (want b) (.init (addr b)) (hostHist c want b (.init addr) h2))
  rw [← hv] at hf
  exact ((hf.tr i m g1 hw).2.2.1).trans g2

/-- C65. From the server to the client: the application of the `create_connection` at `b` to the address of `a` has got a prefix of what the one at `a` wrote. -/
theorem C65_to_client {h1 h2 : List Ev} {a n b m q f : Nat} {k : Vnic.Key} (hs : Setting c want addr h1 h2 a n b m k)
    (hx : Host.AppOn (((World.init addr).exec c want (h1 ++ h2)).host b) f m) (hk : ((((World.init addr).exec c want (h1 ++ h2)).side b).con.call f).kind = .connect)
    (hb : (want b f).1 = addr a) (hq : (((World.init addr).exec c want (h1 ++ h2)).side b).peer m = some q) :
    appGot ((World.init addr).exec c want (h1 ++ h2)) b q <+: (((World.init addr).exec c want (h1 ++ h2)).side a).wrote n := by
  have := (C65_between hs.addresses (h1 ++ h2) hx hk hb).2
  rw [hs.listens.key] at this
  exact C65_sofar hs this hq

end
end Verif.Apps
