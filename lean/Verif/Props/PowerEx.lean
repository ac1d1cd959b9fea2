import Verif.Props.Power
/-! # C77: examples, and what is not true -/
namespace Verif.Power
open Verif.Device

/-- A switch (0), two interfaces (1, 2), a switch somewhere else (3). -/
def exCfg (launch : Nat → Launch) (kill : Nat → Bool) : Cfg := ⟨fun d => if d = 0 then .ap false else if d = 3 then .ap true else .iface, launch, kill⟩

def good : Cfg := exCfg (fun _ => .up) (fun _ => true)

/-- All devices; the switch is not to be enabled automatically, the interfaces are. -/
def exFile : File := ⟨[1, 0, 2, 3], fun d => decide (d = 1 ∨ d = 2)⟩

/-- Everything is connected and switched on. -/
def exUp : List Ev := [.cmd exFile (.connect 1 0), .cmd exFile (.connect 2 3), .cmd exFile .on]

instance (s : St) (d : Nat) : Decidable (Alive s d) := by unfold Alive; infer_instance

/-! ## The cases that the theorems speak about exist -/

/-- Everything runs, also the switch, because an interface needs it. -/
example : Alive (exec good .init exUp) 0 ∧ Alive (exec good .init exUp) 1 ∧ Alive (exec good .init exUp) 2 ∧ ¬ Alive (exec good .init exUp) 3 := by decide +kernel

example : Wanted good exFile (exec good .init exUp) 0 :=
  .under 1 0 (by simp [exFile]) (by simp [exFile]) (by simp [good, exCfg]) ⟨by decide +kernel, by simp [exFile]⟩ (by simp [good, exCfg])

/-- C77_on_partial, C77_on_only: the switch has died, and an interface is stranded, while another one is not. -/
theorem ex_stranded : Stranded good exFile (exec good .init (exUp ++ [.died 0])) 1 := by
  refine ⟨by simp [exFile], by simp [good, exCfg], by decide +kernel, ?_⟩
  rintro ⟨a, ⟨h1, -⟩, h2⟩
  have hc : ((exec good .init (exUp ++ [.died 0])).dev 1).conn = some 0 := by decide +kernel
  rw [hc] at h1
  injection h1 with h1
  subst h1
  rcases h2 with h2 | h2
  · simp [Remote, good, exCfg] at h2
  · exact absurd h2 (by decide +kernel)

example : Alive (exec good .init (exUp ++ [.died 0])) 2 ∧ (command good exFile (exec good .init (exUp ++ [.died 0])) .on).2 = .done ∧
    Alive (command good exFile (exec good .init (exUp ++ [.died 0])) .on).1 0 ∧ Alive (command good exFile (exec good .init (exUp ++ [.died 0])) .on).1 2 ∧
    ¬ Alive (command good exFile (exec good .init (exUp ++ [.died 0])) .on).1 1 := by decide +kernel

/-- C77_on_twice -/
example : Alive (exec good .init (exUp ++ [.died 0] ++ [.cmd exFile .on, .cmd exFile .on])) 1 := by decide +kernel

/-- C77_status -/
example : (command good exFile (exec good .init exUp) .status).2 ≠ .loadFailed ∧ Alive (command good exFile (exec good .init exUp) .status).1 1 := by decide +kernel

/-- C77_off, C77_off_works -/
example : (command good exFile (exec good .init exUp) .off).2 = .done ∧ ¬ Alive (command good exFile (exec good .init exUp) .off).1 0 ∧
    ¬ Alive (command good exFile (exec good .init exUp) .off).1 1 ∧ ¬ Alive (command good exFile (exec good .init exUp) .off).1 2 := by decide +kernel

/-- C77_enable_message: all four messages. -/
example : (command good exFile (exec good .init exUp) (.enable 1)).2 = .enabled ∧
    (command (exCfg (fun _ => .down) fun _ => true) exFile .init (.enable 0)).2 = .failedAbnormally ∧
    (command good exFile .init (.enable 1)).2 = .unmetDependencies ∧
    (command good exFile (exec good .init (exUp ++ [.died 0])) (.enable 1)).2 = .couldNotLaunch := by decide +kernel

/-- C77_disable -/
example : (command good exFile (exec good .init exUp) (.disable 1)).2 = .done ∧ Alive (command good exFile (exec good .init exUp) (.disable 1)).1 0 ∧
    (command (exCfg (fun _ => .up) fun _ => false) exFile (exec (exCfg (fun _ => .up) fun _ => false) .init exUp) (.disable 1)).2 = .error := by decide +kernel

/-- C77_load: the process of the interface does not end. -/
example : (command (exCfg (fun _ => .up) fun _ => false) exFile (exec (exCfg (fun _ => .up) fun _ => false) .init (exUp ++ [.died 0])) .status).2 = .loadFailed := by
  decide +kernel

/-! ## What is not true -/

/-- That after `on` everything that is wanted runs is false, although all processes start and end as they should: after the process of the
switch has died, `on` starts it again, but ends the process of the interface. -/
theorem C77_false_once : ∃ (c : Cfg) (h : List Ev) (f : File) (d : Nat), (∀ n, c.launch n = .up) ∧ (∀ n, c.kill n = true) ∧ Wanted c f (exec c .init h) d ∧
    Alive (exec c .init h) d ∧ ¬ Alive (command c f (exec c .init h) .on).1 d :=
  ⟨good, exUp ++ [.died 0], exFile, 1, fun _ => rfl, fun _ => rfl,
    .iface 1 0 (by simp [exFile]) (by simp [exFile]) (by simp [good, exCfg]) ⟨by decide +kernel, by simp [exFile]⟩, by decide +kernel, by decide +kernel⟩

/-- That a command that only looks at the devices leaves them alone is false. -/
theorem C77_false_status : ∃ (c : Cfg) (h : List Ev) (f : File) (d : Nat), Alive (exec c .init h) d ∧
    (command c f (exec c .init h) .status).2 = .done ∧ ¬ Alive (command c f (exec c .init h) .status).1 d :=
  ⟨good, exUp ++ [.died 0], exFile, 1, by decide +kernel, by decide +kernel, by decide +kernel⟩

/-- That `on` starts whatever it can is false: when the start of one device raises, the following devices are not looked at. -/
theorem C77_false_rest : ∃ (c : Cfg) (f : File) (h : List Ev) (d : Nat), (∀ n, 0 < n → c.launch n = .up) ∧ (∀ n, c.kill n = true) ∧ Wanted c f (exec c .init h) d ∧
    (command c f (exec c .init h) .on).2 = .error ∧ ¬ Alive (command c f (exec c .init h) .on).1 d :=
  ⟨exCfg (fun n => if n = 0 then .raises true else .up) (fun _ => true), exFile, [.cmd exFile (.connect 1 0), .cmd exFile (.connect 2 3)], 2,
    fun n hn => by simp [exCfg, Nat.pos_iff_ne_zero.mp hn], fun _ => rfl,
    .iface 2 3 (by simp [exFile]) (by simp [exFile]) (by simp [exCfg]) ⟨by decide +kernel, by simp [exFile]⟩, by decide +kernel, by decide +kernel⟩

/-- That `off` stops whatever it can is false: when one process does not end, the following devices are left running. -/
theorem C77_false_off : ∃ (c : Cfg) (h : List Ev) (f : File) (d : Nat), (∀ n, 0 < n → c.kill n = true) ∧ d ∈ f.ds ∧
    (command c f (exec c .init h) .off).2 = .error ∧ Alive (exec c .init h) 1 ∧ Alive (command c f (exec c .init h) .off).1 1 ∧ d ≠ 1 ∧ Alive (command c f (exec c .init h) .off).1 d :=
  ⟨exCfg (fun _ => .up) (fun n => decide (n ≠ 0)), exUp, exFile, 2, fun n hn => by simp [exCfg, Nat.pos_iff_ne_zero.mp hn], by simp [exFile],
    by decide +kernel, by decide +kernel, by decide +kernel, by decide +kernel, by decide +kernel⟩

/-- That nothing runs after the network was switched off is false: a device that is removed keeps running, and nothing can stop it any more. -/
theorem C77_false_removed : ∃ (c : Cfg) (h : List Ev) (f g : File) (d : Nat), (∀ n, c.kill n = true) ∧ d ∈ f.ds ∧ g.ds = f.ds.erase d ∧
    (command c f (exec c .init h) (.remove d)).2 = .done ∧
    ∀ h', (∀ e ∈ h', e = .cmd g .off) → Alive (exec c (command c f (exec c .init h) (.remove d)).1 h') d := by
  refine ⟨good, exUp, exFile, ⟨[1, 2, 3], exFile.auto⟩, 0, fun _ => rfl, by simp [exFile], by simp [exFile], by decide +kernel, ?_⟩
  have key : ∀ (h' : List Ev), (∀ e ∈ h', e = .cmd ⟨[1, 2, 3], exFile.auto⟩ .off) → ∀ g : List Ev, Alive (exec good .init g) 0 → Alive (exec good (exec good .init g) h') 0 := by
    intro h'
    induction h' with
    | nil => intro _ g hg; exact hg
    | cons e h' ih =>
      intro he g hg
      have e1 : e = .cmd ⟨[1, 2, 3], exFile.auto⟩ .off := he e (by simp)
      subst e1
      have happ : ∀ (g : List Ev) (s : St) (g' : List Ev), exec good s (g ++ g') = exec good (exec good s g) g' := by
        intro g
        induction g with
        | nil => intro s g'; rfl
        | cons e g ih => intro s g'; exact ih _ g'
      have e2 : exec good .init (g ++ [.cmd ⟨[1, 2, 3], exFile.auto⟩ .off]) = (command good ⟨[1, 2, 3], exFile.auto⟩ (exec good .init g) .off).1 := by rw [happ]; rfl
      have := ih (fun e he' => he e (by simp [he'])) (g ++ [.cmd ⟨[1, 2, 3], exFile.auto⟩ .off])
      rw [e2] at this
      refine this ?_
      have h4 := (C77_off good g ⟨[1, 2, 3], exFile.auto⟩).2.2.2 (loaded_of_kill (fun _ => rfl) g _ .off)
      unfold Alive
      rw [h4.2 0 (by simp)]
      exact hg
  intro h' he
  have := key h' he (exUp ++ [.cmd exFile (.remove 0)]) (by decide +kernel)
  exact this

end Verif.Power
