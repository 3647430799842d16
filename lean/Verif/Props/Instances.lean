import Verif.Props.RunCounts
import Verif.Props.Run
import Verif.Props.Life
import Verif.Props.Time
import Verif.Props.CondTime
import Verif.Props.Conditions
import Verif.Props.Default
import Verif.Props.Graph
import Verif.Props.AbsInterval
import Verif.Props.AbsRepeat
import Verif.Props.AbsTerm
import Verif.Props.ClockObjs
/-!
# Theorems applied to concrete cases

The files with the properties contain examples that meet the hypotheses of groups of theorems.
Here single theorems are applied to concrete runs, clocks and graphs, so that all their
hypotheses are seen to be met together.
-/

set_option linter.unusedSectionVars false

namespace GS.Props
open GS.Spec TimeScale

/-- Nobody does anything between two steps. -/
abbrev NoStep : Sys Nat Nat Unit → Sys Nat Nat Unit → Prop := fun _ _ => False

theorem noStep_keeps {β : Type} (f : Sys Nat Nat Unit → β) : Keeps NoStep f :=
  fun _ _ h => h.elim

/-! ## The demo run -/

theorem demo_returned : Reach NoStep demoArgs demo false (demoAfter 40).1
    (demoAfter 40).2.1 .returned := by
  have := demo_reach NoStep 40
  rw [demo_run.2] at this; exact this

theorem demo_governed : GovernedBy (demoAfter 40).1 2 0 2 :=
  governedBy_of_start (demo_reach NoStep 40) (noStep_keeps _) (noStep_keeps _)
    (fun _ _ h => h.elim) (o := 0) rfl rfl (by decide)

example := C06_one_layer_in_order (demo_reach NoStep 0) (noStep_keeps _)
  (h1 := []) (h2 := []) (seg := [])
example := C10_default_condition (n := 1) (deps := [0]) (demo_reach NoStep 40)
  (noStep_keeps _) (noStep_keeps _) (fun _ _ h => h.elim) (noStep_keeps _) (noStep_keeps _)
  (by decide) rfl rfl (by decide)
example := C11_run_count (demo_reach NoStep 40) (noStep_keeps _)
example := C11_pass_count (demo_reach NoStep 40) (noStep_keeps _) (noStep_keeps _) (by decide)
example := C11_life_count (life_of_run (demo_reach NoStep 40)) (i := none) (noStep_keeps _) rfl
example := C13_rate (b := 2) (d := 0) (demo_reach NoStep 40) (noStep_keeps _) (by decide)
  demo_governed (l1 := [[0], [1]]) (l2 := [[0], [1, 2]]) demo_run.1
example := C13_between (b := 2) (d := 0) (demo_reach NoStep 40) (noStep_keeps _) (by decide)
  demo_governed (l1 := []) (l2 := [0, 1, 0, 1]) (l3 := []) (by decide +kernel) (.inl rfl)
  (by decide)
example := C14_returns_only_when_finished demo_returned
example := C15_all_have_run ⟨10, 11, rfl, rfl⟩ demo_returned (noStep_keeps _) (noStep_keeps _)
example := C17_history (life_of_run (demo_reach NoStep 40)) (i := none) (noStep_keeps _)
  (noStep_keeps _) rfl (.inl rfl)
example := C17_history_new (life_of_run (run_reach (s := Sys.new [(1, [0]), (2, [0])] .standard
  none 1 demoWorld) (a := demoArgs) (b := false) (by decide) NoStep 40)) (noStep_keeps _)
  (noStep_keeps _)
example := C25_just_ran (o := 5) (d := 0) (life_of_run (run_reach (s := Sys.new [(1, [0]), (2, [0])]
  .standard none 1 demoWorld) (a := demoArgs) (b := false) (by decide) NoStep 40))
  (noStep_keeps _) (noStep_keeps _)
example := C29_unknown_base (s := demo)
  (a := { demoArgs with id := some 7, base := some (some 8) })
  (Sys.new_synced [(1, [0]), (2, [0])] .standard none 1 demoWorld) rfl rfl rfl (by decide)
  (by decide)

/-! ## A clock -/

/-- In the second update of the second sequence. -/
def someLog : List TimeScale :=
  [.pass, .environment_sequence, .pass, .pass, .environment_state_update, .pass]

example := C20_life_rejected someLog (by decide) _ rfl
example := C20_history_increasing someLog [.pass] (by decide)
example := C21_clock_counts (log := someLog) (by decide) _ rfl .pass .environment_state_update
  (.inr rfl) (by decide) 1 (by decide)
example := C21_clock_default (log := someLog) (by decide) _ rfl .pass .environment_state_update
  (.inr rfl) (by decide)
example := C21_clock_negative (log := someLog) (by decide) _ rfl .pass .environment_state_update
  (.inr rfl) (by decide) 1 (by decide)
example := C21_clock_not_begun (log := someLog) (by decide) _ rfl .pass .environment_state_update
  (.inr rfl) (by decide) 2 (.inl (by decide))
example := C21_clock_pass_not_recorded (log := someLog) (by decide) _ rfl 0

/-- A moment at which the clock is a new one. -/
theorem demo_shows : Shows (demo.toView.clock none) [] := .new

example := C22_passes demo_shows (ts := .life) (o := 0) (st := demo.store) (by decide) 3
example := C22_cse_partial demo_shows (ts := .life) (o := 0) (st := demo.store) (by decide) 3
example := C22_cse_in_pass_raises demo_shows (o := 0) (st := demo.store) 3
example := C22_environment_state_updates demo_shows (ts := .life) (o := 0) (st := demo.store)
  (by decide) 3
example := C22_environment_sequences demo_shows (o := 0) (st := demo.store) 3
example := C22_unit_ignored demo_shows (ts := .pass) (o := 0) (st := demo.store) (by decide) 3

/-! ## A run in absolute time -/

theorem tick_goes (e) : (runAfter ticking untilTwelve 60).2.2 ≠ .raised e := by
  have : (match (runAfter ticking untilTwelve 60).2.2 with
    | .raised _ => true | _ => false) = false := by decide +kernel
  intro h; rw [h] at this; cases this

theorem tick_done : Reach NoStep untilTwelve ticking true (runAfter ticking untilTwelve 400).1
    (runAfter ticking untilTwelve 400).2.1 .returned := by
  have h := ticking_reach NoStep 400
  have : (runAfter ticking untilTwelve 400).2.2 = .returned := by
    have : (match (runAfter ticking untilTwelve 400).2.2 with
      | .returned => true | _ => false) = true := by decide +kernel
    revert this; cases (runAfter ticking untilTwelve 400).2.2 <;> simp
  rw [this] at h; exact h

theorem tick_conds (k : Nat) : Dict.get? (runAfter ticking untilTwelve k).2.1.conds 1 =
      some (.leaf 1 (.timeInterval (some ⟨3, 0⟩) none none true true)) ∧
    (runAfter ticking untilTwelve k).2.1.store.owner 1 = some 1 := by
  obtain ⟨s1, hs1, hc1, ho1, _⟩ := (ticking_reach NoStep k).conds_start (noStep_keeps _)
    (noStep_keeps _) (fun _ _ h => h.elim)
  obtain ⟨x1, x2, _, _⟩ := (Sys.start_ok hs1).conds_spec
  exact ⟨by rw [hc1]; exact x2 1 _ rfl, by rw [ho1, x1.owner 1 (by decide)]; rfl⟩

theorem tick_queue : ∀ j, At ticking.queue j 1 → j = 1 := by
  rintro j ⟨l, hl, h1⟩
  have hq : ticking.queue = [[0], [1]] := by decide +kernel
  rw [hq] at hl
  match j with
  | 0 => cases hl; simp at h1
  | 1 => rfl
  | j + 2 => simp at hl

example := C48_every_r (n := 1) (o := 1) (r := ⟨3, 0⟩) (i := 1) (si := true) (ei := true)
  (ticking_reach NoStep 60) (noStep_keeps _) (noStep_keeps _) (noStep_keeps _) (noStep_keeps _)
  (tick_conds 60).1 (tick_conds 60).2 (by decide +kernel) ⟨[1], by decide +kernel, by simp⟩
  tick_queue (fun h => by cases h) trivial trivial
example := C49_every_set (ticking_reach NoStep 60)
example := C49_stamps (ticking_reach NoStep 60) (noStep_keeps _) (noStep_keeps _) rfl tick_goes
example := C49_times (ticking_reach NoStep 60) (noStep_keeps _) (y0 := (0, [0], 0))
  (by decide +kernel)
example := C51_not_after (ticking_reach NoStep 60) rfl
example := C51_until_partial tick_done (noStep_keeps _) rfl rfl (by decide +kernel)
example := C60_when (n := 1) (o := 1) (rep := some ⟨3, 0⟩) (i := 1) (si := true) (ei := true)
  (ticking_reach NoStep 60) (noStep_keeps _) (noStep_keeps _) (noStep_keeps _) (noStep_keeps _)
  (noStep_keeps _) tick_goes (tick_conds 60).1 (tick_conds 60).2
  (by intro r hr; cases hr; decide +kernel) ⟨[1], by decide +kernel, by simp⟩ tick_queue (.inl rfl)

/-! ## Graphs -/

theorem diamond_acyclic : ¬ HasCycle diamond := by
  rcases toposort_spec diamond diamond_wf with ⟨_, _, _, _, _, h⟩ | ⟨h, _⟩
  · exact h
  · exact absurd h (by decide)

example := C02_senders_first diamond diamond_wf diamond_acyclic 1 3
  ⟨(3, [1, 2]), by decide, rfl, by decide⟩ (by decide) 1 2 ⟨[1, 2], by decide, by decide⟩
  ⟨[3], by decide, by decide⟩
example := C04_cycle_rejected (s := (Sys.new ring .standard none 1 demoWorld : Sys Nat Nat Unit))
  ring (by decide) ⟨0, .tail (.single ⟨⟨(1, [0]), by simp [ring], rfl, by simp⟩, by simp⟩)
    ⟨⟨(0, [1]), by simp [ring], rfl, by simp⟩, by simp⟩⟩ rfl demoArgs

/-! ## Clock objects -/

example := C109_apart sharing 9 clockHistory clockHistory 1 3 (by decide)
example := C109_shared sharing ((ClockObjs.created 9).after sharing clockHistory) 1 2 (by decide)
example := C109_deleted_partial sharing 9 clockHistory clockHistory 3 (by decide)
example := C109_survives_deletion sharing ((ClockObjs.created 9).after sharing clockHistory) 1 0
  (by decide) (by decide)

end GS.Props
