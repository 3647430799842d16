import Verif.Tamper
import Verif.Props.Demo
/-!
# C121: modifying the yielded sets
-/

set_option linter.unusedSectionVars false

namespace GS.Props
open Spec
variable {α κ W : Type _} [DecidableEq α] [DecidableEq κ]
variable {s t s0 t0 : Sys α κ W} {a : RunArgs α κ W} {abs : Bool}
variable {h : History α κ W} {pc : PC α}

/-- **C121**, first half: a run whose caller modifies the yielded sets, or anything else in
`execution_list` and `execution_timestamps`, before or during the run, goes like a run of
a caller that modifies none of this. -/
theorem C121 (ha : AllForgetful a s0) (hs0 : SameButRecords s0 t0) (hr : Reach Tampers a s0 abs h s pc) :
    ∃ h' t, Reach HandsOff a t0 abs h' t pc ∧ yields h' = yields h ∧ All2 SameMoment h h' ∧
      SameButRecords s t := by
  obtain ⟨_, h', t, h1, h2, h3⟩ := reach_both (E' := HandsOff)
    (fun s s' t ⟨x, hx⟩ hst => ⟨{ t with world := x }, ⟨x, rfl⟩, hx.symm.trans (hst.world x)⟩)
    (fun s s' ⟨x, hx⟩ => by rw [hx.rest]) hs0 ha hr
  exact ⟨h', t, h1, sameMoment_yields h2, h2, h3⟩

/-- **C121**, second half: and whatever a caller does with the records, each run that is possible
without is possible with it.  (`m` is what the caller does each time.) -/
theorem C121_any (ha : AllForgetful a s0) (hs0 : SameButRecords s0 t0) (hr : Reach HandsOff a s0 abs h s pc)
    (m : Sys α κ W → Sys α κ W) (hm : ∀ u, SameButRecords u (m u)) :
    ∃ h' t, Reach (fun u u' => ∃ x, u' = m { u with world := x }) a t0 abs h' t pc ∧
      yields h' = yields h ∧ All2 SameMoment h h' ∧ SameButRecords s t := by
  obtain ⟨_, h', t, h1, h2, h3⟩ := reach_both
    (E' := fun u u' => ∃ x, u' = m { u with world := x })
    (fun s s' t ⟨x, hx⟩ hst => ⟨m { t with world := x }, ⟨x, rfl⟩, by
      subst hx; exact (hst.world x).trans (hm _)⟩)
    (fun s s' ⟨x, hx⟩ => by rw [hx]) hs0 ha hr
  exact ⟨h', t, h1, sameMoment_yields h2, h2, h3⟩

/-! ## A run with a caller that empties each set -/

/-- The caller empties all recorded sets of the default id. -/
def emptied (s : Sys Nat Nat Unit) : Sys Nat Nat Unit :=
  match Dict.get? s.execList none with
  | some l => { s with execList := Dict.set s.execList none (l.map fun _ => []) }
  | none => s

theorem emptied_same (s : Sys Nat Nat Unit) : SameButRecords s (emptied s) := by
  unfold emptied
  split
  · rename_i l hl
    refine ⟨fun i => ?_, fun _ => rfl, rfl⟩
    by_cases hi : i = none
    · subst hi
      show (Dict.get? (Dict.set _ _ _) _).isSome = _
      rw [Dict.get?_set_self, hl]; rfl
    · show (Dict.get? (Dict.set _ _ _) _).isSome = _
      rw [Dict.get?_set_ne hi]
  · exact .refl s

/-- `k` steps of a run whose caller empties the sets. -/
def emptySteps (a : RunArgs Nat Nat Unit) :
    Nat → History Nat Nat Unit → Sys Nat Nat Unit → PC Nat → History Nat Nat Unit × Sys Nat Nat Unit × PC Nat
  | 0, h, s, pc => (h, s, pc)
  | k + 1, h, s, pc =>
    let s1 := if pc.suspended then emptied s else s
    emptySteps a k (h ++ (s1.step a false pc).2.2.toList.map fun x => ⟨s1, x, (s1.step a false pc).1⟩)
      (s1.step a false pc).1 (s1.step a false pc).2.1

theorem emptySteps_reach {a : RunArgs Nat Nat Unit} {s0 : Sys Nat Nat Unit} : ∀ (k : Nat) {h s pc},
    Reach Tampers a s0 false h s pc → Reach Tampers a s0 false (emptySteps a k h s pc).1
      (emptySteps a k h s pc).2.1 (emptySteps a k h s pc).2.2
  | 0, _, _, _, hr => hr
  | k + 1, h, s, pc, hr => by
    have h1 : Reach Tampers a s0 false h (if pc.suspended then emptied s else s) pc := by
      by_cases hp : pc.suspended
      · rw [if_pos hp]
        exact .env hr hp ⟨s.world, emptied_same s⟩
      · rw [if_neg hp]; exact hr
    exact emptySteps_reach k (.step h1 rfl)

/-- The run of a caller that empties the sets, after `k` steps. -/
def emptyRun (s : Sys Nat Nat Unit) (a : RunArgs Nat Nat Unit) (k : Nat) :
    History Nat Nat Unit × Sys Nat Nat Unit × PC Nat := emptySteps a k [] (s.start a).1 .outer

theorem emptyRun_reach {s : Sys Nat Nat Unit} {a : RunArgs Nat Nat Unit} (h : (s.start a).2 = .ok false)
    (k : Nat) : Reach Tampers a s false (emptyRun s a k).1 (emptyRun s a k).2.1 (emptyRun s a k).2.2 :=
  emptySteps_reach k (.start (Prod.ext rfl h))

theorem demo_forgetful : AllForgetful demoArgs demo := by
  refine ⟨fun n c hc => ?_, trivial, trivial⟩
  have : demo.conds = [(2, .leaf 0 (.everyNCalls 0 2))] := rfl
  rw [this] at hc
  simp only [Dict.get?] at hc
  split at hc
  · cases hc; trivial
  · cases hc

-- The caller empties the sets: the history is lost, the schedule is not.
example : yields (emptyRun demo demoArgs 40).1 = [[0], [1], [0], [1, 2]] ∧
    (emptyRun demo demoArgs 40).2.2 = .returned ∧
    Dict.get? (emptyRun demo demoArgs 40).2.1.execList none = some [[], [], [], []] := by decide +kernel

example : ∃ h' t, Reach HandsOff demoArgs demo false h' t .returned ∧
    yields h' = [[0], [1], [0], [1, 2]] := by
  have e : (emptyRun demo demoArgs 40).2.2 = .returned := by decide +kernel
  obtain ⟨h', t, h1, h2, _⟩ := C121 demo_forgetful (.refl _) (emptyRun_reach demo_start 40)
  rw [e] at h1
  exact ⟨h', t, h1, h2.trans (by decide +kernel)⟩

/-- 1 follows 0 and has `JustRan(0)`; 0 has the condition that is made for it. -/
def mindful : Sys Nat Nat Unit :=
  ((Sys.new [(1, [0])] .standard none 1 demoWorld).alloc 1).addBasic 1 (.leaf 0 (.justRan 0))

/-- It ends after two passes. -/
def mindfulArgs : RunArgs Nat Nat Unit :=
  { id := none, esu := .leaf 10 (.afterNPasses 2 .environment_state_update), seq := .leaf 11 .never }

/-- **C121**, the exception: `JustRan` looks into the set that was yielded last.  When the
caller empties it, the node is not executed. -/
theorem C121_justRan :
    (∃ h s, Reach HandsOff mindfulArgs mindful false h s .returned ∧ yields h = [[0], [1], [0], [1]]) ∧
    (∃ h s, Reach Tampers mindfulArgs mindful false h s .returned ∧ yields h = [[0], [0]]) := by
  have h0 : (mindful.start mindfulArgs).2 = .ok false := by decide
  have e1 : (runAfter mindful mindfulArgs 40).2.2 = .returned := by decide +kernel
  have e2 : (emptyRun mindful mindfulArgs 40).2.2 = .returned := by decide +kernel
  have r1 := run_reach h0 HandsOff 40
  have r2 := emptyRun_reach h0 40
  rw [e1] at r1
  rw [e2] at r2
  exact ⟨⟨_, _, r1, by decide +kernel⟩, ⟨_, _, r2, by decide +kernel⟩⟩

end GS.Props
