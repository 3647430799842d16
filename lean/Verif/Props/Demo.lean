import Verif.RunCounts
/-!
# A concrete scheduler used in the non-vacuity examples

Graph `0 -> 1`, `0 -> 2`; node `2` has the condition `EveryNCalls(0, 2)`, the other
nodes have no condition.  Termination is the default: `AllHaveRun()` and `Never()`.
-/

set_option linter.unusedSectionVars false

namespace GS.Props
open Spec

/-- A world in which nodes have no attributes. -/
def demoWorld : World Nat Nat Unit :=
  { finished := fun _ _ => .error .attributeError, attr := fun _ _ => .error .attributeError
    getter := fun _ _ _ _ => .error .attributeError
    ext := () }

def demo0 : Sys Nat Nat Unit := Sys.new [(1, [0]), (2, [0])] .standard none 1 demoWorld

/-- The scheduler after `add_condition(2, EveryNCalls(0, 2))`. -/
def demo : Sys Nat Nat Unit := (demo0.alloc 1).addBasic 2 (.leaf 0 (.everyNCalls 0 2))

/-- `run()` with the default arguments. The termination conditions are objects 10 and 11. -/
def demoArgs : RunArgs Nat Nat Unit :=
  { id := none, esu := .leaf 10 (.allHaveRun [] .environment_state_update)
    seq := .leaf 11 .never }

/-- The run after `k` steps. -/
def demoAfter (k : Nat) : History Nat Nat Unit × Sys Nat Nat Unit × PC Nat :=
  match exec demo demoArgs k with
  | some (_, r) => r
  | none => ([], demo, .outer)

theorem demo_start : (demo.start demoArgs).2 = .ok false := by decide

theorem demo_reach (E) (k : Nat) :
    Reach E demoArgs demo false (demoAfter k).1 (demoAfter k).2.1 (demoAfter k).2.2 := by
  have h1 : ∃ s, demo.start demoArgs = (s, .ok false) :=
    ⟨(demo.start demoArgs).1, Prod.ext rfl demo_start⟩
  obtain ⟨s, h1⟩ := h1
  apply exec_reach (k := k)
  unfold demoAfter exec
  rw [h1]

/-- The whole run: two passes. -/
theorem demo_run : yields (demoAfter 40).1 = [[0], [1], [0], [1, 2]] ∧
    (demoAfter 40).2.2 = .returned := by decide +kernel

/-- A run of any scheduler, left alone, after `k` steps. -/
def runAfter {α κ W : Type _} [DecidableEq α] [DecidableEq κ] (s : Sys α κ W) (a : RunArgs α κ W)
    (k : Nat) : History α κ W × Sys α κ W × PC α :=
  match exec s a k with
  | some (_, r) => r
  | none => ([], s, .outer)

theorem run_reach {α κ W : Type _} [DecidableEq α] [DecidableEq κ] {s : Sys α κ W}
    {a : RunArgs α κ W} {b : Bool} (h : (s.start a).2 = .ok b) (E) (k : Nat) :
    Reach E a s b (runAfter s a k).1 (runAfter s a k).2.1 (runAfter s a k).2.2 := by
  obtain ⟨s1, h1⟩ : ∃ s1, s.start a = (s1, .ok b) := ⟨(s.start a).1, Prod.ext rfl h⟩
  apply exec_reach (k := k)
  unfold runAfter exec
  rw [h1]

end GS.Props
