import Verif.Spec.Standstill
import Verif.Spec.Patterns
/-!
# Specification vocabulary: conditions on the life of the scheduler
-/

set_option linter.unusedSectionVars false

namespace GS.Spec
variable {α κ W : Type _} [DecidableEq α] [DecidableEq κ]

/-- The unit of time is longer than a run. -/
def LongScale (ts : TimeScale) : Prop := ts = .environment_sequence ∨ ts = .life

/-- Conditions that do not look at the current run: those on calls in the pass or in a unit of time
longer than a run, those on the numbers of passes and sets in such a unit, and `JustRan`. -/
def LifeLeaf : Leaf α κ W → Prop
  | .always | .never | .justRan _
  | .atEnvironmentSequence _ | .afterEnvironmentSequence _ | .afterNEnvironmentSequences _ => True
  | .beforeNCalls _ _ ts | .atNCalls _ _ ts | .afterCall _ _ ts | .afterNCalls _ _ ts
  | .afterNCallsCombined _ _ ts | .allHaveRun _ ts => ts = .pass ∨ LongScale ts
  | .beforePass _ ts | .atPass _ ts | .afterPass _ ts | .afterNPasses _ ts | .everyNPasses _ ts
  | .beforeConsiderationSetExecution _ ts | .atConsiderationSetExecution _ ts
  | .afterConsiderationSetExecution _ ts | .afterNConsiderationSetExecutions _ ts => LongScale ts
  | _ => False

/-- Every node that is considered has such a condition, or `NWhen` of one, or neither a condition nor
senders. -/
def LifeNodes (s : Sys α κ W) : Prop :=
  ∀ n ∈ s.queue.flatten,
    (∃ c, Dict.get? s.conds n = some c ∧ MadeOf LifeLeaf c) ∨
    (∃ o c m, Dict.get? s.conds n = some (.nwhen o c m) ∧ MadeOf LifeLeaf c) ∨
    (Dict.get? s.conds n = none ∧ Dict.get? s.graph n = some [])

/-- Complete runs under the id, one after the other, each of a given number of passes, `M` in all, all in
absolute time or none; between them the outside world may change. -/
inductive PassRuns (id : Option κ) (abs : Bool) (s0 : Sys α κ W) :
    Nat → List (List (List (List α))) → Sys α κ W → Prop
  | nil : PassRuns id abs s0 0 [] s0
  | world {M : Nat} {runs : List (List (List (List α)))} {s : Sys α κ W} (x : World α κ W) :
      PassRuns id abs s0 M runs s → PassRuns id abs s0 M runs { s with world := x }
  | run {M N : Nat} {runs : List (List (List (List α)))} {s s' : Sys α κ W}
      {w : List (List α) → World α κ W} {a : RunArgs α κ W} {h : History α κ W} :
      PassRuns id abs s0 M runs s → a.id = id → a.skip = false → AfterPasses N a →
      Scripted w a s abs h s' .returned → PassRuns id abs s0 (M + N) (runs ++ [passYields h]) s'

end GS.Spec
