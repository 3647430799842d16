import Verif.Spec.Run
import Verif.Spec.EveryN
/-!
# Specification vocabulary: runs that end after a number of passes
-/

set_option linter.unusedSectionVars false

namespace GS.Spec
variable {α κ W : Type _} [DecidableEq α] [DecidableEq κ]

/-- One termination condition of the run is `AfterNPasses(N, ts)`, the other is `Never()`. -/
def EndsAfter (a : RunArgs α κ W) (N : Nat) (ts : TimeScale) : Prop :=
  ∃ o o', (a.esu = .leaf o (.afterNPasses N ts) ∧ a.seq = .leaf o' .never) ∨
    (a.esu = .leaf o .never ∧ a.seq = .leaf o' (.afterNPasses N ts))

/-- `n` times the list `l`. -/
def times (n : Nat) (l : List β) : List β := (List.replicate n l).flatten

end GS.Spec
