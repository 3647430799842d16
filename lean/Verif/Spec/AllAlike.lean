import Verif.Spec.Standstill
import Verif.Spec.Patterns
/-!
# Specification vocabulary: conditions that look at the current pass only
-/

set_option linter.unusedSectionVars false

namespace GS.Spec
variable {α κ W : Type _} [DecidableEq α] [DecidableEq κ]

/-- Conditions on calls in the current pass. -/
def PassOnlyLeaf : Leaf α κ W → Prop
  | .always | .never => True
  | .beforeNCalls _ _ ts | .atNCalls _ _ ts | .afterCall _ _ ts | .afterNCalls _ _ ts
  | .afterNCallsCombined _ _ ts | .allHaveRun _ ts => ts = .pass
  | _ => False

/-- Every node that is considered has such a condition, or neither a condition nor senders. -/
def PassOnlyNodes (s : Sys α κ W) : Prop :=
  ∀ n ∈ s.queue.flatten,
    (∃ c, Dict.get? s.conds n = some c ∧ MadeOf PassOnlyLeaf c) ∨
    (Dict.get? s.conds n = none ∧ Dict.get? s.graph n = some [])

end GS.Spec
