import Verif.Spec.RatedList
import Verif.Spec.Restate
/-!
# Specification vocabulary: nodes with rates in the same consideration set
-/

set_option linter.unusedSectionVars false

namespace GS.Spec
variable {α κ W : Type _} [DecidableEq α] [DecidableEq κ]

/-- `d` is in an earlier consideration set than `n`, or in the same one and before it in the
sense of `depth`. -/
def GoesBefore (q : List (List α)) (depth : α → Nat) (d n : α) : Prop :=
  ∃ i j, At q i d ∧ At q j n ∧ (i < j ∨ (i = j ∧ depth d < depth n))

/-- Every node waits for the calls that `waits` lists, of nodes in earlier sets or in its own
one, there never in a circle; and `rate` gives their rates: a node that waits for nothing has
rate 1, another one the largest product `k * rate d` over the `k` calls of `d` it waits for. -/
def RatedTogether (s : Sys α κ W) (waits : α → List (α × Nat)) (rate depth : α → Nat) : Prop :=
  ∀ n ∈ s.nodes, NodeWaitsFor s n (waits n) ∧ rate n = slowest rate (waits n) ∧
    ∀ x ∈ waits n, x.1 ∈ s.nodes ∧ 1 ≤ x.2 ∧ GoesBefore s.queue depth x.1 n

end GS.Spec
