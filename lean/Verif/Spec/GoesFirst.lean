import Verif.Spec.Patterns
/-!
# Specification vocabulary: a node that goes first
-/

set_option linter.unusedSectionVars false

namespace GS.Spec
variable {α κ W : Type _} [DecidableEq α] [DecidableEq κ]

/-- The condition of `d` is `Always()`, and each other node has an `EveryNCalls(d, 1)` of its
own. -/
structure GoesFirst (s : Sys α κ W) (d : α) : Prop where
  always : ∃ o, Dict.get? s.conds d = some (.leaf o .always)
  every : ∀ n ∈ s.nodes, n ≠ d → ∃ o, Dict.get? s.conds n = some (.leaf o (.everyNCalls d 1)) ∧
    o < s.store.fresh ∧ s.store.owner o = some n

/-- The sets from the one with `d` on. -/
def fromSet (d : α) (q : List (List α)) : List (List α) := q.dropWhile fun l => decide (d ∉ l)

/-- The sets before the one with `d`. -/
def beforeSet (d : α) (q : List (List α)) : List (List α) := q.takeWhile fun l => decide (d ∉ l)

end GS.Spec
