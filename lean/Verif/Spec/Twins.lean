import Verif.Spec.Restate
import Verif.Spec.Reference
/-!
# Specification vocabulary: nodes with the same condition
-/

set_option linter.unusedSectionVars false

namespace GS.Spec
variable {α κ W : Type _} [DecidableEq α] [DecidableEq κ]

/-- The condition does not count calls of nodes in `l`. -/
def OutsideLeaf (l : List α) : Leaf α κ W → Prop
  | .beforeNCalls d _ _ | .atNCalls d _ _ | .afterCall d _ _ | .afterNCalls d _ _
  | .everyNCalls d _ => d ∉ l
  | .afterNCallsCombined ds _ _ => ∀ d ∈ ds, d ∉ l
  | .allHaveRun ds _ => ds ≠ [] ∧ ∀ d ∈ ds, d ∉ l
  | _ => True

mutual
/-- No part of the condition counts calls of nodes in `l`. -/
def Outside (l : List α) : Cond α κ W → Prop
  | .leaf _ k => OutsideLeaf l k
  | .whileNot _ _ => True
  | .all _ cs => OutsideAll l cs
  | .any _ cs => OutsideAll l cs
  | .not _ c => Outside l c
  | .nwhen _ c _ => Outside l c
/-- The same for all of the conditions. -/
def OutsideAll (l : List α) : List (Cond α κ W) → Prop
  | [] => True
  | c :: cs => Outside l c ∧ OutsideAll l cs
end

/-- The nodes `n` and `m` of the consideration set `l` have the same condition (in two objects), or
none and the same senders; and it does not count calls of nodes in `l`. -/
def AlikeNodes (s : Sys α κ W) (l : List α) (n m : α) : Prop :=
  (∃ c d, Dict.get? s.conds n = some c ∧ Dict.get? s.conds m = some d ∧ bare c = bare d ∧
    Outside l c) ∨
  (Dict.get? s.conds n = none ∧ Dict.get? s.conds m = none ∧
    ∃ ds ds', Dict.get? s.graph n = some ds ∧ Dict.get? s.graph m = some ds' ∧ SameMembers ds ds' ∧
      ∀ d ∈ ds, d ∉ l)

end GS.Spec
