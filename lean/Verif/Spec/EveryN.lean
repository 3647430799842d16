import Verif.Spec.Run
/-!
# Specification vocabulary: nodes that execute at every n-th execution of another node
-/

set_option linter.unusedSectionVars false

namespace GS.Spec
variable {α κ W : Type _} [DecidableEq α] [DecidableEq κ]

/-- A pass has begun. -/
def InPass (h : History α κ W) : Prop := ∃ e ∈ h, e.ev = .passStart

/-- Every pass that was followed by another one got as far as the consideration set at
position `j`. -/
def PassesReach (j : Nat) (h : History α κ W) : Prop :=
  ∀ h1 e h2, h = h1 ++ e :: h2 → e.ev = .passStart → InPass h1 → j ∈ setsConsidered (currentPass h1)

/-- The number of passes begun. -/
def passes (h : History α κ W) : Nat := h.countP isPassStart

end GS.Spec
