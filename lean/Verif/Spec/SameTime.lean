import Verif.Spec.Absolute
/-!
# Specification vocabulary for the pace of absolute time
-/

set_option linter.unusedSectionVars false

namespace GS.Spec
variable {α κ W : Type _} [DecidableEq α] [DecidableEq κ]

/-- The times that decide how far apart the sets of a run are: the repeat intervals, and in
exact-time mode also the (inclusive) start, end and termination times. -/
def DecidesPace (s : Sys α κ W) (a : RunArgs α κ W) (q : Qty) : Prop :=
  RepeatUsed s a q ∨ (s.mode = .exactTime ∧ TimeUsed s a q)

/-- The default unit is positive, and if there are times that decide how far apart the sets
are, not all of them are 0. -/
def TimePasses (s : Sys α κ W) (a : RunArgs α κ W) : Prop :=
  0 < s.defaultUnit ∧ ((∃ q, DecidesPace s a q) → ∃ q, DecidesPace s a q ∧ q.val ≠ 0)

/-- There are times that decide how far apart the sets are, and all of them are 0. -/
def TimeStands (s : Sys α κ W) (a : RunArgs α κ W) : Prop :=
  (∃ q, DecidesPace s a q) ∧ ∀ q, DecidesPace s a q → q.val = 0

end GS.Spec
