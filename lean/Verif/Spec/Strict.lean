import Verif.Strict
import Verif.Spec.Warn
/-!
# Specification vocabulary for warnings that raise
-/

set_option linter.unusedSectionVars false

namespace GS.Spec
variable {α κ W : Type _} [DecidableEq α] [DecidableEq κ]

/-- What is raised if warnings raise, given the warnings and the exception of the same call when
they do not: the first warning, or the exception if there is no warning. -/
def strictly : List (Warning α) → Option Err → Option (Failure α)
  | w :: _, _ => some (.warned w)
  | [], some e => some (.err e)
  | [], none => none

/-- The failure of a result, if any. -/
def failed {β : Type _} : Except (Failure α) β → Option (Failure α)
  | .ok _ => none
  | .error f => some f

/-- The call of a method of a `ConditionSet` when warnings raise. -/
def CondOp.callS (s : CSet α κ W) : CondOp α κ W → CSet α κ W × Option (Failure α)
  | .add n c => s.addS n c
  | .addSet d => s.addSetS d
  | .setItem n c => s.setItemS n c
  | .remove c => s.removeCondS c
  | .removeOf n => s.removeOwnerS n

/-- The call of a method or property of a scheduler when warnings raise. -/
def SchedOp.callS (sw : OId → α → Graph α → List (Warning α)) (s : Stack α κ W) :
    SchedOp α κ W → Stack α κ W × Option (Failure α)
  | .add n c => s.addConditionS sw n c
  | .addSet d => s.addConditionSetS sw d
  | .remove c => s.removeConditionS c
  | .removeOf n => s.removeConditionOfS n
  | .graph => ((s.readGraphS sw).1, failed (s.readGraphS sw).2)
  | .queue => ((s.readQueueS sw).1, failed (s.readQueueS sw).2)
  | .indices => ((s.readIndicesS sw).1, failed (s.readIndicesS sw).2)

end GS.Spec
