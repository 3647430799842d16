import Verif.Scheduler
/-!
# Specification vocabulary for the text of a time
-/

set_option linter.unusedSectionVars false

namespace GS.Spec
variable {α κ W : Type _} [DecidableEq α] [DecidableEq κ]

/-- What `scheduler.get_clock(id).time` is whenever a set is yielded, in order. -/
def yieldTimes (id : Option κ) (h : History α κ W) : List Time :=
  h.filterMap fun e => e.ev.yield?.map fun _ => (e.after.clock id).time

end GS.Spec
