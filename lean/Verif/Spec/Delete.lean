import Verif.Spec.Life
/-!
# Specification vocabulary: deleting what is stored under an execution id
-/

set_option linter.unusedSectionVars false

namespace GS.Spec
variable {α κ W : Type _} [DecidableEq α] [DecidableEq κ]

/-- Operations under any execution ids, in any order: beginning runs (also failing to), steps
of runs, `get_clock`, `end_environment_sequence`, and the deletion of what is stored under an
id. -/
inductive Used (s : Sys α κ W) : Sys α κ W → Prop
  | refl : Used s s
  | start {s1 s2 : Sys α κ W} (b : RunArgs α κ W) (r : Except Err Bool) :
      Used s s1 → s1.start b = (s2, r) → Used s s2
  | step {s1 s2 : Sys α κ W} (b : RunArgs α κ W) (abs : Bool) (pc pc' : PC α)
      (ev : Option (Event α)) : Used s s1 → s1.step b abs pc = (s2, pc', ev) → Used s s2
  | clock {s1 : Sys α κ W} (j : Option κ) : Used s s1 → Used s (s1.getClock j)
  | endSequence {s1 s2 : Sys α κ W} (j : Option κ) :
      Used s s1 → s1.endEnvironmentSequence j = .ok s2 → Used s s2
  | delete {s1 : Sys α κ W} (j : Option κ) : Used s s1 → Used s (s1.deleteCounts j)

/-- Nothing is stored under the id `i`: no counts, no clock, no history, no timestamps. -/
structure Unknown (i : Option κ) (s : Sys α κ W) : Prop where
  total : Dict.get? s.countsTotal i = none
  useable : Dict.get? s.countsUseable i = none
  list : Dict.get? s.execList i = none
  stamps : Dict.get? s.timestamps i = none
  clocks : Dict.get? s.clocks i = none

/-- No condition object (`NWhen`) has counted anything under the id `i`. -/
def Uncounted (i : Option κ) (s : Sys α κ W) : Prop := ∀ o, s.store.sat o i = 0

end GS.Spec
