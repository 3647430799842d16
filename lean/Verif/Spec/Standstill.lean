import Verif.Spec.Reference
/-!
# Specification vocabulary: conditions that change only when nodes execute
-/

set_option linter.unusedSectionVars false

namespace GS.Spec
variable {α κ W : Type _} [DecidableEq α] [DecidableEq κ]

/-- Conditions that change only when a node executes, as long as the run goes on: those on numbers of
calls, and those on the numbers of runs and environment sequences. -/
def CallsLeaf : Leaf α κ W → Prop
  | .always | .never
  | .beforeNCalls _ _ _ | .atNCalls _ _ _ | .afterCall _ _ _ | .afterNCalls _ _ _
  | .afterNCallsCombined _ _ _ | .everyNCalls _ _ | .allHaveRun _ _
  | .beforeEnvironmentStateUpdate _ _ | .atEnvironmentStateUpdate _ _
  | .afterEnvironmentStateUpdate _ _ | .afterNEnvironmentStateUpdates _ _
  | .atEnvironmentSequence _ | .afterEnvironmentSequence _ | .afterNEnvironmentSequences _ => True
  | _ => False

/-- Such conditions, and those on the number of passes. -/
def CallsOrPassesLeaf : Leaf α κ W → Prop
  | .beforePass _ _ | .atPass _ _ | .afterPass _ _ | .afterNPasses _ _ | .everyNPasses _ _ => True
  | k => CallsLeaf k

/-- Conditions with `Q`, joined by `All`, `Any` and `Not`. -/
inductive MadeOf (Q : Leaf α κ W → Prop) : Cond α κ W → Prop
  | leaf {o : OId} {k : Leaf α κ W} (h : Q k) : MadeOf Q (.leaf o k)
  | all {o : OId} {cs : List (Cond α κ W)} (h : ∀ c ∈ cs, MadeOf Q c) : MadeOf Q (.all o cs)
  | any {o : OId} {cs : List (Cond α κ W)} (h : ∀ c ∈ cs, MadeOf Q c) : MadeOf Q (.any o cs)
  | not {o : OId} {c : Cond α κ W} (h : MadeOf Q c) : MadeOf Q (.not o c)

/-- Every node that is considered has such a condition, or `NWhen` of one, or no condition. -/
def CallsNodes (s : Sys α κ W) : Prop :=
  ∀ n ∈ s.queue.flatten,
    (∃ c, Dict.get? s.conds n = some c ∧ MadeOf CallsLeaf c) ∨
    (∃ o c m, Dict.get? s.conds n = some (.nwhen o c m) ∧ MadeOf CallsLeaf c) ∨
    Dict.get? s.conds n = none

/-- Nothing executes in the pass. -/
def Idle (P : List (List α)) : Prop := P.flatten = []

end GS.Spec
