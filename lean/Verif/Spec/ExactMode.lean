import Verif.Spec.Order
import Verif.Spec.Absolute
/-!
# Specification vocabulary: exact-time mode and a graph without edges
-/

set_option linter.unusedSectionVars false

namespace GS.Spec
variable {α κ W : Type _} [DecidableEq α] [DecidableEq κ]

/-- The scheduler in standard mode with another graph, but the same consideration queue. -/
def inStandard (g : Graph α) (s : Sys α κ W) : Sys α κ W := { s with mode := .standard, graph := g }

/-- A user function that does not look at the mode and the graph. -/
def UnmodedFn (f : View α κ W → Option κ → Option α → Except Err Bool) : Prop :=
  ∀ (v : View α κ W) (m : Mode) (g : Graph α) (id : Option κ) (o : Option α),
    f { v with mode := m, graph := g } id o = f v id o

mutual
/-- No user function in the condition looks at the mode and the graph. -/
def Unmoded : Cond α κ W → Prop
  | .leaf _ (.func f) => UnmodedFn f
  | .leaf _ _ => True
  | .whileNot _ f => UnmodedFn f
  | .all _ cs => UnmodedAll cs
  | .any _ cs => UnmodedAll cs
  | .not _ c => Unmoded c
  | .nwhen _ c _ => Unmoded c
/-- All of them are such. -/
def UnmodedAll : List (Cond α κ W) → Prop
  | [] => True
  | c :: cs => Unmoded c ∧ UnmodedAll cs
end

/-- No condition of the nodes and no termination condition of the run looks at the mode and
the graph. -/
def AllUnmoded (a : RunArgs α κ W) (s : Sys α κ W) : Prop :=
  (∀ n c, Dict.get? s.conds n = some c → Unmoded c) ∧ Unmoded a.esu ∧ Unmoded a.seq

/-- The times that count for the interval between two sets in exact-time mode only (inclusive
starts, ends and times of termination) do not make it smaller: there are none, or they are
multiples of the greatest common divisor of the repeat intervals. -/
def NoFiner (a : RunArgs α κ W) (s : Sys α κ W) : Prop :=
  (∀ q, ¬ TimeUsed s a q) ∨
  ((∃ r, RepeatUsed s a r) ∧ ∀ q, TimeUsed s a q → ∀ g, IsGcd (RepeatUsed s a) g → Multiple q.val g)

/-- The graph without its edges. -/
def edgeless (g : Graph α) : Graph α := g.map fun p => (p.1, [])

end GS.Spec
