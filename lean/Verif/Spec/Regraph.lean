import Verif.Spec.Order
/-!
# Specification vocabulary: schedulers that differ in the graph only
-/

set_option linter.unusedSectionVars false

namespace GS.Spec
variable {α κ W : Type _} [DecidableEq α]

/-- The scheduler with another graph, but the same consideration queue. -/
def withGraph (g : Graph α) (s : Sys α κ W) : Sys α κ W := { s with graph := g }

/-- A user function that does not look at the graph. -/
def BlindFn (f : View α κ W → Option κ → Option α → Except Err Bool) : Prop :=
  ∀ (v : View α κ W) (g : Graph α) (id : Option κ) (o : Option α), f { v with graph := g } id o = f v id o

mutual
/-- No user function in the condition looks at the graph.  (No condition of the library does.) -/
def Blind : Cond α κ W → Prop
  | .leaf _ (.func f) => BlindFn f
  | .leaf _ _ => True
  | .whileNot _ f => BlindFn f
  | .all _ cs => BlindAll cs
  | .any _ cs => BlindAll cs
  | .not _ c => Blind c
  | .nwhen _ c _ => Blind c
/-- All of them are such. -/
def BlindAll : List (Cond α κ W) → Prop
  | [] => True
  | c :: cs => Blind c ∧ BlindAll cs
end

/-- No condition of the nodes and no termination condition of the run looks at the graph. -/
def AllBlind (a : RunArgs α κ W) (s : Sys α κ W) : Prop :=
  (∀ n c, Dict.get? s.conds n = some c → Blind c) ∧ Blind a.esu ∧ Blind a.seq

end GS.Spec
