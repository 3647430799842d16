import Verif.Spec.Cond
/-!
# Specification: a node with a quota
-/

set_option linter.unusedSectionVars false

namespace GS.Spec
variable {α κ W : Type _} [DecidableEq α] [DecidableEq κ]

mutual
/-- The object `o` does not occur in the condition. -/
def Without (o : Nat) : Cond α κ W → Prop
  | .leaf x _ => x ≠ o
  | .whileNot x _ => x ≠ o
  | .all x args => x ≠ o ∧ WithoutAll o args
  | .any x args => x ≠ o ∧ WithoutAll o args
  | .not x c => x ≠ o ∧ Without o c
  | .nwhen x c _ => x ≠ o ∧ Without o c
/-- The same for all components. -/
def WithoutAll (o : Nat) : List (Cond α κ W) → Prop
  | [] => True
  | c :: cs => Without o c ∧ WithoutAll o cs
end

/-- The condition of node `b` is `NWhen(c, n)`, an object that exists (`made`) and is used
for nothing else. -/
structure OnlyFor (b : α) (o : Nat) (c : Cond α κ W) (n : Int) (s : Sys α κ W) : Prop where
  made : o < s.store.fresh
  cond : Dict.get? s.conds b = some (.nwhen o c n)
  inner : Without o c
  others : ∀ m d, m ≠ b → Dict.get? s.conds m = some d → Without o d

/-- The generator has raised an exception. -/
def Gen.hasRaised (g : Gen α κ W) : Prop := ∃ e, g.pc = .raised e

end GS.Spec
