import Verif.Spec.Reference
import Verif.Spec.Patterns
/-!
# Specification vocabulary: conditions on the numbers of passes and runs
-/

set_option linter.unusedSectionVars false

namespace GS.Spec
variable {α κ W : Type _} [DecidableEq α] [DecidableEq κ]

/-- `Always`, `Never`, the conditions on the number of the pass in its run and those on the number
of the run in its environment sequence. -/
def PassLeaf : Leaf α κ W → Prop
  | .always | .never => True
  | .beforePass _ ts | .atPass _ ts | .afterPass _ ts | .afterNPasses _ ts | .everyNPasses _ ts =>
    ts = .environment_state_update
  | .beforeEnvironmentStateUpdate _ ts | .atEnvironmentStateUpdate _ ts
  | .afterEnvironmentStateUpdate _ ts | .afterNEnvironmentStateUpdates _ ts =>
    ts = .environment_sequence
  | _ => False

/-- What they say of pass `i` of run `r` (both from 0). -/
def dueLeaf (r i : Nat) : Leaf α κ W → Prop
  | .always => True
  | .beforePass n _ => (i : Int) < n
  | .atPass n _ => (i : Int) = n
  | .afterPass n _ => n < (i : Int)
  | .afterNPasses n _ => n ≤ (i : Int)
  | .everyNPasses n _ => ∃ k : Int, (i : Int) = n * k
  | .beforeEnvironmentStateUpdate n _ => (r : Int) < n
  | .atEnvironmentStateUpdate n _ => (r : Int) = n
  | .afterEnvironmentStateUpdate n _ => n < (r : Int)
  | .afterNEnvironmentStateUpdates n _ => n ≤ (r : Int)
  | _ => False

/-- Such conditions, joined by `All`, `Any` and `Not`. -/
inductive PassCond : Cond α κ W → Prop
  | leaf {o : OId} {k : Leaf α κ W} (h : PassLeaf k) : PassCond (.leaf o k)
  | all {o : OId} {cs : List (Cond α κ W)} (h : ∀ c ∈ cs, PassCond c) : PassCond (.all o cs)
  | any {o : OId} {cs : List (Cond α κ W)} (h : ∀ c ∈ cs, PassCond c) : PassCond (.any o cs)
  | not {o : OId} {c : Cond α κ W} (h : PassCond c) : PassCond (.not o c)

mutual
/-- What such a condition says of pass `i` of run `r`. -/
def dueIn (r i : Nat) : Cond α κ W → Prop
  | .leaf _ k => dueLeaf r i k
  | .all _ cs => dueAll r i cs
  | .any _ cs => dueAny r i cs
  | .not _ c => ¬ dueIn r i c
  | _ => False
/-- All of them say so. -/
def dueAll (r i : Nat) : List (Cond α κ W) → Prop
  | [] => True
  | c :: cs => dueIn r i c ∧ dueAll r i cs
/-- One of them says so. -/
def dueAny (r i : Nat) : List (Cond α κ W) → Prop
  | [] => False
  | c :: cs => dueIn r i c ∨ dueAny r i cs
end

end GS.Spec
