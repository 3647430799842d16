import Verif.Spec.Structural
import Verif.Spec.GSC
import Verif.Spec.Run
import Verif.Whole
/-!
# Specification: structural conditions and the order of execution
-/

set_option linter.unusedSectionVars false

namespace GS.Spec
variable {α κ W : Type _} [DecidableEq α] [DecidableEq κ]

/-- A structural condition of a built-in class (`BeforeNodes`, `WithNode`, `AfterNodes`,
`AddEdgeTo`, `RemoveEdgeFrom`), with its owner, which is not one of its subjects. -/
def BuiltIn (cyc : Graph α → List (List α)) (e : α × SCond α) : Prop :=
  ∃ d : GSC α, e.2 = d.toSCond cyc e.2.o ∧ e.1 ∉ d.nodes

/-- `w` is a scheduler in standard mode that was created for the graph `g0` and on which
the operations `ops` were done, none of which raised.  The structural conditions present
are of built-in classes and turn `g0` into `g`. -/
structure Prepared (cyc : Graph α → List (List α)) (g0 : Graph α) (ops : List (SchedOp α κ W))
    (g : Graph α) (w : Whole α κ W) : Prop where
  quiet : ∃ st ow, Quiet (Stack.new .standard (baseGraph g0) st ow) ops w.stack
  oneOwner : OneOwner (ops.flatMap SchedOp.adds)
  builtIn : ∀ e ∈ present ops, BuiltIn cyc e
  shows : composed (baseGraph g0) (present ops) = .ok g

/-- A part of a history in which no pass begins. -/
def InOnePass (h seg : History α κ W) : Prop :=
  ∃ h1 h2, h = h1 ++ seg ++ h2 ∧ ∀ e ∈ seg, e.ev ≠ .passStart

/-- `x` is in none of the sets from the first one with `y` on. -/
def Precedes (x y : α) (sets : List (List α)) : Prop :=
  ∀ l1 set l2, sets = l1 ++ set :: l2 → y ∈ set → x ∉ set ∧ ∀ set' ∈ l2, x ∉ set'

/-- `x` and `y` are in no two different sets. -/
def NotApart (x y : α) (sets : List (List α)) : Prop :=
  ∀ l1 set l2, sets = l1 ++ set :: l2 → x ∈ set → ∀ set' ∈ l1 ++ l2, y ∉ set'

end GS.Spec
