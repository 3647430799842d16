import Verif.Whole
import Verif.Spec.Structural
import Verif.Spec.Restate
/-!
# Specification vocabulary: a scheduler as if created for another graph
-/

set_option linter.unusedSectionVars false

namespace GS.Spec
variable {α κ W : Type _} [DecidableEq α] [DecidableEq κ]

/-- `w` is a scheduler that was created for the graph `g0` and on which the operations `ops`
were done, none of which raised; each structural condition object is used for one owner only.
It has not been run. -/
structure SetUp (mode : Mode) (g0 : Graph α) (ops : List (SchedOp α κ W)) (id : Option κ)
    (unit : Rat) (x : World α κ W) (w : Whole α κ W) : Prop where
  quiet : ∃ st ow, Quiet (Stack.new mode (baseGraph g0) st ow) ops w.stack
  oneOwner : OneOwner (ops.flatMap SchedOp.adds)
  rest : w.rest = Sys.new g0 mode id unit x

/-- `g` is another graph on the nodes of `g0`: every node is listed once, and no other. -/
structure SameNodes (g0 g : Graph α) : Prop where
  once : Dict.WF g
  keys : ∀ n, n ∈ Dict.keys g ↔ IsNode g0 n
  senders : ∀ x r, Edge g x r → IsNode g0 x

/-- The nodes have the same basic conditions, whichever objects they are. -/
def SameBasics (w w' : Whole α κ W) : Prop :=
  ∀ n, (Dict.get? w'.stack.cset.basic n).map bare = (Dict.get? w.stack.cset.basic n).map bare

/-- No `NWhen` that is the condition of a node has been satisfied under the execution id. -/
def FreshNWhens (w : Whole α κ W) (id : Option κ) : Prop :=
  ∀ n o c k, Dict.get? w.stack.cset.basic n = some (.nwhen o c k) → w.stack.cset.store.sat o id = 0

end GS.Spec
