import Verif.Spec.Structural
/-!
# What may happen while a rejected structural condition is present
-/

namespace GS.Spec
variable {α κ W : Type _} [DecidableEq α] [DecidableEq κ]

/-- Is it a call of `remove_condition`? -/
def SchedOp.Removes : SchedOp α κ W → Prop
  | .remove _ => True
  | .removeOf _ => True
  | _ => False

/-- Is it a call of `add_condition` or `add_condition_set`? -/
def SchedOp.Adding : SchedOp α κ W → Prop
  | .add _ _ => True
  | .addSet _ => True
  | _ => False

/-- Operations that leave the condition objects `objs` where they are: no condition is
added for an owner that is among its own subject nodes, none of `objs` is removed, and
nothing is removed by naming a node. -/
def SchedOp.Keeps (objs : List OId) : SchedOp α κ W → Prop
  | .add n c => ∀ e ∈ structEntries [(n, c)], e.1 ∉ e.2.nodes
  | .addSet d => ∀ e ∈ structEntries (listed d), e.1 ∉ e.2.nodes
  | .remove (.structural c) => c.o ∉ objs
  | .remove (.basic _) => True
  | .removeOf _ => False
  | _ => True

/-- The state after some calls, whether they raise or not. -/
def performed (s : Stack α κ W) (ops : List (SchedOp α κ W)) : Stack α κ W :=
  ops.foldl (fun s op => (op.call s).1) s

end GS.Spec
