import Verif.Spec.Rename
import Verif.GSC
import Verif.Whole
import Verif.Spec.Structural
/-!
# Specification vocabulary: other names for the nodes, structural conditions
-/

set_option linter.unusedSectionVars false

namespace GS.Spec
variable {α β κ W : Type _}

/-- The same cycles, sets, … or the same error. -/
def renameOk {γ δ : Type _} (f : γ → δ) : Except Err γ → Except Err δ
  | .ok x => .ok (f x)
  | .error e => .error e

/-- The same repositioning condition. -/
def renameOpCond (r : Renaming α β) (c : OpCond α) : OpCond β where
  kind := c.kind
  nodes := c.nodes.map r.to
  ownerSenders := c.ownerSenders
  ownerReceivers := c.ownerReceivers
  subjectSenders := fun n => c.subjectSenders (r.back n)
  subjectReceivers := fun n => c.subjectReceivers (r.back n)
  reconnect := c.reconnect
  removeSelf := c.removeSelf
  prune := c.prune
  ignoreConflicts := c.ignoreConflicts

/-- The same built-in structural condition. -/
def renameGSC (r : Renaming α β) : GSC α → GSC β
  | .reposition c => .reposition (renameOpCond r c)
  | .addEdgeTo n => .addEdgeTo (r.to n)
  | .removeEdgeFrom n => .removeEdgeFrom (r.to n)

/-- The same enumeration of cycles. -/
def renameCyc (r : Renaming α β) (cyc : Graph α → List (List α)) : Graph β → List (List β) :=
  fun g => renameSets r (cyc (renameGraph r.symm g))

/-- A structural condition that does to the new names what `c` does to the old ones. -/
def renameSCond (r : Renaming α β) (c : SCond α) : SCond β where
  o := c.o
  nodes := c.nodes.map r.to
  apply := fun n g => renameOk (renameGraph r) (c.apply (r.back n) (renameGraph r.symm g))

/-- The same condition. -/
def renameAny (r : Renaming α β) : AnyCond α κ W → AnyCond β κ W
  | .basic c => .basic (renameCond r c)
  | .structural c => .structural (renameSCond r c)

/-- The same conditions of a node. -/
def renameShown (r : Renaming α β) : Shown α κ W → Shown β κ W
  | .one c => .one (renameAny r c)
  | .many cs => .many (cs.map (renameAny r))

/-- A dict whose keys are nodes. -/
def renameDict {γ δ : Type _} (r : Renaming α β) (f : γ → δ) (d : Dict α γ) : Dict β δ :=
  d.map fun p => (r.to p.1, f p.2)

/-- The same condition set. -/
def renameCSet (r : Renaming α β) (s : CSet α κ W) : CSet β κ W where
  basic := renameDict r (renameCond r) s.basic
  structural := renameDict r (List.map (renameSCond r)) s.structural
  order := s.order.map (renameSCond r)
  view := renameDict r (renameShown r) s.view
  rebuild := s.rebuild
  store := renameStore r s.store
  owners := fun o => (s.owners o).map r.to

/-- The same graphs and conditions of a scheduler. -/
def renameStack (r : Renaming α β) (s : Stack α κ W) : Stack β κ W where
  mode := s.mode
  cset := renameCSet r s.cset
  graphs := s.graphs.map (renameGraph r)
  queues := s.queues.map (renameSets r)
  indices := s.indices.map (renameDict r id)
  last := s.last

/-- The same scheduler. -/
def renameWhole (r : Renaming α β) (w : Whole α κ W) : Whole β κ W where
  stack := renameStack r w.stack
  rest := renameSys r w.rest

/-- The same call. -/
def renameOp (r : Renaming α β) : SchedOp α κ W → SchedOp β κ W
  | .add n c => .add (r.to n) (renameAny r c)
  | .addSet d => .addSet (renameDict r (List.map (renameAny r)) d)
  | .remove c => .remove (renameAny r c)
  | .removeOf n => .removeOf (r.to n)
  | .graph => .graph
  | .queue => .queue
  | .indices => .indices

/-- The exceptions that the calls, one after the other, raise. -/
def callsRaise [DecidableEq α] [DecidableEq κ] : Stack α κ W → List (SchedOp α κ W) → List (Option Err)
  | _, [] => []
  | s, op :: ops => (op.call s).2 :: callsRaise (op.call s).1 ops

end GS.Spec
