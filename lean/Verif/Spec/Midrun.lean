import Verif.Spec.Structural
import Verif.Spec.Run
/-!
# Vocabulary for changes made while a run is suspended
-/

set_option linter.unusedSectionVars false

namespace GS.Spec
variable {α κ W : Type _} [DecidableEq α] [DecidableEq κ]

/-- `st` has the conditions and the graph of the scheduler whose run is in the state `s`:
what `run` reads from the properties `graph`, `consideration_queue` and `conditions` is
what `s` has. -/
structure Behind (st : Stack α κ W) (s : Sys α κ W) : Prop where
  graph : st.readGraph.2 = .ok s.graph
  queue : st.readQueue.2 = .ok s.queue
  conds : st.cset.basic = s.conds
  store : st.cset.store = s.store

/-- While the run is suspended, the user makes the call `op` on the scheduler; the call does
not raise, and the run continues with what the scheduler says afterwards. -/
def Edited (op : SchedOp α κ W) (s s' : Sys α κ W) : Prop :=
  ∃ st st', Behind st s ∧ op.call st = (st', none) ∧ Behind st' s' ∧
    s' = { s with
      graph := s'.graph, queue := s'.queue, conds := s'.conds, store := s'.store }

/-- The sets chosen, in order, with their positions in the consideration queue. -/
def choices (h : History α κ W) : List (Nat × List α) :=
  h.filterMap fun e => match e.ev with | .layer i set _ => some (i, set) | _ => none

end GS.Spec
