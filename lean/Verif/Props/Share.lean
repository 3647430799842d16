import Verif.Share
import Verif.Props.Demo
/-!
# C55: condition objects added to several nodes
-/

set_option linter.unusedSectionVars false

namespace GS.Props
open Spec
variable {α κ W : Type _} [DecidableEq α] [DecidableEq κ]

/-- C55: `n` gets the condition `c`, none of whose objects is part of the condition `d` of
another node `m`.  Then `m` still has the condition `d`; and whenever it is evaluated
afterwards, in any situations, with any evaluations of `c` and of other conditions apart
from `d` in between, it gives what it would have given in the same situations if `c` had
not been added and those conditions had not been evaluated.  What is missing: shared
objects (`C55_shared_plain`, `C55_shared`). -/
theorem C55_unshared_partial (s : Sys α κ W) {n m : α} (hm : m ≠ n) (c d : Cond α κ W)
    (hd : Dict.get? s.conds m = some d) (ha : Apart c d) :
    Dict.get? (s.addBasic n c).conds m = some d ∧
    ∀ ps : List (Probe α κ W), (∀ v id x, Probe.other v id x ∈ ps → Apart x d) →
      answers d ps (s.addBasic n c).store = answers d (ownOnly ps) s.store := by
  refine ⟨?_, fun ps hps => answers_own d ps _ _ hps (setOwner_outside (some n) _ c s.store ha)⟩
  show Dict.get? (Dict.set s.conds n c) m = some d
  rw [Dict.get?_set, if_neg (Ne.symm hm)]
  exact hd

/-- C55 for shared objects: the same holds without any assumption on `c` and on the other
conditions if the condition of the other node looks neither at its owner nor at its own
history. -/
theorem C55_shared_plain (s : Sys α κ W) {n m : α} (hm : m ≠ n) (c d : Cond α κ W)
    (hd : Dict.get? s.conds m = some d) (hp : Plain d) :
    Dict.get? (s.addBasic n c).conds m = some d ∧
    ∀ ps : List (Probe α κ W),
      answers d ps (s.addBasic n c).store = answers d (ownOnly ps) s.store := by
  refine ⟨?_, fun ps => answers_plain d hp ps _ _⟩
  show Dict.get? (Dict.set s.conds n c) m = some d
  rw [Dict.get?_set, if_neg (Ne.symm hm)]
  exact hd

/-- Two conditions for `demo`, one of them with several objects. -/
example : Apart (.all 5 [.leaf 6 .always, .not 7 (.leaf 8 .never)] : Cond Nat Nat Unit)
      (.leaf 0 (.everyNCalls 0 2)) ∧
    Dict.get? demo.conds 2 = some (.leaf 0 (.everyNCalls 0 2)) ∧
    Plain (.all 5 [.leaf 6 (.afterNCalls 0 1 .life), .not 7 (.leaf 8 .never)] : Cond Nat Nat Unit) := by
  refine ⟨?_, rfl, trivial, trivial, trivial⟩
  intro o ho h
  have h : o = 0 := h
  subst h
  simp [Occurs, OccursAny] at ho

/-- The object `EveryNCalls(0, 1)` of C55's counterexample. -/
def everyCall : Cond Nat Nat Unit := .leaf 0 (.everyNCalls 0 1)

/-- Graph 0 → 1, 0 → 2 (in the set with 1 and 2, 2 comes first). -/
def twoReceivers : Sys Nat Nat Unit :=
  (Sys.new [(2, [0]), (1, [0])] .standard none 1 demoWorld).alloc 2

/-- Run for two passes. -/
def twoPasses : RunArgs Nat Nat Unit :=
  { id := none, esu := .leaf 10 (.afterNPasses 2 .environment_state_update)
    seq := .leaf 11 .never }

/-- C55 as stated is false.  Nodes 1 and 2 have the same condition, `EveryNCalls(0, 1)`.
With two objects, both execute in every pass.  If node 2 gets the object that node 1
already has, node 1 does not execute any more. -/
theorem C55_shared :
    yields (runAfter ((twoReceivers.addBasic 1 everyCall).addBasic 2 (.leaf 1 (.everyNCalls 0 1)))
      twoPasses 60).1 = [[0], [2, 1], [0], [2, 1]] ∧
    yields (runAfter ((twoReceivers.addBasic 1 everyCall).addBasic 2 everyCall)
      twoPasses 60).1 = [[0], [2], [0], [2]] := by
  decide +kernel

/-- `NWhen(Always(), 1)` shared between two nodes: the satisfactions of both count. -/
theorem C55_shared_nwhen :
    yields (runAfter ((twoReceivers.addBasic 1 (.nwhen 0 (.leaf 1 .always) 1)).addBasic 0
      (.leaf 2 .always)) twoPasses 60).1 = [[0], [2, 1], [0], [2]] ∧
    yields (runAfter ((twoReceivers.addBasic 1 (.nwhen 0 (.leaf 1 .always) 1)).addBasic 0
      (.nwhen 0 (.leaf 1 .always) 1)) twoPasses 60).1 = [[0], [2], []] := by
  decide +kernel

end GS.Props
