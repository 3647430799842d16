import Verif.Structural
import Verif.Scheduler
/-!
# The whole scheduler: the graph stack together with the state of runs
-/

set_option linter.unusedSectionVars false

namespace GS
variable {α κ W : Type _} [DecidableEq α] [DecidableEq κ]

/-- scheduler.py:462-523: a `Scheduler`.  `stack` has its conditions and graphs
(`Verif/Structural.lean`), `rest` everything else; the fields `graph`, `queue`, `conds`
and `store` of `rest` are not used, see `Whole.sys`. -/
structure Whole (α κ W : Type _) where
  stack : Stack α κ W
  rest : Sys α κ W

namespace Whole

/-- scheduler.py:462-523 `Scheduler(graph, mode=..., default_execution_id=id, ...)`,
without conditions (512-513 is `addCondition` afterwards). -/
def new (g : Graph α) (mode : Mode) (id : Option κ) (unit : Rat) (w : World α κ W)
    (st : Store α κ) (ow : OId → Option α) : Whole α κ W :=
  { stack := Stack.new mode (baseGraph g) st ow, rest := Sys.new g mode id unit w }

/-- scheduler.py:720-747 `add_condition`. -/
def addCondition (w : Whole α κ W) (n : α) (c : AnyCond α κ W) : Whole α κ W × Option Err :=
  ({ w with stack := (w.stack.addCondition n c).1 }, (w.stack.addCondition n c).2)

/-- What `run` sees (scheduler.py:808, 827, 921-926): the properties `graph` and
`consideration_queue` (1143-1170) and the basic conditions.  Simplification: the
properties are read once, at the beginning of the run.  Reading them again gives the same
unless structural conditions are added or removed while the run is suspended (`C33_reads`),
which in the model of a run is part of the environment `E`. -/
def sys (w : Whole α κ W) : Except Err (Sys α κ W) :=
  match w.stack.readGraph.2, w.stack.readQueue.2 with
  | .ok g, .ok q => .ok { w.rest with
      graph := g, queue := q, conds := w.stack.cset.basic, store := w.stack.cset.store }
  | .error e, _ => .error e
  | .ok _, .error e => .error e

/-- The scheduler after a run (or a part of it) that ended in the state `s`: the basic
conditions made explicit by scheduler.py:836 and the changed condition objects are those
of the scheduler. -/
def after (w : Whole α κ W) (s : Sys α κ W) : Whole α κ W :=
  { stack := { w.stack.readQueue.1 with cset := { w.stack.readQueue.1.cset with
      basic := s.conds, store := s.store, rebuild := true } }
    rest := s }

end Whole
end GS
