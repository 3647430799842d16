import Verif.Spec.Again
import Verif.Spec.Life
/-!
# Specification vocabulary: an execution context that is a fork of another
-/

set_option linter.unusedSectionVars false

namespace GS.Spec
variable {α κ W : Type _} [DecidableEq α] [DecidableEq κ]

/-- Two views of a scheduler such that everything that is stored in the second one under `j` is
stored in the first one under `i`, apart from the clocks and the times of execution. -/
structure Forked (i j : Option κ) (v v' : View α κ W) : Prop where
  nodes : v'.nodes = v.nodes
  mode : v'.mode = v.mode
  graph : v'.graph = v.graph
  queue : v'.queue = v.queue
  world : v'.world = v.world
  total : Dict.get? v'.countsTotal j = Dict.get? v.countsTotal i
  useable : Dict.get? v'.countsUseable j = Dict.get? v.countsUseable i
  list : Dict.get? v'.execList j = Dict.get? v.execList i

/-- A user function for which the fork `j` is like `i`: it looks neither at the clock nor at the
times of execution, nor at the id itself, nor at what is stored under other ids. -/
def ForkFn (i j : Option κ) (f : View α κ W → Option κ → Option α → Except Err Bool) : Prop :=
  ∀ v v' o, Forked i j v v' → f v' j o = f v i o

/-- Conditions that do not ask for the time before the current environment state update.  They
may ask for calls at any scale and for the sets executed before (`JustRan`). -/
def ForkLeaf (i j : Option κ) : Leaf α κ W → Prop
  | .func f => ForkFn i j f
  | .timeInterval .. | .timeTermination .. => False
  | .beforeConsiderationSetExecution _ ts | .atConsiderationSetExecution _ ts
  | .afterConsiderationSetExecution _ ts | .afterNConsiderationSetExecutions _ ts
  | .beforePass _ ts | .atPass _ ts | .afterPass _ ts | .afterNPasses _ ts | .everyNPasses _ ts =>
    ts = .environment_state_update
  | .beforeEnvironmentStateUpdate .. | .atEnvironmentStateUpdate ..
  | .afterEnvironmentStateUpdate .. | .afterNEnvironmentStateUpdates .. => False
  | .atEnvironmentSequence .. | .afterEnvironmentSequence .. | .afterNEnvironmentSequences .. => False
  | _ => True

mutual
/-- The same for all components; `P` says for which objects `NWhen` is allowed. -/
def ForkCond (P : Nat → Prop) (i j : Option κ) : Cond α κ W → Prop
  | .leaf _ k => ForkLeaf i j k
  | .whileNot _ f => ForkFn i j f
  | .all _ args => ForkConds P i j args
  | .any _ args => ForkConds P i j args
  | .not _ c => ForkCond P i j c
  | .nwhen o c _ => P o ∧ ForkCond P i j c
/-- The same for all components. -/
def ForkConds (P : Nat → Prop) (i j : Option κ) : List (Cond α κ W) → Prop
  | [] => True
  | c :: cs => ForkCond P i j c ∧ ForkConds P i j cs
end

/-- The call of `run` for a fork `j` of the execution context of `a`. -/
def forkArgs (j : Option κ) (a : RunArgs α κ W) : RunArgs α κ W :=
  { a with id := j, base := some a.id }

/-- Nothing is stored under the id. -/
structure Unseen (j : Option κ) (s : Sys α κ W) : Prop where
  total : Dict.get? s.countsTotal j = none
  useable : Dict.get? s.countsUseable j = none
  list : Dict.get? s.execList j = none
  clocks : Dict.get? s.clocks j = none

/-- When a fork does what its base would do: the base has been used and the fork has not; the
clock of the base stands at the beginning of an environment state update; no condition asks for
the time before; the objects `P`, for which `NWhen` is allowed, were satisfied under both ids
equally often; and the outside world answers the same under both. -/
structure ForkReady (P : Nat → Prop) (w : List (List α) → World α κ W) (a : RunArgs α κ W)
    (j : Option κ) (s : Sys α κ W) : Prop where
  known : Known a.id s
  unseen : Unseen j s
  synced : Synced s
  clock : ∃ log, Shows (s.clock a.id) log ∧ sinceUpdate log = []
  conds : ∀ n c, Dict.get? s.conds n = some c → ForkCond P a.id j c
  esu : ForkCond P a.id j a.esu
  seq : ForkCond P a.id j a.seq
  sat : ∀ o, P o → o < s.store.fresh ∧ s.store.sat o j = s.store.sat o a.id
  world : WorldFor a.id j s.world s.world
  script : ∀ ys, WorldFor a.id j (w ys) (w ys)

/-- A scheduler on which a fork `j` can be made after a complete run under `i`: `j` has not been
used, the clock of `i` stands at the beginning of an environment state update, and no condition
asks for the time before, or contains `NWhen`. -/
structure Forkable (i j : Option κ) (s : Sys α κ W) : Prop where
  ne : i ≠ j
  unseen : Unseen j s
  synced : Synced s
  clock : ∃ log, Shows (s.clock i) log ∧ sinceUpdate log = []
  conds : ∀ n c, Dict.get? s.conds n = some c → ForkCond (fun _ => False) i j c

end GS.Spec
