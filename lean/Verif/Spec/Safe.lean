import Verif.Spec.Values
import Verif.Spec.Life
/-!
# Specification vocabulary: conditions that cannot fail (C90)
-/

set_option linter.unusedSectionVars false

namespace GS.Spec
variable {α κ W : Type _} [DecidableEq α] [DecidableEq κ]

/-- The circumstances of a run, as far as a condition may depend on them to be usable:
the nodes of the scheduler, the execution id, what the outside world may look like, and
whether this execution id has an execution history already. -/
structure Setting (α κ W : Type _) where
  nodes : List α
  id : Option κ
  worlds : World α κ W → Prop
  ranBefore : Prop

/-- The condition object belongs to a node of the scheduler. -/
def OwnedBy (S : Setting α κ W) (st : Store α κ) (o : Nat) : Prop :=
  o < st.fresh ∧ ∃ n ∈ S.nodes, st.owner o = some n

/-- `d.is_finished(id)` always answers. -/
def Answers (S : Setting α κ W) (d : α) : Prop :=
  ∀ w, S.worlds w → ∃ b, w.finished d S.id = .ok b

/-- The watched value always leads to a number. -/
def HasNumber (S : Setting α κ W) (d : α) (p : Nat) (getter : Option Nat) (is : List Idx) : Prop :=
  ∀ w, S.worlds w → ∃ x q, ParamIs w S.id d p getter x ∧ Leads x is (.num q)

/-- A basic condition whose parameters make sense in these circumstances. -/
def SaneLeaf (S : Setting α κ W) (st : Store α κ) (o : Nat) : Leaf α κ W → Prop
  -- the user's function never raises
  | .func f => ∀ v i own, ∃ b, f v i own = .ok b
  | .always | .never => True
  -- a repetition needs a non-zero period and a node whose place in the pass is used
  | .timeInterval rep _ _ _ _ => ∀ r, rep = some r → r.val ≠ 0 ∧ OwnedBy S st o
  | .timeTermination _ _ => True
  -- time steps cannot be counted per pass
  | .beforeConsiderationSetExecution _ ts | .atConsiderationSetExecution _ ts
  | .afterConsiderationSetExecution _ ts | .afterNConsiderationSetExecutions _ ts => ts ≠ .pass
  | .beforePass _ _ | .atPass _ _ | .afterPass _ _ | .afterNPasses _ _ => True
  | .everyNPasses n _ => n ≠ 0
  | .beforeEnvironmentStateUpdate _ _ | .atEnvironmentStateUpdate _ _
  | .afterEnvironmentStateUpdate _ _ | .afterNEnvironmentStateUpdates _ _ => True
  | .atEnvironmentSequence _ | .afterEnvironmentSequence _ | .afterNEnvironmentSequences _ => True
  -- calls are counted for nodes of the scheduler
  | .beforeNCalls d _ _ | .atNCalls d _ _ | .afterCall d _ _ | .afterNCalls d _ _ => d ∈ S.nodes
  | .afterNCallsCombined ds n _ => n ≠ none ∧ ∀ d ∈ ds, d ∈ S.nodes
  | .everyNCalls d _ => d ∈ S.nodes ∧ OwnedBy S st o
  | .justRan _ => S.ranBefore
  | .allHaveRun ds _ => ∀ d ∈ ds, d ∈ S.nodes
  | .whenFinished d => Answers S d
  | .whenFinishedAny ds | .whenFinishedAll ds => ∀ d ∈ Meant S.nodes ds, Answers S d
  | .threshold d p _ _ is _ _ g => HasNumber S d p g (is.getD [])

mutual
/-- A condition all of whose parts make sense in these circumstances. -/
def Sane (S : Setting α κ W) (st : Store α κ) : Cond α κ W → Prop
  | .leaf o k => SaneLeaf S st o k
  | .whileNot _ f => ∀ v i own, ∃ b, f v i own = .ok b
  | .all _ args => SaneAll S st args
  | .any _ args => SaneAll S st args
  | .not _ c => Sane S st c
  | .nwhen _ c _ => Sane S st c
/-- The same for all components. -/
def SaneAll (S : Setting α κ W) (st : Store α κ) : List (Cond α κ W) → Prop
  | [] => True
  | c :: cs => Sane S st c ∧ SaneAll S st cs
end

/-- The circumstances of a run under `id` that begins in the state `s`, when the outside
world may look like `P`. -/
def settingOf (s : Sys α κ W) (id : Option κ) (P : World α κ W → Prop) : Setting α κ W where
  nodes := s.nodes
  id := id
  worlds := P
  ranBefore := ∃ l, Dict.get? s.execList id = some l ∧ l ≠ []

/-- A scheduler in good order: its queue is made of its nodes, the graph mentions no others
and is acyclic, and counters and clocks were not tampered with. -/
structure Healthy (s : Sys α κ W) : Prop where
  placed : ∀ n, n ∈ s.queue.flatten ↔ n ∈ s.nodes
  known : ∀ n ∈ s.nodes, ∃ senders, Dict.get? s.graph n = some senders
  senders : ∀ n senders, Dict.get? s.graph n = some senders → ∀ d ∈ senders, d ∈ s.nodes
  acyclic : ∃ layers, toposort s.graph = .ok layers
  synced : Synced s
  clock : ∀ i, ∃ log, Shows (s.clock i) log

/-- All conditions given to the nodes make sense. -/
def SaneConds (S : Setting α κ W) (s : Sys α κ W) : Prop :=
  ∀ n c, Dict.get? s.conds n = some c → Sane S s.store c

/-- While the generator is suspended nothing changes but the outside world. -/
def WorldOnly (P : World α κ W → Prop) (s s' : Sys α κ W) : Prop :=
  ∃ w, P w ∧ s' = { s with world := w }

/-- Why a run raised `e` in the state `s`: evaluating a termination condition of the run, or
the condition of a node that is considered, raises `e` there. -/
def Cause (a : RunArgs α κ W) (s : Sys α κ W) (e : Err) : Prop :=
  ∃ c st, (c = a.esu ∨ c = a.seq ∨ ∃ n ∈ s.queue.flatten, Dict.get? s.conds n = some c) ∧
    eval s.toView a.id c st = (.error e, s.store)

end GS.Spec
