import Verif.Spec.Cut
import Verif.Spec.Time
import Verif.Spec.Quota
/-!
# Specification vocabulary: a part of a scheduler that nothing outside it influences
-/

set_option linter.unusedSectionVars false

namespace GS.Spec
variable {α κ W : Type _} [DecidableEq α] [DecidableEq κ]

/-- The nodes of the part in each set; sets without such nodes are left out. -/
def part (X : α → Bool) (ys : List (List α)) : List (List α) :=
  (ys.map fun y => y.filter X).filter fun y => !y.isEmpty

/-- The outside world as far as it concerns nodes of the part. -/
structure SameWorld (X : α → Bool) (w w' : World α κ W) : Prop where
  finished : ∀ n i, X n = true → w'.finished n i = w.finished n i
  attr : ∀ n p, X n = true → w'.attr n p = w.attr n p
  getter : ∀ g n p i, X n = true → w'.getter g n p i = w.getter g n p i

/-- A function of the user that looks only at what nodes of the part show to the outside (and at
its own owner and the execution id). -/
def PartFn (X : α → Bool) (f : View α κ W → Option κ → Option α → Except Err Bool) : Prop :=
  ∀ v v' i n, SameWorld X v.world v'.world → f v' i n = f v i n

/-- Conditions that look at nodes of the part, at passes and at coarser units of time only.
(`JustRan` looks at the last set, whatever its nodes; conditions on consideration set
executions count sets outside the part, too.) -/
def PartLeaf (X : α → Bool) : Leaf α κ W → Prop
  | .always | .never => True
  | .func f => PartFn X f
  | .beforePass _ ts | .atPass _ ts | .afterPass _ ts | .afterNPasses _ ts | .everyNPasses _ ts =>
    TimeScale.pass.val < ts.val
  | .beforeEnvironmentStateUpdate _ ts | .atEnvironmentStateUpdate _ ts
  | .afterEnvironmentStateUpdate _ ts | .afterNEnvironmentStateUpdates _ ts =>
    TimeScale.environment_state_update.val < ts.val
  | .atEnvironmentSequence _ | .afterEnvironmentSequence _ | .afterNEnvironmentSequences _ => True
  | .beforeNCalls d _ _ | .atNCalls d _ _ | .afterCall d _ _ | .afterNCalls d _ _ => X d = true
  | .everyNCalls d _ => X d = true
  | .afterNCallsCombined ds _ _ => ∀ d ∈ ds, X d = true
  | .allHaveRun ds _ => ds ≠ [] ∧ ∀ d ∈ ds, X d = true
  | .whenFinished d => X d = true
  | .whenFinishedAny ds => ds ≠ [] ∧ ∀ d ∈ ds, X d = true
  | .whenFinishedAll ds => ds ≠ [] ∧ ∀ d ∈ ds, X d = true
  | .threshold d .. => X d = true
  | _ => False

mutual
/-- The same condition, built twice, that looks at the part only: combinations by `All`,
`Any` and `Not` of the same conditions and `WhileNot`, which have the same owners in the
part. -/
def SamePart (X : α → Bool) (own own' : Nat → Option α) : Cond α κ W → Cond α κ W → Prop
  | .leaf o k, .leaf o' k' => k' = k ∧ PartLeaf X k ∧
    (k = .always ∨ own' o' = own o ∧ ∃ n, own o = some n ∧ X n = true)
  | .all _ cs, .all _ cs' => SameParts X own own' cs cs'
  | .any _ cs, .any _ cs' => SameParts X own own' cs cs'
  | .not _ c, .not _ c' => SamePart X own own' c c'
  | .whileNot o f, .whileNot o' f' => f' = f ∧ PartFn X f ∧ own' o' = own o
  | _, _ => False
/-- Component by component. -/
def SameParts (X : α → Bool) (own own' : Nat → Option α) :
    List (Cond α κ W) → List (Cond α κ W) → Prop
  | [], [] => True
  | c :: cs, c' :: cs' => SamePart X own own' c c' ∧ SameParts X own own' cs cs'
  | _, _ => False
end

/-- The consideration set at position `i`; nothing beyond the end. -/
def setAt (q : List (List α)) (i : Nat) : List α := q[i]?.getD []

/-- The same condition for node `n` in two schedulers: one that looks at the part only, or
`NWhen(d, k)` of such a condition `d`, where the two objects are used for `n` only and have been
satisfied equally often under execution id `id`. -/
def PartRule (X : α → Bool) (id : Option κ) (s s' : Sys α κ W) (n : α) (c c' : Cond α κ W) : Prop :=
  SamePart X s.store.owner s'.store.owner c c' ∨
  ∃ o d o' d' k, c = .nwhen o d k ∧ c' = .nwhen o' d' k ∧
    SamePart X s.store.owner s'.store.owner d d' ∧ OnlyFor n o d k s ∧ OnlyFor n o' d' k s' ∧
    s'.store.sat o' id = s.store.sat o id

/-- The termination conditions of the run do not use the `NWhen` objects of the part. -/
def EndsOutside (X : α → Bool) (a : RunArgs α κ W) (s : Sys α κ W) : Prop :=
  ∀ n o d k, X n = true → Dict.get? s.conds n = some (.nwhen o d k) →
    Without o a.esu ∧ Without o a.seq

/-- Two schedulers that agree on the part, as it stands for execution id `id`: its nodes are
at the same places of the queue (in the same order inside the sets), have the same
conditions, which look at the part only, and have been called equally often, and equally many
passes and coarser units of time have gone by. -/
structure PartAgrees (X : α → Bool) (id : Option κ) (s s' : Sys α κ W) : Prop where
  queue : ∀ i, (setAt s'.queue i).filter X = (setAt s.queue i).filter X
  nodes : ∀ n, X n = true → n ∈ s.nodes ∧ n ∈ s'.nodes
  conds : ∀ n, X n = true → ∃ c c', Dict.get? s.conds n = some c ∧ Dict.get? s'.conds n = some c' ∧
    PartRule X id s s' n c c'
  total : ∃ f f', Dict.get? s.countsTotal id = some f ∧ Dict.get? s'.countsTotal id = some f' ∧
    ∀ ts n, X n = true → f' ts n = f ts n
  useable : ∃ u u', Dict.get? s.countsUseable id = some u ∧ Dict.get? s'.countsUseable id = some u' ∧
    ∀ n m, X n = true → X m = true → u' n m = u n m
  clock : ∃ log log', Shows (s.clock id) log ∧ Shows (s'.clock id) log' ∧
    log'.filter (fun t => decide (t ≠ .consideration_set_execution)) =
      log.filter (fun t => decide (t ≠ .consideration_set_execution))

/-- Two schedulers that agree on the part before a run with execution id `id`: the part
contains the senders of its nodes, its nodes have the same senders (listed in the same order
in the two graphs) and either no condition in both, or the same condition, which looks at the
part only.  The queues are those of the graphs. -/
structure PartGiven (X : α → Bool) (id : Option κ) (s s' : Sys α κ W) : Prop where
  queue : toposort s.graph = .ok s.queue
  queue' : toposort s'.graph = .ok s'.queue
  listed : ∀ p ∈ s.graph, ∀ d ∈ p.2, d ∈ Dict.keys s.graph
  listed' : ∀ p ∈ s'.graph, ∀ d ∈ p.2, d ∈ Dict.keys s'.graph
  graph : s'.graph.filter (fun p => X p.1) = s.graph.filter fun p => X p.1
  closed : ∀ p ∈ s.graph, X p.1 = true → ∀ d ∈ p.2, X d = true
  nodes : ∀ n, X n = true → n ∈ s.nodes ∧ n ∈ s'.nodes
  conds : ∀ n, X n = true → (Dict.get? s.conds n = none ∧ Dict.get? s'.conds n = none) ∨
    ∃ c c', Dict.get? s.conds n = some c ∧ Dict.get? s'.conds n = some c' ∧
      PartRule X id s s' n c c' ∧
      (∀ o, Occurs o c → o < s.store.fresh) ∧ ∀ o, Occurs o c' → o < s'.store.fresh
  total : ∃ f f', Dict.get? s.countsTotal id = some f ∧ Dict.get? s'.countsTotal id = some f' ∧
    ∀ ts n, X n = true → f' ts n = f ts n
  clock : ∃ log log', Shows (s.clock id) log ∧ Shows (s'.clock id) log' ∧
    log'.filter (fun t => decide (t ≠ .consideration_set_execution)) =
      log.filter (fun t => decide (t ≠ .consideration_set_execution))

/-- What each pass that has come to its end yielded. -/
def completed (h : History α κ W) : PC α → List (List (List α))
  | .outer => passYields h
  | _ => (passYields h).dropLast

end GS.Spec
