import Verif.Spec.Part
/-!
# Specification vocabulary: conditions that are easier to satisfy
-/

set_option linter.unusedSectionVars false

namespace GS.Spec
variable {α κ W : Type _} [DecidableEq α] [DecidableEq κ]

/-- Two situations at the same time, as far as passes and coarser units go, with the same nodes
and the same outside world; in the second one every node has been called at least as often
in each current unit of time coarser than a pass. -/
structure Ahead (id : Option κ) (v v' : View α κ W) : Prop where
  nodes : v'.nodes = v.nodes
  world : v'.world = v.world
  calls : ∃ f f', Dict.get? v.countsTotal id = some f ∧ Dict.get? v'.countsTotal id = some f' ∧
    ∀ ts n, TimeScale.pass.val < ts.val → f ts n ≤ f' ts n
  clock : ∃ log log', Shows (v.clock id) log ∧ Shows (v'.clock id) log' ∧
    log'.filter (fun t => decide (t ≠ .consideration_set_execution)) =
      log.filter (fun t => decide (t ≠ .consideration_set_execution))

/-- `c'` is easier to satisfy than `c`: when `c` is satisfied, `c'` is not unsatisfied, even if
there have been more calls. -/
def Eases (id : Option κ) (c c' : Cond α κ W) : Prop :=
  ∀ v v' st st', Ahead id v v' → (eval v id c st).1 = .ok true → (eval v' id c' st').1 ≠ .ok false

/-- The two nodes are never considered together. -/
def Separate (q : List (List α)) (d b : α) : Prop := d ≠ b ∧ ∀ l ∈ q, ¬ (d ∈ l ∧ b ∈ l)

/-- The condition of node `b` in `s'` is easier to satisfy than that in `s`: or the two are
`EveryNCalls(d, k)` and `EveryNCalls(d, k')` with `k' ≤ k`, where `d` and `b` are not considered
together. -/
def Loosened (id : Option κ) (s s' : Sys α κ W) (b : α) (c c' : Cond α κ W) : Prop :=
  Eases id c c' ∨ ∃ o d k o' k', c = .leaf o (.everyNCalls d k) ∧ c' = .leaf o' (.everyNCalls d k') ∧
    0 < k' ∧ k' ≤ k ∧ s.store.owner o = some b ∧ s'.store.owner o' = some b ∧ Separate s.queue d b

/-- Two schedulers about to run under `id` with the same nodes and the same queue, in which each
node is at one place.  Each condition is easier to satisfy in the second one. -/
structure Loosens (id : Option κ) (s s' : Sys α κ W) : Prop where
  queue : s'.queue = s.queue
  once : ∀ (i j : Nat) (l l' : List α) n, s.queue[i]? = some l → s.queue[j]? = some l' → n ∈ l → n ∈ l' → i = j
  ahead : Ahead id s.toView s'.toView
  conds : ∀ n ∈ s.queue.flatten, ∃ c c', Dict.get? s.conds n = some c ∧ Dict.get? s'.conds n = some c' ∧
    Loosened id s s' n c c'

/-- `k'` asks for less than `k`: the same condition on the outside world or on passes and
coarser units, perhaps with a wider bound; or a condition on the number of calls, in a unit coarser than a pass,
that asks for fewer calls.  (Nothing that asks for few calls, or for calls since something.) -/
inductive LooserLeaf : Leaf α κ W → Leaf α κ W → Prop
  | never (k') : LooserLeaf .never k'
  | always (k) : LooserLeaf k .always
  | func (f f') : (∀ v v' id o o', v'.world = v.world → f v id o = .ok true → f' v' id o' ≠ .ok false) →
      LooserLeaf (.func f) (.func f')
  | beforePass {n n' ts} : TimeScale.pass.val < ts.val → n ≤ n' →
      LooserLeaf (.beforePass n ts) (.beforePass n' ts)
  | atPass {n ts} : TimeScale.pass.val < ts.val → LooserLeaf (.atPass n ts) (.atPass n ts)
  | afterPass {n n' ts} : TimeScale.pass.val < ts.val → n' ≤ n →
      LooserLeaf (.afterPass n ts) (.afterPass n' ts)
  | afterNPasses {n n' ts} : TimeScale.pass.val < ts.val → n' ≤ n →
      LooserLeaf (.afterNPasses n ts) (.afterNPasses n' ts)
  | everyNPasses {n n' ts} : TimeScale.pass.val < ts.val → n' ∣ n →
      LooserLeaf (.everyNPasses n ts) (.everyNPasses n' ts)
  | beforeUpdate {n n' ts} : TimeScale.environment_state_update.val < ts.val → n ≤ n' →
      LooserLeaf (.beforeEnvironmentStateUpdate n ts) (.beforeEnvironmentStateUpdate n' ts)
  | atUpdate {n ts} : TimeScale.environment_state_update.val < ts.val →
      LooserLeaf (.atEnvironmentStateUpdate n ts) (.atEnvironmentStateUpdate n ts)
  | afterUpdate {n n' ts} : TimeScale.environment_state_update.val < ts.val → n' ≤ n →
      LooserLeaf (.afterEnvironmentStateUpdate n ts) (.afterEnvironmentStateUpdate n' ts)
  | afterNUpdates {n n' ts} : TimeScale.environment_state_update.val < ts.val → n' ≤ n →
      LooserLeaf (.afterNEnvironmentStateUpdates n ts) (.afterNEnvironmentStateUpdates n' ts)
  | atSequence {n} : LooserLeaf (.atEnvironmentSequence n) (.atEnvironmentSequence n)
  | afterSequence {n n'} : n' ≤ n →
      LooserLeaf (.afterEnvironmentSequence n) (.afterEnvironmentSequence n')
  | afterNSequences {n n'} : n' ≤ n →
      LooserLeaf (.afterNEnvironmentSequences n) (.afterNEnvironmentSequences n')
  | afterCall {d n n' ts} : TimeScale.pass.val < ts.val → n' ≤ n →
      LooserLeaf (.afterCall d n ts) (.afterCall d n' ts)
  | afterNCalls {d n n' ts} : TimeScale.pass.val < ts.val → n' ≤ n →
      LooserLeaf (.afterNCalls d n ts) (.afterNCalls d n' ts)
  | atNCalls {d n n' ts} : TimeScale.pass.val < ts.val → n' ≤ n →
      LooserLeaf (.atNCalls d n ts) (.afterNCalls d n' ts)
  | combined {ds n n' ts} : TimeScale.pass.val < ts.val → n' ≤ n →
      LooserLeaf (.afterNCallsCombined ds (some n) ts) (.afterNCallsCombined ds (some n') ts)
  | allHaveRun {ds ds' ts} : TimeScale.pass.val < ts.val → ds = ds' ∨ (ds ≠ [] ∧ ds' ≠ [] ∧ ∀ d ∈ ds', d ∈ ds) →
      LooserLeaf (.allHaveRun ds ts) (.allHaveRun ds' ts)
  | whenFinished {d} : LooserLeaf (.whenFinished d) (.whenFinished d)
  | whenFinishedAny {ds} : LooserLeaf (.whenFinishedAny ds) (.whenFinishedAny ds)
  | whenFinishedAll {ds} : LooserLeaf (.whenFinishedAll ds) (.whenFinishedAll ds)
  | threshold {d p thr cmp is atol rtol g} :
      LooserLeaf (.threshold d p thr cmp is atol rtol g) (.threshold d p thr cmp is atol rtol g)

/-- `c'` asks for less than `c`, for conditions made with `All` and `Any`: each part of `All` on the right asks
for less than one on the left; each part of `Any` on the left asks for more than one on the right. -/
inductive Looser : Cond α κ W → Cond α κ W → Prop
  | leaf (o o' k k') : LooserLeaf k k' → Looser (.leaf o k) (.leaf o' k')
  | never (o c') : Looser (.leaf o .never) c'
  | always (c o') : Looser c (.leaf o' .always)
  | all (o o' cs cs') (pick : Cond α κ W → Cond α κ W) : (∀ c' ∈ cs', pick c' ∈ cs) →
      (∀ c' ∈ cs', Looser (pick c') c') → Looser (.all o cs) (.all o' cs')
  | any (o o' cs cs') (pick : Cond α κ W → Cond α κ W) : (∀ c ∈ cs, pick c ∈ cs') →
      (∀ c ∈ cs, Looser c (pick c)) → Looser (.any o cs) (.any o' cs')
  | drop {o cs c c'} : c ∈ cs → Looser c c' → Looser (.all o cs) c'
  | or {c o' cs' c'} : c' ∈ cs' → Looser c c' → Looser c (.any o' cs')

/-- Two schedulers before a run under `id` with the same graph, nodes and queue; each node
has no condition in both and at most one sender, or a condition that is easier to satisfy in the second one. -/
structure LoosensGiven (id : Option κ) (s s' : Sys α κ W) : Prop where
  graph : s'.graph = s.graph
  queue : s'.queue = s.queue
  once : ∀ (i j : Nat) (l l' : List α) n, s.queue[i]? = some l → s.queue[j]? = some l' → n ∈ l → n ∈ l' → i = j
  ahead : Ahead id s.toView s'.toView
  conds : ∀ n ∈ s.queue.flatten,
    (n ∈ s.nodes ∧ Dict.get? s.conds n = none ∧ Dict.get? s'.conds n = none ∧
      (Dict.get? s.graph n = some [] ∨ ∃ d, Dict.get? s.graph n = some [d] ∧ Separate s.queue d n)) ∨
    ∃ c c', Dict.get? s.conds n = some c ∧ Dict.get? s'.conds n = some c' ∧ Loosened id s s' n c c' ∧
      (∀ o, Occurs o c → o < s.store.fresh) ∧ ∀ o, Occurs o c' → o < s'.store.fresh

/-- How often a node was executed in these passes. -/
def executions (n : α) (ps : List (List (List α))) : Nat := (ps.flatten.filter fun y => decide (n ∈ y)).length

end GS.Spec
