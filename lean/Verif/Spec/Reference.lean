import Verif.Spec.Order
import Verif.Spec.Time
/-!
# Specification: a reference scheduler

A scheduler that remembers nothing but the sets it has yielded: conditions are functions of
the past.  It has no counters and no clock.
-/

set_option linter.unusedSectionVars false

namespace GS.Spec
variable {α κ W : Type _} [DecidableEq α] [DecidableEq κ]

/-- What has happened under an execution id. -/
structure Past (α : Type _) where
  /-- the earlier runs: of each run its passes, of each pass the sets it yielded -/
  runs : List (List (List (List α)))
  /-- the earlier passes of this run -/
  before : List (List (List α))
  /-- the sets yielded in this pass -/
  now : List (List α)
  /-- the nodes chosen so far for the next set -/
  next : List α

namespace Past
variable (p : Past α)

/-- The sets yielded in this run. -/
def inRun : List (List α) := p.before.flatten ++ p.now

/-- All sets that were yielded. -/
def all : List (List α) := p.runs.flatten.flatten ++ p.inRun

/-- How often the node executed in the current unit of time, the next set included. -/
def calls (ts : TimeScale) (n : α) : Nat :=
  match ts with
  | .consideration_set_execution | .pass => (p.now.flatten ++ p.next).count n
  | .environment_state_update => (p.inRun.flatten ++ p.next).count n
  | .environment_sequence | .life => (p.all.flatten ++ p.next).count n

/-- How often `d` executed in this run since `n` last did; the last execution of `n` itself
is counted. -/
def callsSince (n d : α) : Nat := (since n (p.inRun.flatten ++ p.next)).count d +
  if d = n ∧ n ∈ p.inRun.flatten ++ p.next then 1 else 0

/-- The number of completed passes in the current unit of time. -/
def passes (ts : TimeScale) : Nat :=
  match ts with
  | .environment_sequence | .life => p.runs.flatten.length + p.before.length
  | _ => p.before.length

/-- The number of sets in the current unit of time. -/
def sets (ts : TimeScale) : Nat :=
  match ts with
  | .environment_sequence | .life => p.all.length
  | _ => p.inRun.length

/-- The node is in the last set. -/
def justRan (d : α) : Bool :=
  match p.all.getLast? with
  | some x => decide (d ∈ x)
  | none => false

end Past

/-- What conditions see besides the past. -/
structure Around (α κ W : Type _) where
  /-- the nodes of the scheduler -/
  nodes : List α
  /-- the position of the consideration set of a node -/
  place : α → Nat
  /-- whether a `TimeInterval` counts from its start time on -/
  exact : Bool
  /-- which nodes are finished when the run has yielded the given sets -/
  finished : List (List α) → α → Bool
  /-- the number that a `Threshold` for the node, with the given parameter, indices and
  getter, finds when the run has yielded the given sets -/
  number : List (List α) → α → Nat → Option (List Idx) → Option Nat → Rat
  /-- what a function of the user says when the run has yielded the given sets -/
  asks : List (List α) → (View α κ W → Option κ → Option α → Except Err Bool) → Bool
  /-- the absolute time when the run has yielded the given sets -/
  time : List (List α) → Rat
  /-- the time between two sets -/
  tick : Rat

/-- `x` is a whole number. -/
def whole (x : Rat) : Bool := decide ((x.floor : Rat) = x)

/-- `TimeInterval` at the time `t`: a whole number of repeat intervals after `offset`, in
the interval from `start` to `fin`. -/
def inInterval (t offset : Rat) (rep start fin : Option Qty) (startIncl endIncl : Bool) : Bool :=
  (match rep with
    | none => true
    | some r => whole ((t - offset) / r.val)) &&
  (match start with
    | none => true
    | some b => if startIncl then decide (b.val ≤ t) else decide (b.val < t)) &&
  (match fin with
    | none => true
    | some e => if endIncl then decide (t ≤ e.val) else decide (t < e.val))

/-- `Threshold` for the number `x`. -/
def compares (x thr atol rtol : Rat) : Comparator → Bool
  | .lt => decide (x < thr)
  | .le => decide (x ≤ thr)
  | .gt => decide (thr < x)
  | .ge => decide (thr ≤ x)
  | .eq => decide ((x - thr).abs ≤ atol + rtol * thr.abs)
  | .ne => decide (¬ (x - thr).abs ≤ atol + rtol * thr.abs)

/-- When conditions hold. `own` is the node the condition belongs to. -/
def holdsLeaf (e : Around α κ W) (own : Option α) (p : Past α) : Leaf α κ W → Bool
  | .func f => e.asks p.inRun f
  | .always => true
  | .never => false
  | .beforeConsiderationSetExecution n ts => decide ((p.sets ts : Int) < n)
  | .atConsiderationSetExecution n ts => decide ((p.sets ts : Int) = n)
  | .afterConsiderationSetExecution n ts => decide ((p.sets ts : Int) > n)
  | .afterNConsiderationSetExecutions n ts => decide ((p.sets ts : Int) ≥ n)
  | .beforePass n ts => decide ((p.passes ts : Int) < n)
  | .atPass n ts => decide ((p.passes ts : Int) = n)
  | .afterPass n ts => decide ((p.passes ts : Int) > n)
  | .afterNPasses n ts => decide ((p.passes ts : Int) ≥ n)
  | .everyNPasses n ts => decide (n ∣ (p.passes ts : Int))
  | .beforeEnvironmentStateUpdate n _ => decide ((p.runs.length : Int) < n)
  | .atEnvironmentStateUpdate n _ => decide ((p.runs.length : Int) = n)
  | .afterEnvironmentStateUpdate n _ => decide ((p.runs.length : Int) > n)
  | .afterNEnvironmentStateUpdates n _ => decide ((p.runs.length : Int) ≥ n)
  | .atEnvironmentSequence n => decide (0 = n)
  | .afterEnvironmentSequence n => decide (0 > n)
  | .afterNEnvironmentSequences n => decide (0 ≥ n)
  | .beforeNCalls d n ts => decide ((p.calls ts d : Int) < n)
  | .atNCalls d n ts => decide ((p.calls ts d : Int) = n)
  | .afterCall d n ts => decide ((p.calls ts d : Int) > n)
  | .afterNCalls d n ts => decide ((p.calls ts d : Int) ≥ n)
  | .afterNCallsCombined ds (some n) ts => decide (((ds.map (p.calls ts)).sum : Int) ≥ n)
  | .everyNCalls d n => match own with
    | some m => decide ((p.callsSince m d : Int) ≥ n)
    | none => false
  | .justRan d => p.justRan d
  | .allHaveRun ds ts => decide (∀ d ∈ (if ds = [] then e.nodes else ds), 1 ≤ p.calls ts d)
  | .whenFinished d => e.finished p.inRun d
  | .whenFinishedAny ds => (if ds = [] then e.nodes else ds).any (e.finished p.inRun)
  | .whenFinishedAll ds => (if ds = [] then e.nodes else ds).all (e.finished p.inRun)
  | .threshold d x thr cmp is atol rtol g => compares (e.number p.inRun d x is g) thr atol rtol cmp
  | .timeTermination t incl =>
    if incl then decide (t.val ≤ e.time p.inRun) else decide (t.val < e.time p.inRun)
  | .timeInterval r b f si ei =>
    inInterval (e.time p.inRun) (match own, b with
      | some n, some x => if e.exact then x.val else e.place n * e.tick
      | some n, none => e.place n * e.tick
      | none, _ => 0) r b f si ei
  | _ => false

mutual
/-- Composed conditions: the logical connectives. -/
def holds (e : Around α κ W) (own : Option α) (p : Past α) :
    Cond α κ W → Bool
  | .leaf _ k => holdsLeaf e own p k
  | .whileNot _ f => !e.asks p.inRun f
  | .all _ cs => holdsAll e own p cs
  | .any _ cs => holdsAny e own p cs
  | .not _ c => !holds e own p c
  | _ => false
/-- All of the conditions hold. -/
def holdsAll (e : Around α κ W) (own : Option α) (p : Past α) :
    List (Cond α κ W) → Bool
  | [] => true
  | c :: cs => holds e own p c && holdsAll e own p cs
/-- One of the conditions holds. -/
def holdsAny (e : Around α κ W) (own : Option α) (p : Past α) :
    List (Cond α κ W) → Bool
  | [] => false
  | c :: cs => holds e own p c || holdsAny e own p cs
end

/-! ## The reference scheduler -/

section
variable (abs : Bool) (rule : α → Past α → Bool) (stop : Past α → Bool)

/-- Go through the nodes; add those whose rule holds now. -/
def goThrough : List α → Past α → Past α
  | [], p => p
  | n :: ns, p => goThrough ns
      (if n ∈ p.next then p else if rule n p then { p with next := p.next ++ [n] } else p)

/-- Go through the set again and again. -/
def goRound (layer : List α) : Nat → Past α → Past α
  | 0, p => p
  | k + 1, p => goRound layer k (goThrough rule layer p)

/-- The nodes chosen from a consideration set: go through it until nothing is added (which is
so after as many rounds as it has nodes). -/
def choice (layer : List α) (p : Past α) : List α :=
  (goRound rule layer (layer.length + 1) p).next

/-- The rest of a pass: before each consideration set, see whether the run is to stop. Empty
sets are not yielded, except in absolute time. -/
def passFrom : List (List α) → Past α → Past α
  | [], p => p
  | layer :: q, p =>
    if stop p then p
    else if choice rule layer p = [] ∧ abs = false then passFrom q p
    else passFrom q { p with now := p.now ++ [choice rule layer p] }

/-- The pass is over; if it has yielded nothing, an empty set is yielded (not in absolute
time). -/
def closePass (p : Past α) : Past α :=
  { p with before := p.before ++ [if p.now = [] ∧ abs = false then [[]] else p.now], now := [] }

/-- At most `N` passes, until the run stops. -/
def reference (q : List (List α)) : Nat → Past α → Past α
  | 0, p => p
  | N + 1, p => if stop p then p else reference q N (closePass abs (passFrom abs rule stop q p))

end

/-! ## Which schedulers it describes -/

/-- A function that looks at nothing but the outside world (and the execution id). -/
def OfWorld (f : View α κ W → Option κ → Option α → Except Err Bool) : Prop :=
  ∀ v v' id o o', v'.world = v.world → f v' id o' = f v id o

/-- The conditions described above: those on the units of time (as far as the code
implements them, see C22), on calls, `JustRan`, `AllHaveRun`, `WhenFinished...`, `Threshold`,
those on absolute time, and functions of the user that look at the outside world.
A condition that counts calls in the current pass or is `EveryNCalls` must belong to
the node `own`, and so must a repeated `TimeInterval`. -/
def DescribedLeaf (own : Option α) : Leaf α κ W → Prop
  | .always | .never => True
  | .beforeConsiderationSetExecution _ ts | .atConsiderationSetExecution _ ts
  | .afterConsiderationSetExecution _ ts | .afterNConsiderationSetExecutions _ ts
  | .beforePass _ ts | .atPass _ ts | .afterPass _ ts | .afterNPasses _ ts | .everyNPasses _ ts =>
    TimeScale.pass.val < ts.val
  | .beforeEnvironmentStateUpdate _ ts | .atEnvironmentStateUpdate _ ts
  | .afterEnvironmentStateUpdate _ ts | .afterNEnvironmentStateUpdates _ ts =>
    TimeScale.environment_state_update.val < ts.val
  | .beforeNCalls _ _ ts | .atNCalls _ _ ts | .afterCall _ _ ts | .afterNCalls _ _ ts
  | .afterNCallsCombined _ _ ts | .allHaveRun _ ts =>
    TimeScale.pass.val < ts.val ∨ (ts = .pass ∧ own.isSome = true)
  | .everyNCalls _ _ => own.isSome = true
  | .timeInterval r _ _ _ _ => r = none ∨ own.isSome = true
  | .func f => OfWorld f
  | .timeTermination _ _ | .threshold _ _ _ _ _ _ _ _
  | .atEnvironmentSequence _ | .afterEnvironmentSequence _ | .afterNEnvironmentSequences _
  | .justRan _ | .whenFinished _ | .whenFinishedAny _ | .whenFinishedAll _ => True

/-- The condition uses its attribute `owner`. -/
def UsesOwner : Leaf α κ W → Prop
  | .everyNCalls _ _ | .timeInterval (some _) _ _ _ _ => True
  | _ => False

/-- Such conditions and `WhileNot`, joined by `All`, `Any` and `Not`. -/
inductive Described (st : Store α κ) (own : Option α) : Cond α κ W → Prop
  | leaf {o : OId} {k : Leaf α κ W} (hk : DescribedLeaf own k)
      (ho : UsesOwner k → o < st.fresh ∧ st.owner o = own) :
      Described st own (.leaf o k)
  | whileNot {o : OId} {f : View α κ W → Option κ → Option α → Except Err Bool} (hf : OfWorld f) :
      Described st own (.whileNot o f)
  | all {o : OId} {cs : List (Cond α κ W)} (h : ∀ c ∈ cs, Described st own c) :
      Described st own (.all o cs)
  | any {o : OId} {cs : List (Cond α κ W)} (h : ∀ c ∈ cs, Described st own c) :
      Described st own (.any o cs)
  | not {o : OId} {c : Cond α κ W} (h : Described st own c) : Described st own (.not o c)

mutual
/-- The `NWhen` objects that occur in a condition. -/
def nwhens : Cond α κ W → List OId
  | .leaf _ _ | .whileNot _ _ => []
  | .all _ cs | .any _ cs => nwhensOf cs
  | .not _ c => nwhens c
  | .nwhen o c _ => o :: nwhens c
/-- The `NWhen` objects that occur in the conditions. -/
def nwhensOf : List (Cond α κ W) → List OId
  | [] => []
  | c :: cs => nwhens c ++ nwhensOf cs
end

/-- The conditions of the nodes that are considered are described, or are `NWhen` of a
described condition, which is no other node's condition; those without condition
wait for their senders, which are other nodes. -/
def DescribedNodes (s : Sys α κ W) : Prop :=
  ∀ n ∈ s.queue.flatten, n ∈ s.nodes ∧
    ((∃ c, Dict.get? s.conds n = some c ∧ Described s.store (some n) c) ∨
      (∃ o c k, Dict.get? s.conds n = some (.nwhen o c k) ∧ Described s.store (some n) c ∧
        o < s.store.fresh ∧ ∀ m c' k', Dict.get? s.conds m = some (.nwhen o c' k') → m = n) ∨
      (Dict.get? s.conds n = none ∧
        ∃ ds, Dict.get? s.graph n = some ds ∧ ∀ d ∈ ds, d ∈ s.nodes ∧ d ≠ n))

/-- The termination conditions of the run are described. -/
def DescribedEnd (a : RunArgs α κ W) : Prop :=
  ∀ st, Described st none a.esu ∧ Described st none a.seq

/-- When a node is due. `NWhen(c, k)`: when `c` holds and the node has not yet executed `k`
times. -/
def rule (s : Sys α κ W) (e : Around α κ W) (n : α) (p : Past α) : Bool :=
  match Dict.get? s.conds n with
  | some (.nwhen _ c k) => decide ((p.calls .life n : Int) < k) && holds e (some n) p c
  | some c => holds e (some n) p c
  | none => match Dict.get? s.graph n with
    | some ds => decide (∀ d ∈ ds, 1 ≤ p.callsSince n d)
    | none => false

/-- When a run is to stop. -/
def stop (a : RunArgs α κ W) (e : Around α κ W) (p : Past α) : Bool :=
  holds e none p a.esu || holds e none p a.seq

/-- `e` describes the scheduler and a consumer that behaves as `w` says: when it has been
given the sets `ys`, the outside world is `w ys`. In a run in absolute time, time passes
from the time at which the run starts by one tick for each set; else it stands still. -/
structure Tells (s : Sys α κ W) (w : List (List α) → World α κ W) (a : RunArgs α κ W)
    (e : Around α κ W) : Prop where
  nodes : e.nodes = s.nodes
  place : ∀ i n, At s.queue i n → e.place n = i
  exact : e.exact = true ↔ s.mode = .exactTime ∨ s.queue.length = 1
  finished : ∀ ys n b, (if ys = [] then s.world else w ys).finished n a.id = .ok b →
    e.finished ys n = b
  number : ∀ ys n x is g r, thresholdValue (if ys = [] then s.world else w ys) a.id n x is g = .ok r →
    e.number ys n x is g = r
  asks : ∀ ys f v o b, OfWorld f → v.world = (if ys = [] then s.world else w ys) →
    f v a.id o = .ok b → e.asks ys f = b
  time : ∀ t abs, s.start a = (t, .ok abs) →
    e.tick = (t.clock a.id).time.absolute_interval ∧
    ∀ ys, e.time ys = (t.clock a.id).time.absolute + if abs then ys.length * e.tick else 0

/-- Nothing has happened yet under the execution id. -/
structure Unused (s : Sys α κ W) (id : Option κ) : Prop where
  calls : Dict.get? s.countsTotal id = some fun _ _ => 0
  sets : Dict.get? s.execList id = some []
  clock : Shows (s.clock id) []
  nwhen : ∀ n o c k, Dict.get? s.conds n = some (.nwhen o c k) → s.store.sat o id = 0

/-- The `NWhen` conditions of nodes are not part of the run's termination conditions. -/
def EndsApart (s : Sys α κ W) (a : RunArgs α κ W) : Prop :=
  ∀ n o c k, Dict.get? s.conds n = some (.nwhen o c k) → o ∉ nwhens a.esu ∧ o ∉ nwhens a.seq

/-- Complete runs under the id, one after the other; `runs` lists, run by run, pass by pass,
the sets they yielded. Each run may have its own termination conditions and its own consumer,
and between the runs the outside world may change. -/
inductive CompleteRuns (id : Option κ) (s0 : Sys α κ W) :
    List (List (List (List α))) → Sys α κ W → Prop
  | nil : CompleteRuns id s0 [] s0
  | world {runs : List (List (List (List α)))} {s : Sys α κ W} (x : World α κ W) :
      CompleteRuns id s0 runs s → CompleteRuns id s0 runs { s with world := x }
  | run {runs : List (List (List (List α)))} {s s' : Sys α κ W} {w : List (List α) → World α κ W}
      {a : RunArgs α κ W} {abs : Bool} {h : History α κ W} :
      CompleteRuns id s0 runs s → a.id = id → a.skip = false → EndsApart s0 a → Scripted w a s abs h s' .returned →
      CompleteRuns id s0 (runs ++ [passYields h]) s'

end GS.Spec
