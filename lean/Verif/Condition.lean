import Verif.Time
import Verif.Spec.Graph
/-!
# Model of the basic conditions of `src/graph_scheduler/condition.py`

Conditions are trees of Python objects.  Their immutable part (class and arguments) is
the inductive type `Cond`; every object has an identity `OId`, and its mutable
attributes (`owner`, `NWhen.satisfactions`) live in a `Store` indexed by identity, so
that sharing of condition objects is represented.

Type parameters: `α` nodes, `κ` execution ids other than `None` (an execution id is an
`Option κ`), `W` arbitrary further state of the outside world.
-/

set_option linter.unusedSectionVars false

namespace GS

/-- Identity of a condition object. -/
notation "OId" => Nat

/-- scheduler.py:348-358 `SchedulingMode`. -/
inductive Mode where
  | standard | exactTime
deriving DecidableEq, Repr

/-- A pint quantity after condition.py:464-472 `_reduce_quantity_to_integer`: an integer
magnitude and a unit.  Simplification: units are powers of ten of one finest unit, and
the quantity is an integer number of that finest unit. -/
structure Qty where
  m : Int
  e : Nat
deriving DecidableEq, Repr

/-- The quantity in finest units. -/
def Qty.val (q : Qty) : Rat := ((q.m * (10 : Int) ^ q.e : Int) : Rat)

/-- A subscript: condition.py:2504-2506 `param_value[i]`. -/
inductive Idx where
  | int (i : Int)
  | str (k : String)
deriving DecidableEq, Repr

/-- A value of an attribute that a `Threshold` may look at: a number, a list (or tuple or
array), a dict, or something that is neither a number nor can be subscripted.
Simplification: numbers are rationals, so no `nan`, `inf` and rounding; `float` accepts
numbers only (not numeric strings, not arrays of one element). -/
inductive PyVal where
  | num (x : Rat)
  | seq (l : List PyVal)
  | dict (d : List (Idx × PyVal))
  | other

/-- What user code can change between two steps of a run, read by conditions:
`is_finished` methods (condition.py:2248-2252 `dependency.is_finished(execution_id)`), node
attributes (condition.py:2538 `getattr(dependency, parameter)`; attribute names are
numbers), the results of custom parameter getters (condition.py:2530-2536; getters are
numbers, too), and anything else. -/
structure World (α κ W : Type _) where
  finished : α → Option κ → Except Err Bool
  attr : α → Nat → Except Err PyVal
  getter : Nat → α → Nat → Option κ → Except Err PyVal
  ext : W

/-- The attributes of a `Scheduler` that condition functions read.
`countsTotal`, `countsUseable`: scheduler.py:525-582; the inner dicts have exactly the
scheduler's `nodes` as keys, so they are functions guarded by membership in `nodes`
(see `View.total`, `View.useable`). `queue` and `graph` are the values of the properties
`consideration_queue` and `graph`; the list order inside a set is the order in which
Python iterates over that set. -/
structure View (α κ W : Type _) where
  nodes : List α
  mode : Mode
  graph : Graph α
  queue : List (List α)
  countsTotal : Dict (Option κ) (TimeScale → α → Nat)
  countsUseable : Dict (Option κ) (α → α → Nat)
  execList : Dict (Option κ) (List (List α))
  timestamps : Dict (Option κ) (List Time)
  clocks : Dict (Option κ) Clock
  world : World α κ W

namespace View
variable {α κ W : Type _} [DecidableEq α] [DecidableEq κ]

/-- `scheduler.counts_total[execution_id][ts][node]`. -/
def total (v : View α κ W) (id : Option κ) (ts : TimeScale) (n : α) : Except Err Nat :=
  match Dict.get? v.countsTotal id with
  | none => .error .keyError
  | some f => if n ∈ v.nodes then .ok (f ts n) else .error .keyError

/-- `scheduler.counts_useable[execution_id][a][b]`; `b = none` is the owner `None`. -/
def useable (v : View α κ W) (id : Option κ) (a : α) (b : Option α) : Except Err Nat :=
  match Dict.get? v.countsUseable id with
  | none => .error .keyError
  | some f =>
    if a ∈ v.nodes then
      match b with
      | none => .error .keyError
      | some b => if b ∈ v.nodes then .ok (f a b) else .error .keyError
    else .error .keyError

/-- scheduler.py:1045-1057 `get_clock`: an unknown id gets a new clock.  (That the new
clock is also stored is modelled in `Sys.getClock`; for reading it makes no difference.)
Simplification: ids with an attribute `default_execution_id` are modelled in
`Verif/ClockObjs.lean` only. -/
def clock (v : View α κ W) (id : Option κ) : Clock :=
  match Dict.get? v.clocks id with
  | some c => c
  | none => Clock.new

/-- scheduler.py:1083-1085 `_in_exact_time_mode`. -/
def inExactTimeMode (v : View α κ W) : Bool :=
  v.mode = Mode.exactTime || v.queue.length = 1

end View

/-- condition.py:441-448 `comparison_operators`. -/
inductive Comparator where
  | lt | le | gt | ge | eq | ne
deriving DecidableEq, Repr

/-- Constructor arguments of the non-composite conditions. -/
inductive Leaf (α κ W : Type _) where
  /-- condition.py:959-1013 `Condition(func)` / `While`: a user function. It may read
  the whole view and its own `owner`; simplification: it does not modify anything. -/
  | func (f : View α κ W → Option κ → Option α → Except Err Bool)
  | always                                                   -- condition.py:1106-1119
  | never                                                    -- condition.py:1122-1134
  | timeInterval (rep start fin : Option Qty) (startIncl endIncl : Bool)  -- condition.py:1306-1431
  | timeTermination (t : Qty) (incl : Bool)                  -- condition.py:1434-1475
  | beforeConsiderationSetExecution (n : Int) (ts : TimeScale)  -- condition.py:1478-1504
  | atConsiderationSetExecution (n : Int) (ts : TimeScale)   -- condition.py:1507-1534
  | afterConsiderationSetExecution (n : Int) (ts : TimeScale)  -- condition.py:1537-1563
  | afterNConsiderationSetExecutions (n : Int) (ts : TimeScale)  -- condition.py:1566-1588
  | beforePass (n : Int) (ts : TimeScale)                    -- condition.py:1591-1617
  | atPass (n : Int) (ts : TimeScale)                        -- condition.py:1620-1647
  | afterPass (n : Int) (ts : TimeScale)                     -- condition.py:1650-1676
  | afterNPasses (n : Int) (ts : TimeScale)                  -- condition.py:1679-1701
  | everyNPasses (n : Int) (ts : TimeScale)                  -- condition.py:1704-1728
  | beforeEnvironmentStateUpdate (n : Int) (ts : TimeScale)  -- condition.py:1731-1760
  | atEnvironmentStateUpdate (n : Int) (ts : TimeScale)      -- condition.py:1763-1792
  | afterEnvironmentStateUpdate (n : Int) (ts : TimeScale)   -- condition.py:1795-1824
  | afterNEnvironmentStateUpdates (n : Int) (ts : TimeScale)  -- condition.py:1827-1850
  | atEnvironmentSequence (n : Int)                          -- condition.py:1853-1878
  | afterEnvironmentSequence (n : Int)                       -- condition.py:1881-1906
  | afterNEnvironmentSequences (n : Int)                     -- condition.py:1909-1935
  | beforeNCalls (d : α) (n : Int) (ts : TimeScale)          -- condition.py:1943-1972
  | atNCalls (d : α) (n : Int) (ts : TimeScale)              -- condition.py:1981-2010
  | afterCall (d : α) (n : Int) (ts : TimeScale)             -- condition.py:2013-2040
  | afterNCalls (d : α) (n : Int) (ts : TimeScale)           -- condition.py:2043-2072
  | afterNCallsCombined (ds : List α) (n : Option Int) (ts : TimeScale)  -- condition.py:2075-2111
  | everyNCalls (d : α) (n : Int)                            -- condition.py:2114-2159
  | justRan (d : α)                                          -- condition.py:2162-2187
  | allHaveRun (ds : List α) (ts : TimeScale)                -- condition.py:2190-2223
  | whenFinished (d : α)                                     -- condition.py:2226-2254
  | whenFinishedAny (ds : List α)                            -- condition.py:2257-2294
  | whenFinishedAll (ds : List α)                            -- condition.py:2297-2334
  | threshold (d : α) (param : Nat) (thr : Rat) (cmp : Comparator) (indices : Option (List Idx))
      (atol rtol : Rat) (getter : Option Nat)  -- condition.py:2421-2545

/-- A basic condition object: identity, class and constructor arguments. -/
inductive Cond (α κ W : Type _) where
  | leaf (o : OId) (k : Leaf α κ W)
  /-- condition.py:1075-1098 `WhileNot(func)`. -/
  | whileNot (o : OId) (f : View α κ W → Option κ → Option α → Except Err Bool)
  | all (o : OId) (args : List (Cond α κ W))                 -- condition.py:1170-1200
  | any (o : OId) (args : List (Cond α κ W))                 -- condition.py:1203-1233
  | not (o : OId) (c : Cond α κ W)                           -- condition.py:1240-1262
  | nwhen (o : OId) (c : Cond α κ W) (n : Int)               -- condition.py:1265-1298

/-- Mutable attributes of condition objects: `owner` (condition.py:939-956) and
`NWhen.satisfactions` (condition.py:1280; a missing execution id counts as 0). `fresh`
is the next unused identity. -/
structure Store (α κ : Type _) where
  owner : OId → Option α
  sat : OId → Option κ → Nat
  fresh : OId

namespace Cond
variable {α κ W : Type _}

def oid : Cond α κ W → OId
  | leaf o _ => o
  | whileNot o _ => o
  | all o _ => o
  | any o _ => o
  | not o _ => o
  | nwhen o _ _ => o

end Cond

namespace Store
variable {α κ : Type _} [DecidableEq κ]

/-- `obj._owner = value`. -/
def putOwner (st : Store α κ) (o : OId) (v : Option α) : Store α κ :=
  { st with owner := fun x => if x = o then v else st.owner x }

/-- condition.py:1296 `self.satisfactions[execution_id] += 1`. -/
def bumpSat (st : Store α κ) (o : OId) (id : Option κ) : Store α κ :=
  { st with sat := fun x i => if x = o ∧ i = id then st.sat x i + 1 else st.sat x i }

end Store

mutual
/-- The `owner` setters: condition.py:953-956 (plain), 1143-1149 (composite: children
only if they have no owner), 1256-1259 `Not` and 1285-1288 `NWhen` (always). -/
def setOwner {α κ W : Type _} (v : Option α) : Cond α κ W → Store α κ → Store α κ
  | .leaf o _, st => st.putOwner o v
  | .whileNot o _, st => st.putOwner o v
  | .all o args, st => setOwners v args (st.putOwner o v)
  | .any o args, st => setOwners v args (st.putOwner o v)
  | .not o c, st => setOwner v c (st.putOwner o v)
  | .nwhen o c _, st => setOwner v c (st.putOwner o v)
/-- condition.py:1146-1149: `for cond in self.args: if cond.owner is None: ...`. -/
def setOwners {α κ W : Type _} (v : Option α) : List (Cond α κ W) → Store α κ → Store α κ
  | [], st => st
  | c :: cs, st =>
    match st.owner c.oid with
    | none => setOwners v cs (setOwner v c st)
    | some _ => setOwners v cs st
end

section Eval
variable {α κ W : Type _} [DecidableEq α] [DecidableEq κ]

/-- `x % r` for a Python rational (`r = 0` is handled by the caller). -/
def ratMod (x r : Rat) : Rat := x - r * (x / r).floor

/-- condition.py:1382-1387: `for i, cs in enumerate(queue): if owner in cs: offset = ...`;
the last hit wins, `none` if the loop never assigns. -/
def layerOffset (owner : Option α) (interval : Rat) (queue : List (List α)) : Option Rat :=
  queue.zipIdx.foldl (fun off p =>
    match owner with
    | some o => if o ∈ p.1 then some (p.2 * interval) else off
    | none => off) none

/-- condition.py:1389-1393: the `repeat` part of `TimeInterval`.  Reading `offset` when
it was never assigned raises.  Simplification: the rounding to 8 digits of
condition.py:1390-1393 is exact comparison with zero. -/
def repeatOk (abs : Rat) (offset : Option Rat) : Option Qty → Except Err Bool
  | none => .ok true
  | some r => match offset with
    | none => .error .unboundLocalError
    | some off => if r.val = 0 then .error .zeroDivisionError
                  else .ok (decide (ratMod (abs - off) r.val = 0))

/-- condition.py:1378-1407 `TimeInterval`'s `func`.  (`satisfied &= ...` evaluates all
parts.) -/
def timeIntervalFunc (v : View α κ W) (id : Option κ) (owner : Option α)
    (rep start fin : Option Qty) (startIncl endIncl : Bool) : Except Err Bool :=
  let t := (v.clock id).time
  let offset : Option Rat := match start with
    | some s => if v.inExactTimeMode then some s.val
                else layerOffset owner t.absolute_interval v.queue
    | none => layerOffset owner t.absolute_interval v.queue
  match repeatOk t.absolute offset rep with
  | .error e => .error e
  | .ok r =>
    let okStart : Bool := match start with
      | none => true
      | some s => if startIncl then decide (s.val ≤ t.absolute) else decide (s.val < t.absolute)
    let okEnd : Bool := match fin with
      | none => true
      | some e => if endIncl then decide (t.absolute ≤ e.val) else decide (t.absolute < e.val)
    .ok (r && okStart && okEnd)

/-- `get_clock(id).get_total_times_relative(q, ts)` compared by `f`. -/
def relTime (v : View α κ W) (id : Option κ) (q ts : TimeScale) (f : Int → Bool) :
    Except Err Bool :=
  match (v.clock id).getTotalTimesRelative q ts with
  | .ok n => .ok (f n)
  | .error e => .error e

/-- `counts_total[id][ts][d]` compared by `f`. -/
def callCount (v : View α κ W) (id : Option κ) (ts : TimeScale) (d : α) (f : Int → Bool) :
    Except Err Bool :=
  match v.total id ts d with
  | .ok n => .ok (f n)
  | .error e => .error e

/-- condition.py:2098-2110: sum over the dependencies. -/
def sumCalls (v : View α κ W) (id : Option κ) (ts : TimeScale) : List α → Except Err Nat
  | [] => .ok 0
  | d :: ds => match v.total id ts d with
    | .error e => .error e
    | .ok n => match sumCalls v id ts ds with
      | .error e => .error e
      | .ok m => .ok (n + m)

/-- condition.py:2206-2223 `AllHaveRun`: stops at the first node that has not run;
`KeyError` becomes `ConditionError`. -/
def allHaveRunFunc (v : View α κ W) (id : Option κ) (ts : TimeScale) : List α → Except Err Bool
  | [] => .ok true
  | d :: ds => match v.total id ts d with
    | .error .keyError => .error .conditionError
    | .error e => .error e
    | .ok n => if n < 1 then .ok false else allHaveRunFunc v id ts ds

/-- condition.py:2248-2252: `AttributeError` becomes `ConditionError`. -/
def isFinished (v : View α κ W) (id : Option κ) (d : α) : Except Err Bool :=
  match v.world.finished d id with
  | .error .attributeError => .error .conditionError
  | r => r

/-- condition.py:2283-2292 `WhenFinishedAny`. -/
def finishedAny (v : View α κ W) (id : Option κ) : List α → Except Err Bool
  | [] => .ok false
  | d :: ds => match isFinished v id d with
    | .error e => .error e
    | .ok true => .ok true
    | .ok false => finishedAny v id ds

/-- condition.py:2323-2332 `WhenFinishedAll`. -/
def finishedAll (v : View α κ W) (id : Option κ) : List α → Except Err Bool
  | [] => .ok true
  | d :: ds => match isFinished v id d with
    | .error e => .error e
    | .ok false => .ok false
    | .ok true => finishedAll v id ds

/-- condition.py:2181-2186 `JustRan`: `dependency in execution_list[id][-1]`. -/
def justRanFunc (v : View α κ W) (id : Option κ) (d : α) : Except Err Bool :=
  match Dict.get v.execList id with
  | .error e => .error e
  | .ok l => match pyIndex l (-1) with
    | .error e => .error e
    | .ok s => .ok (decide (d ∈ s))

/-- `numpy.isclose(a, b, atol, rtol)` on finite numbers. -/
def isClose (a b atol rtol : Rat) : Bool := decide ((a - b).abs ≤ atol + rtol * b.abs)

/-- condition.py:2529-2538 `Threshold.get_parameter_value`. -/
def getParameterValue (w : World α κ W) (id : Option κ) (d : α) (p : Nat) :
    Option Nat → Except Err PyVal
  | some g => w.getter g d p id
  | none => w.attr d p

/-- `value[i]`: a list takes integers (negative ones count from the end), a dict takes its
keys, and nothing else can be subscripted. -/
def subscript : PyVal → Idx → Except Err PyVal
  | .seq l, .int i => pyIndex l i
  | .seq _, .str _ => .error .typeError
  | .dict d, i => match Dict.get? d i with
    | some x => .ok x
    | none => .error .keyError
  | .num _, _ => .error .typeError
  | .other, _ => .error .typeError

/-- condition.py:2505-2506 `for i in indices: param_value = param_value[i]`. -/
def subscripts : PyVal → List Idx → Except Err PyVal
  | x, [] => .ok x
  | x, i :: is => match subscript x i with
    | .error e => .error e
    | .ok y => subscripts y is

/-- condition.py:2504-2506 `if indices is not None: ...`. -/
def applyIndices (x : PyVal) : Option (List Idx) → Except Err PyVal
  | none => .ok x
  | some is => subscripts x is

/-- condition.py:2508 `float(param_value)`. -/
def toFloat : PyVal → Except Err Rat
  | .num x => .ok x
  | _ => .error .typeError

/-- condition.py:2503-2508: the number to be compared. -/
def thresholdValue (w : World α κ W) (id : Option κ) (d : α) (p : Nat)
    (indices : Option (List Idx)) (getter : Option Nat) : Except Err Rat :=
  match getParameterValue w id d p getter with
  | .error e => .error e
  | .ok x => match applyIndices x indices with
    | .error e => .error e
    | .ok y => toFloat y

/-- condition.py:2510-2515, the comparison in `Threshold`'s `func`. -/
def thresholdFunc (x thr : Rat) (cmp : Comparator) (atol rtol : Rat) : Bool :=
  match cmp with
  | .eq => isClose x thr atol rtol
  | .ne => !isClose x thr atol rtol
  | .lt => decide (x < thr)
  | .le => decide (x ≤ thr)
  | .gt => decide (x > thr)
  | .ge => decide (x ≥ thr)

/-- The `func` of every non-composite condition (condition.py:1106-2515, line by line as cited in
`Leaf`); `owner` is `self.owner`. -/
def evalLeaf (v : View α κ W) (id : Option κ) (owner : Option α) :
    Leaf α κ W → Except Err Bool
  | .func f => f v id owner
  | .always => .ok true
  | .never => .ok false
  | .timeInterval r s e si ei => timeIntervalFunc v id owner r s e si ei
  | .timeTermination t incl =>
    if incl then .ok (decide ((v.clock id).time.absolute ≥ t.val))
    else .ok (decide ((v.clock id).time.absolute > t.val))
  | .beforeConsiderationSetExecution n ts =>
    relTime v id .consideration_set_execution ts (fun k => decide (k < n))
  | .atConsiderationSetExecution n ts =>
    relTime v id .consideration_set_execution ts (fun k => decide (k = n))
  | .afterConsiderationSetExecution n ts =>
    relTime v id .consideration_set_execution ts (fun k => decide (k > n))
  | .afterNConsiderationSetExecutions n ts =>
    relTime v id .consideration_set_execution ts (fun k => decide (k ≥ n))
  | .beforePass n ts => relTime v id .pass ts (fun k => decide (k < n))
  | .atPass n ts => relTime v id .pass ts (fun k => decide (k = n))
  | .afterPass n ts => relTime v id .pass ts (fun k => decide (k > n))
  | .afterNPasses n ts => relTime v id .pass ts (fun k => decide (k ≥ n))
  | .everyNPasses n ts =>
    match (v.clock id).getTotalTimesRelative .pass ts with
    | .error e => .error e
    | .ok k => if n = 0 then .error .zeroDivisionError else .ok (decide ((k : Int).fmod n = 0))
  | .beforeEnvironmentStateUpdate n ts =>
    relTime v id .environment_state_update ts (fun k => decide (k < n))
  | .atEnvironmentStateUpdate n ts =>
    relTime v id .environment_state_update ts (fun k => decide (k = n))
  | .afterEnvironmentStateUpdate n ts =>
    relTime v id .environment_state_update ts (fun k => decide (k > n))
  | .afterNEnvironmentStateUpdates n ts =>
    relTime v id .environment_state_update ts (fun k => decide (k ≥ n))
  | .atEnvironmentSequence n =>
    .ok (decide (((v.clock id).time.at_ .environment_sequence : Int) = n))
  | .afterEnvironmentSequence n =>
    .ok (decide (((v.clock id).time.at_ .environment_sequence : Int) > n))
  | .afterNEnvironmentSequences n =>
    .ok (decide (((v.clock id).time.at_ .environment_sequence : Int) ≥ n))
  | .beforeNCalls d n ts => callCount v id ts d (fun k => decide (k < n))
  | .atNCalls d n ts => callCount v id ts d (fun k => decide (k = n))
  | .afterCall d n ts => callCount v id ts d (fun k => decide (k > n))
  | .afterNCalls d n ts => callCount v id ts d (fun k => decide (k ≥ n))
  | .afterNCallsCombined ds n ts =>
    match n with
    | none => .error .conditionError
    | some n => match sumCalls v id ts ds with
      | .error e => .error e
      | .ok k => .ok (decide ((k : Int) ≥ n))
  | .everyNCalls d n =>
    match v.useable id d owner with
    | .ok k => .ok (decide ((k : Int) ≥ n))
    | .error e => .error e
  | .justRan d => justRanFunc v id d
  | .allHaveRun ds ts => allHaveRunFunc v id ts (if ds = [] then v.nodes else ds)
  | .whenFinished d => isFinished v id d
  | .whenFinishedAny ds => finishedAny v id (if ds = [] then v.nodes else ds)
  | .whenFinishedAll ds => finishedAll v id (if ds = [] then v.nodes else ds)
  | .threshold d p thr cmp is atol rtol g =>
    match thresholdValue v.world id d p is g with
    | .error e => .error e
    | .ok x => .ok (thresholdFunc x thr cmp atol rtol)

/-- The state of evaluation: the result and the store afterwards (also after an
exception). -/
abbrev EvalResult (α κ : Type _) := Except Err Bool × Store α κ

/-- condition.py:1290-1298 `NWhen.satis`, after the component was evaluated. -/
def nwhenResult (o : OId) (id : Option κ) : EvalResult α κ → EvalResult α κ
  | (.ok true, st) => (.ok true, st.bumpSat o id)
  | (.ok false, st) => (.ok false, st)
  | (.error e, st) => (.error e, st)

/-- `not x`, also condition.py:1095-1098, 1252-1257. -/
def notResult : Except Err Bool → Except Err Bool
  | .ok b => .ok (!b)
  | .error e => .error e

mutual
/-- condition.py:986-1015 `is_satisfied`. -/
def eval (v : View α κ W) (id : Option κ) : Cond α κ W → Store α κ → EvalResult α κ
  | .leaf o k, st => (evalLeaf v id (st.owner o) k, st)
  | .whileNot o f, st => (notResult (f v id (st.owner o)), st)
  | .all _ args, st => evalAll v id args st
  | .any _ args, st => evalAny v id args st
  | .not _ c, st => (notResult (eval v id c st).1, (eval v id c st).2)
  | .nwhen o c n, st =>
    if (st.sat o id : Int) < n then nwhenResult o id (eval v id c st) else (.ok false, st)
/-- condition.py:1196-1200 `All.satis`. -/
def evalAll (v : View α κ W) (id : Option κ) : List (Cond α κ W) → Store α κ → EvalResult α κ
  | [], st => (.ok true, st)
  | c :: cs, st => match eval v id c st with
    | (.ok true, st') => evalAll v id cs st'
    | (.ok false, st') => (.ok false, st')
    | (.error e, st') => (.error e, st')
/-- condition.py:1229-1233 `Any.satis`. -/
def evalAny (v : View α κ W) (id : Option κ) : List (Cond α κ W) → Store α κ → EvalResult α κ
  | [], st => (.ok false, st)
  | c :: cs, st => match eval v id c st with
    | (.ok false, st') => evalAny v id cs st'
    | (.ok true, st') => (.ok true, st')
    | (.error e, st') => (.error e, st')
end

end Eval

section Absolute
variable {α κ W : Type _}

/-- condition.py:1033-1035 and 1038-1041: `is_absolute` of a non-composite condition. -/
def Leaf.isAbsolute : Leaf α κ W → Bool
  | .timeInterval .. => true
  | .timeTermination .. => true
  | _ => false

/-- condition.py:1017-1023, 1419-1421 `absolute_intervals`. -/
def Leaf.intervals : Leaf α κ W → List Qty
  | .timeInterval (some r) _ _ _ _ => [r]
  | _ => []

/-- condition.py:1423-1431: the fixed points of a `TimeInterval`. -/
def intervalPoints (start fin : Option Qty) (si ei : Bool) : List Qty :=
  (match start with | some s => if si then [s] else [] | none => []) ++
  (match fin with | some e => if ei then [e] else [] | none => [])

/-- condition.py:1025-1031, 1423-1431, 1473-1475 `absolute_fixed_points`. -/
def Leaf.fixedPoints : Leaf α κ W → List Qty
  | .timeInterval _ s e si ei => intervalPoints s e si ei
  | .timeTermination t incl => if incl then [t] else []
  | _ => []

mutual
/-- condition.py:1165-1167 for composites; `Not`, `NWhen`, `WhileNot` inherit `False`. -/
def Cond.isAbsolute : Cond α κ W → Bool
  | .leaf _ k => k.isAbsolute
  | .all _ args => anyAbsolute args
  | .any _ args => anyAbsolute args
  | _ => false
/-- condition.py:1167 `any(a.is_absolute for a in self.args)`. -/
def anyAbsolute : List (Cond α κ W) → Bool
  | [] => false
  | c :: cs => c.isAbsolute || anyAbsolute cs
end

mutual
/-- condition.py:1151-1156 (composites: of the absolute components). -/
def Cond.intervals : Cond α κ W → List Qty
  | .leaf _ k => k.intervals
  | .all _ args => intervalsOf args
  | .any _ args => intervalsOf args
  | _ => []
/-- condition.py:1153-1156. -/
def intervalsOf : List (Cond α κ W) → List Qty
  | [] => []
  | c :: cs => (if c.isAbsolute then c.intervals else []) ++ intervalsOf cs
end

mutual
/-- condition.py:1158-1163 (composites: of the absolute components). -/
def Cond.fixedPoints : Cond α κ W → List Qty
  | .leaf _ k => k.fixedPoints
  | .all _ args => fixedPointsOf args
  | .any _ args => fixedPointsOf args
  | _ => []
/-- condition.py:1160-1163. -/
def fixedPointsOf : List (Cond α κ W) → List Qty
  | [] => []
  | c :: cs => (if c.isAbsolute then c.fixedPoints else []) ++ fixedPointsOf cs
end

end Absolute

end GS
