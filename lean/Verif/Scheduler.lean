import Verif.Condition
import Verif.Graph
/-!
# Model of `Scheduler.run` (`src/graph_scheduler/scheduler.py`)

`run()` is a Python generator.  Its body is the function `step` on a program counter
`PC`; a generator is suspended at `PC.yielded` / `PC.yieldedEmpty`.  `Reach` is the set
of states a run can reach, where between two `next()` calls an environment relation may
change the scheduler.
-/

set_option linter.unusedSectionVars false

namespace GS

/-- Everything a run reads or writes: the view of the conditions, the basic conditions
(`conditions.conditions_basic`), the attributes of condition objects, and
`default_absolute_time_unit` (in finest units). -/
structure Sys (α κ W : Type _) extends View α κ W where
  conds : Dict α (Cond α κ W)
  store : Store α κ
  defaultUnit : Rat

/-- scheduler.py:856-863, the parameters of `run`.  `base = none` is `NotImplemented`;
the default value of `base_execution_id` is `None`, i.e. `some none`.  `esu` and `seq`
are the entries of the termination condition dict that the loop looks up; `others` are
its remaining values (read only by `get_absolute_conditions`). -/
structure RunArgs (α κ W : Type _) where
  id : Option κ
  base : Option (Option κ) := some none
  esu : Cond α κ W
  seq : Cond α κ W
  others : List (Cond α κ W) := []
  skip : Bool := false

section
variable {α κ W : Type _} [DecidableEq α] [DecidableEq κ]

namespace Sys

/-! ## Counters -/

/-- scheduler.py:542-553: the part of `_init_counts` for `counts_total`. -/
def initTotal (s : Sys α κ W) (id : Option κ) (base : Option (Option κ)) :
    Except Err (Sys α κ W) :=
  match Dict.get? s.countsTotal id with
  | some _ => .ok s
  | none => match base with
    | none => .ok { s with countsTotal := Dict.set s.countsTotal id (fun _ _ => 0) }
    | some b => match Dict.get? s.countsTotal b with
      | none => .error .schedulerError
      | some f => .ok { s with countsTotal := Dict.set s.countsTotal id f }

/-- scheduler.py:560-571: the part of `_init_counts` for `counts_useable`. -/
def initUseable (s : Sys α κ W) (id : Option κ) (base : Option (Option κ)) :
    Except Err (Sys α κ W) :=
  match Dict.get? s.countsUseable id with
  | some _ => .ok s
  | none => match base with
    | none => .ok { s with countsUseable := Dict.set s.countsUseable id (fun _ _ => 0) }
    | some b => match Dict.get? s.countsUseable b with
      | none => .error .schedulerError
      | some f => .ok { s with countsUseable := Dict.set s.countsUseable id f }

/-- scheduler.py:573-580: the part of `_init_counts` for `execution_list`. -/
def initList (s : Sys α κ W) (id : Option κ) (base : Option (Option κ)) :
    Except Err (Sys α κ W) :=
  match Dict.get? s.execList id with
  | some _ => .ok s
  | none => match base with
    | none => .ok { s with execList := Dict.set s.execList id [] }
    | some b => match Dict.get? s.execList b with
      | none => .error .schedulerError
      | some l => .ok { s with execList := Dict.set s.execList id l }

/-- scheduler.py:584-594 `_init_clock`. -/
def initClock (s : Sys α κ W) (id : Option κ) (base : Option (Option κ)) :
    Except Err (Sys α κ W) :=
  match Dict.get? s.clocks id with
  | some _ => .ok s
  | none => match base with
    | none => .ok { s with clocks := Dict.set s.clocks id Clock.new }
    | some b => match Dict.get? s.clocks b with
      | none => .error .schedulerError
      | some c => .ok { s with clocks := Dict.set s.clocks id c }

/-- scheduler.py:525-582 `_init_counts`: the state reached, and the exception if any. -/
def initCounts (s : Sys α κ W) (id : Option κ) (base : Option (Option κ)) :
    Sys α κ W × Option Err :=
  match s.initTotal id base with
  | .error e => (s, some e)
  | .ok s1 => match s1.initUseable id base with
    | .error e => (s1, some e)
    | .ok s2 => match s2.initList id base with
      | .error e => (s2, some e)
      | .ok s3 => match s3.initClock id base with
        | .error e => (s3, some e)
        | .ok s4 => (s4, none)

/-- scheduler.py:609-615 `_reset_counts_total`. -/
def resetTotal (s : Sys α κ W) (ts : TimeScale) (id : Option κ) : Except Err (Sys α κ W) :=
  match Dict.get? s.countsTotal id with
  | none => .error .keyError
  | some f =>
    let f' : TimeScale → α → Nat := fun t n => if t.val ≤ ts.val then 0 else f t n
    .ok { s with countsTotal := Dict.set s.countsTotal id f' }

/-- scheduler.py:617-620 `_reset_counts_useable`. -/
def resetUseable (s : Sys α κ W) (id : Option κ) : Sys α κ W :=
  { s with countsUseable := Dict.set s.countsUseable id (fun _ _ => 0) }

/-- scheduler.py:1045-1057 `get_clock`, as a state change: a missing clock is stored. -/
def getClock (s : Sys α κ W) (id : Option κ) : Sys α κ W :=
  match Dict.get? s.clocks id with
  | some _ => s
  | none => { s with clocks := Dict.set s.clocks id Clock.new }

/-- `self.clocks[id]` replaced by `c`. -/
def setClock (s : Sys α κ W) (id : Option κ) (c : Clock) : Sys α κ W :=
  { s with clocks := Dict.set s.clocks id c }

/-- scheduler.py:994-995 `_increment_time` and 973, 982, 984, 987. -/
def incrClock (s : Sys α κ W) (id : Option κ) (ts : TimeScale) : Except Err (Sys α κ W) :=
  match (s.clock id).incr ts with
  | .ok c => .ok (s.setClock id c)
  | .error e => .error e

/-- scheduler.py:668-677 `end_environment_sequence`. -/
def endEnvironmentSequence (s : Sys α κ W) (id : Option κ) : Except Err (Sys α κ W) :=
  s.incrClock id .environment_sequence

/-- scheduler.py:949-959: the bookkeeping when `n` is added to the current set. -/
def fire (s : Sys α κ W) (id : Option κ) (n : α) : Except Err (Sys α κ W) :=
  match Dict.get? s.countsTotal id with
  | none => .error .keyError
  | some f =>
    if n ∈ s.nodes then
      match Dict.get? s.countsUseable id with
      | none => .error .keyError
      | some u =>
        -- for m in counts_useable: counts_useable[m][n] = 0
        let u1 : α → α → Nat := fun a b => if b = n then 0 else u a b
        -- for m in counts_useable: counts_useable[n][m] += 1
        let u2 : α → α → Nat := fun a b => if a = n then u1 a b + 1 else u1 a b
        .ok { s with
          countsTotal := Dict.set s.countsTotal id (fun t m => if m = n then f t m + 1 else f t m)
          countsUseable := Dict.set s.countsUseable id u2 }
    else .error .keyError

/-- `conditions_basic[n].is_satisfied(...)` or a termination condition: evaluation may
change the attributes of condition objects. -/
def evalCond (s : Sys α κ W) (id : Option κ) (c : Cond α κ W) : Sys α κ W × Except Err Bool :=
  ({ s with store := (eval s.toView id c s.store).2 }, (eval s.toView id c s.store).1)

/-! ## Choosing an execution set -/

/-- scheduler.py:944-959: one node of the `for current_node` loop (`n` is not in the
current set yet).  The result says whether `n` is added. -/
def considerNode (s : Sys α κ W) (id : Option κ) (n : α) : Sys α κ W × Except Err Bool :=
  match Dict.get? s.conds n with
  | none => (s, .error .keyError)
  | some c => match s.evalCond id c with
    | (s', .error e) => (s', .error e)
    | (s', .ok false) => (s', .ok false)
    | (s', .ok true) => match s'.fire id n with
      | .error e => (s', .error e)
      | .ok s'' => (s'', .ok true)

/-- scheduler.py:966-970 and 979: append to `execution_list` and, in absolute-time mode,
to `execution_timestamps` (`KeyError` if the id has no such entry).  The copy of the
current time is taken from the clock, whose time object `current_time` is. -/
def record (s : Sys α κ W) (id : Option κ) (abs : Bool) (set : List α) : Sys α κ W × Option Err :=
  match Dict.get? s.execList id with
  | none => (s, some .keyError)
  | some l =>
    let s1 := { s with execList := Dict.set s.execList id (l ++ [set]) }
    if abs then
      match Dict.get? s1.timestamps id with
      | none => (s1, some .keyError)
      | some ts => ({ s1 with
          timestamps := Dict.set s1.timestamps id (ts ++ [(s1.clock id).time]) }, none)
    else (s1, none)

/-! ## Construction -/

/-- scheduler.py:462-523 `Scheduler.__init__` for a dependency dict `g`, without
conditions (they are added afterwards, scheduler.py:512-513, see `addBasic`) and with
`default_execution_id = id`.  In `EXACT_TIME` mode `consideration_queue` is one set with
all keys (scheduler.py:1166-1168).  The warning for cyclic graphs and the dates are not
modelled; the stack of graphs is modelled in `Verif/Structural.lean`. -/
def new (g : Graph α) (mode : Mode) (id : Option κ) (unit : Rat) (w : World α κ W) :
    Sys α κ W where
  nodes := Dict.keys (baseGraph g)
  mode := mode
  graph := baseGraph g
  queue := match mode with
    | .standard => queueOf (baseGraph g)
    | .exactTime => [Dict.keys (baseGraph g)]
  countsTotal := [(id, fun _ _ => 0)]
  countsUseable := [(id, fun _ _ => 0)]
  execList := [(id, [])]
  timestamps := [(id, [])]
  clocks := [(id, Clock.new)]
  world := w
  conds := []
  store := { owner := fun _ => none, sat := fun _ _ => 0, fresh := 0 }
  defaultUnit := unit

/-! ## The beginning of a run -/

/-- Fresh condition objects: `k` identities with `owner = None` and no satisfactions. -/
def alloc (s : Sys α κ W) (k : Nat) : Sys α κ W :=
  { s with store :=
    { owner := fun o => if s.store.fresh ≤ o then none else s.store.owner o
      sat := fun o i => if s.store.fresh ≤ o then 0 else s.store.sat o i
      fresh := s.store.fresh + k } }

/-- scheduler.py:827-833: the implicit condition for given dependencies, made of the
identities from `o` on. -/
def defaultCond (o : OId) : List α → Cond α κ W
  | [] => .leaf o .always
  | [d] => .leaf o (.everyNCalls d 1)
  | d :: ds => .all o ((d :: ds).zipIdx.map fun p => .leaf (o + 1 + p.2) (.everyNCalls p.1 1))

/-- condition.py:736, 744-754 `ConditionSet.add_condition` for a basic condition. -/
def addBasic (s : Sys α κ W) (n : α) (c : Cond α κ W) : Sys α κ W :=
  { s with store := setOwner (some n) c s.store, conds := Dict.set s.conds n c }

/-- scheduler.py:823-839 `_validate_conditions`: implicit conditions become explicit
ones. (The warning of 844-851 is modelled by `Whole.runWarnings`.) -/
def validateConditions : List α → Sys α κ W → Sys α κ W × Option Err
  | [], s => (s, none)
  | n :: ns, s => match Dict.get? s.conds n with
    | some _ => validateConditions ns s
    | none => match Dict.get? s.graph n with
      | none => (s, some .keyError)
      | some deps =>
        validateConditions ns
          ((s.alloc (deps.length + 1)).addBasic n (defaultCond s.store.fresh deps))

/-- scheduler.py:806-821 `_validate_run_state`.  The test `self.consideration_queue == 1`
(814-819) compares a list with an integer, is never true, and is omitted. -/
def validateRunState (s : Sys α κ W) : Sys α κ W × Option Err :=
  match toposort s.graph with
  | .error _ => (s, some .schedulerError)
  | .ok _ => validateConditions s.nodes s

/-- scheduler.py:1034-1043 `get_absolute_conditions(termination_conds)`. -/
def absoluteConds (s : Sys α κ W) (a : RunArgs α κ W) : List (Cond α κ W) :=
  ((s.conds.map Prod.snd) ++ a.seq :: a.esu :: a.others).filter Cond.isAbsolute

/-- Smallest exponent of a unit (scheduler.py:1013 `min_time_unit`). -/
def minExp : List Qty → Nat
  | [] => 0
  | [q] => q.e
  | q :: qs => min q.e (minExp qs)

/-- scheduler.py:1015-1022: all intervals in the smallest unit, and their greatest
common divisor.  Simplification: magnitudes are taken as absolute values. -/
def gcdIn (emin : Nat) (qs : List Qty) : Nat :=
  qs.foldl (fun g q => Nat.gcd g (q.m.natAbs * 10 ^ (q.e - emin))) 0

/-- scheduler.py:997-1032 `_get_absolute_consideration_set_execution_unit`, given the
absolute conditions. -/
def absoluteUnit (s : Sys α κ W) (cs : List (Cond α κ W)) : Except Err Rat :=
  let intervals := cs.flatMap fun c =>
    c.intervals ++ (if s.mode = Mode.exactTime then c.fixedPoints else [])
  if intervals = [] then .ok s.defaultUnit
  else
    let emin := minExp intervals
    let numerator := gcdIn emin intervals
    let denominator := match s.mode with
      | .standard => s.queue.length
      | .exactTime => 1
    if denominator = 0 then .error .zeroDivisionError
    else .ok (((numerator : Rat) / (denominator : Rat)) * (10 : Rat) ^ emin)

/-- scheduler.py:890-894: the first fixed point of a condition, or 0. -/
def firstPoint (c : Cond α κ W) : Rat :=
  match c.fixedPoints with
  | [] => 0
  | q :: qs => qs.foldl (fun m x => min m x.val) q.val

/-- scheduler.py:887-896: the time to which the absolute clock is advanced. -/
def advanceTo (cur : Rat) : List (Cond α κ W) → Rat
  | [] => cur
  | c :: cs => max cur (cs.foldl (fun m x => min m (firstPoint x)) (firstPoint c))

/-- scheduler.py:884-906: absolute-time setup; the result says whether the run is in
absolute-time mode. The conversions of units (897-904) are the identity on exact
numbers. -/
def setupAbsolute (s : Sys α κ W) (a : RunArgs α κ W) : Sys α κ W × Except Err Bool :=
  let cs := s.absoluteConds a
  let c := s.clock a.id
  if cs = [] then
    (s.setClock a.id { c with time := { c.time with absolute_enabled := false } }, .ok false)
  else match s.absoluteUnit cs with
    | .error e => (s, .error e)
    | .ok u => (s.setClock a.id { c with time := { c.time with
        absolute_interval := u, absolute := advanceTo c.time.absolute cs,
        absolute_enabled := true } }, .ok true)

/-- scheduler.py:871-910: everything before the outer loop.  (The choice of the
termination conditions, 873-876, is modelled in `Verif/TermConds.lean`.) -/
def start (s : Sys α κ W) (a : RunArgs α κ W) : Sys α κ W × Except Err Bool :=
  match s.validateRunState with
  | (s1, some e) => (s1, .error e)
  | (s1, none) =>
    match (s1.getClock a.id).setupAbsolute a with
    | (s2, .error e) => (s2, .error e)
    | (s2, .ok abs) => match s2.initCounts a.id a.base with
      | (s3, some e) => (s3, .error e)
      | (s3, none) => match (s3.resetUseable a.id).resetTotal .environment_state_update a.id with
        | .error e => (s3.resetUseable a.id, .error e)
        | .ok s4 => (s4, .ok abs)

end Sys

/-! ## The loop -/

/-- Local variables while an execution set is chosen (scheduler.py:926-962):
`cur_index_consideration_queue`, `execution_list_has_changed` (before this set),
`cur_consideration_set`, `cur_consideration_set_execution_exec` in order of addition, the
rest of the current `for` loop, and `cur_consideration_set_has_changed`. -/
structure Choice (α : Type _) where
  idx : Nat
  changed : Bool
  layer : List α
  exec : List α
  todo : List α
  again : Bool
deriving DecidableEq, Repr

/-- Program counter of `run`. -/
inductive PC (α : Type _) where
  /-- scheduler.py:912: about to test the outer loop. -/
  | outer
  /-- scheduler.py:921: about to test the inner loop; `cur_index_consideration_queue`
  and `execution_list_has_changed`. -/
  | inner (idx : Nat) (changed : Bool)
  /-- scheduler.py:939-962: choosing a set. -/
  | choosing (c : Choice α)
  /-- scheduler.py:971: suspended in the inner loop. -/
  | yielded (idx : Nat) (changed : Bool)
  /-- scheduler.py:980: suspended after an empty pass. -/
  | yieldedEmpty
  /-- scheduler.py:992: returned. -/
  | returned
  /-- an exception left the generator. -/
  | raised (e : Err)
deriving DecidableEq, Repr

/-- The generator is suspended at a `yield`. -/
def PC.suspended : PC α → Bool
  | .yielded _ _ => true
  | .yieldedEmpty => true
  | _ => false

/-- The generator is finished. -/
def PC.final : PC α → Bool
  | .returned => true
  | .raised _ => true
  | _ => false

/-- What a step of the run does, as recorded in its history. -/
inductive Event (α : Type _) where
  /-- a pass begins -/
  | passStart
  /-- the choice of an execution set from the consideration set at `idx` begins -/
  | consider (idx : Nat) (layer : List α)
  /-- a node is added to the set being chosen -/
  | add (n : α)
  /-- the set for position `idx` is complete; `shown` if it is yielded -/
  | layer (idx : Nat) (set : List α) (shown : Bool)
  /-- an empty set is yielded because nothing executed in the pass -/
  | emptyPass
  /-- the outer loop is left -/
  | stop
deriving DecidableEq, Repr

/-- The set yielded in an event, if any. -/
def Event.yield? : Event α → Option (List α)
  | .layer _ set true => some set
  | .emptyPass => some []
  | _ => none

/-- The node added in an event, if any. -/
def Event.add? : Event α → Option α
  | .add n => some n
  | _ => none

namespace Sys

/-- scheduler.py:912-915, 923-924: `not esu.is_satisfied() and not seq.is_satisfied()`. -/
def continues (s : Sys α κ W) (a : RunArgs α κ W) : Sys α κ W × Except Err Bool :=
  match s.evalCond a.id a.esu with
  | (s', .error e) => (s', .error e)
  | (s', .ok true) => (s', .ok false)
  | (s', .ok false) => match s'.evalCond a.id a.seq with
    | (s'', .error e) => (s'', .error e)
    | (s'', .ok b) => (s'', .ok (!b))

/-- scheduler.py:978-984: the inner loop is left. -/
def endPass (s : Sys α κ W) (a : RunArgs α κ W) (abs changed : Bool) :
    Sys α κ W × PC α × Option (Event α) :=
  if !changed && !abs then
    match s.record a.id false [] with
    | (s', some e) => (s', .raised e, none)
    | (s', none) => (s', .yieldedEmpty, some .emptyPass)
  else match s.incrClock a.id .pass with
    | .error e => (s, .raised e, none)
    | .ok s' => (s', .outer, none)

/-- scheduler.py:964-976: the set is chosen. -/
def endChoice (s : Sys α κ W) (a : RunArgs α κ W) (abs : Bool) (c : Choice α) :
    Sys α κ W × PC α × Option (Event α) :=
  let changed' := c.changed || !c.exec.isEmpty
  if !c.exec.isEmpty || abs then
    match s.record a.id abs c.exec with
    | (s', some e) => (s', .raised e, none)
    | (s', none) => (s', .yielded c.idx changed', some (.layer c.idx c.exec true))
  else (s, .inner (c.idx + 1) changed', some (.layer c.idx c.exec false))

/-- scheduler.py:939-962: one round of the `for current_node` loop, or its end. -/
def choose (s : Sys α κ W) (a : RunArgs α κ W) (abs : Bool) (c : Choice α) :
    Sys α κ W × PC α × Option (Event α) :=
  match c.todo with
  | [] =>
    if c.again then (s, .choosing { c with todo := c.layer, again := false }, none)
    else s.endChoice a abs c
  | n :: ns =>
    if n ∈ c.exec then (s, .choosing { c with todo := ns }, none)
    else match s.considerNode a.id n with
      | (s', .error e) => (s', .raised e, none)
      | (s', .ok false) => (s', .choosing { c with todo := ns }, none)
      | (s', .ok true) =>
        (s', .choosing { c with todo := ns, exec := c.exec ++ [n], again := true }, some (.add n))

/-- scheduler.py:986-992: after the outer loop. (`date_last_run_end` is not modelled,
but the condition is evaluated.) -/
def finish (s : Sys α κ W) (a : RunArgs α κ W) : Sys α κ W × PC α × Option (Event α) :=
  match (if a.skip then .ok s else s.incrClock a.id .environment_state_update) with
  | .error e => (s, .raised e, some .stop)
  | .ok s' => match s'.evalCond a.id a.seq with
    | (s'', .error e) => (s'', .raised e, some .stop)
    | (s'', .ok _) => (s'', .returned, some .stop)

/-- One step of the generator (scheduler.py:912-992). -/
def step (s : Sys α κ W) (a : RunArgs α κ W) (abs : Bool) : PC α →
    Sys α κ W × PC α × Option (Event α)
  | .outer => match s.continues a with
    | (s', .error e) => (s', .raised e, none)
    | (s', .ok false) => s'.finish a
    | (s', .ok true) => match s'.resetTotal .pass a.id with
      | .error e => (s', .raised e, none)
      | .ok s'' => (s'', .inner 0 false, some .passStart)
  | .inner idx changed => match s.queue[idx]? with
    | none => s.endPass a abs changed
    | some layer => match s.continues a with
      | (s', .error e) => (s', .raised e, none)
      | (s', .ok false) => s'.endPass a abs changed
      | (s', .ok true) => (s', .choosing
          { idx := idx, changed := changed, layer := layer, exec := [], todo := layer,
            again := false }, some (.consider idx layer))
  | .choosing c => s.choose a abs c
  | .yielded idx changed => match s.incrClock a.id .consideration_set_execution with
    | .error e => (s, .raised e, none)
    | .ok s' => (s', .inner (idx + 1) changed, none)
  | .yieldedEmpty => match s.incrClock a.id .consideration_set_execution with
    | .error e => (s, .raised e, none)
    | .ok s' => match s'.incrClock a.id .pass with
      | .error e => (s', .raised e, none)
      | .ok s'' => (s'', .outer, none)
  | .returned => (s, .returned, none)
  | .raised e => (s, .raised e, none)

end Sys

/-- An entry of a run's history: the scheduler's state before and after the step, and
what happened. -/
structure Entry (α κ W : Type _) where
  before : Sys α κ W
  ev : Event α
  after : Sys α κ W

/-- The history of a run, oldest first. -/
abbrev History (α κ W : Type _) := List (Entry α κ W)

/-- The sets yielded, in order. -/
def History.yields (h : History α κ W) : List (List α) := h.filterMap fun p => p.ev.yield?

/-- The nodes selected, in order of selection. -/
def History.adds (h : History α κ W) : List α := h.filterMap fun p => p.ev.add?

/-- States reachable by a run with arguments `a` whose first `next()` happens in `s0`;
`E` is what may happen to the scheduler while the generator is suspended.  The `Bool`
says whether the run is in absolute-time mode. -/
inductive Reach (E : Sys α κ W → Sys α κ W → Prop) (a : RunArgs α κ W) (s0 : Sys α κ W) :
    Bool → History α κ W → Sys α κ W → PC α → Prop
  | start {s : Sys α κ W} {abs : Bool} : s0.start a = (s, .ok abs) → Reach E a s0 abs [] s .outer
  | step {abs : Bool} {h : History α κ W} {s s' : Sys α κ W} {pc pc' : PC α}
      {ev : Option (Event α)} :
      Reach E a s0 abs h s pc → s.step a abs pc = (s', pc', ev) →
      Reach E a s0 abs (h ++ ev.toList.map fun x => ⟨s, x, s'⟩) s' pc'
  | env {abs : Bool} {h : History α κ W} {s s' : Sys α κ W} {pc : PC α} :
      Reach E a s0 abs h s pc → pc.suspended → E s s' → Reach E a s0 abs h s' pc

end

end GS
