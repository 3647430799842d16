import Verif.Basic
/-!
# Model of `src/graph_scheduler/time.py`

`TimeScale`, `Time`, `TimeHistoryTree`, `Clock`.
-/

set_option linter.unusedSectionVars false

namespace GS

/-- time.py:56-90 `class TimeScale(enum.Enum)`. -/
inductive TimeScale where
  | consideration_set_execution | pass | environment_state_update
  | environment_sequence | life
deriving DecidableEq, Repr

namespace TimeScale

/-- time.py:86-90, the enum values. -/
def val : TimeScale → Nat
  | consideration_set_execution => 0
  | pass => 1
  | environment_state_update => 2
  | environment_sequence => 3
  | life => 4

/-- `TimeScale(value)`: enum lookup by value, `ValueError` for unknown values. -/
def ofVal : Nat → Except Err TimeScale
  | 0 => .ok consideration_set_execution
  | 1 => .ok pass
  | 2 => .ok environment_state_update
  | 3 => .ok environment_sequence
  | 4 => .ok life
  | _ => .error .valueError

/-- time.py:100-107 `get_parent`. -/
def parent (t : TimeScale) : Except Err TimeScale := ofVal (t.val + 1)

/-- time.py:109-116 `get_child` (`TimeScale(-1)` raises `ValueError`). -/
def child : TimeScale → Except Err TimeScale
  | consideration_set_execution => .error .valueError
  | t => ofVal (t.val - 1)

/-- Iteration order of the enum (definition order). -/
def all : List TimeScale :=
  [consideration_set_execution, pass, environment_state_update, environment_sequence, life]

theorem val_inj {a b : TimeScale} (h : a.val = b.val) : a = b := by
  cases a <;> cases b <;> first | rfl | (simp [val] at h)

theorem val_le (a : TimeScale) : a.val ≤ 4 := by cases a <;> decide

end TimeScale

/-- time.py:202-235 `class Time`.  The five integer attributes are one function;
absolute time is an exact rational number in a fixed unit (simplification: pint
quantities and floats are not modelled).  `absolute_time_unit_scale` is always
`CONSIDERATION_SET_EXECUTION` (time.py:258-266 ignores the constructor arguments). -/
structure Time where
  at_ : TimeScale → Nat
  absolute : Rat
  absolute_interval : Rat
  absolute_enabled : Bool

namespace Time

/-- time.py:236-267 `Time()` with the default values. -/
def zero : Time :=
  { at_ := fun _ => 0, absolute := 0, absolute_interval := 1, absolute_enabled := false }

/-- time.py:306-317 `_get_by_time_scale`. -/
def get (t : Time) (ts : TimeScale) : Nat := t.at_ ts

/-- time.py:319-328 `_set_by_time_scale`. -/
def set (t : Time) (ts : TimeScale) (v : Nat) : Time :=
  { t with at_ := fun s => if s = ts then v else t.at_ s }

/-- time.py:351-362 `_reset_by_time_scale`: all strictly finer scales to 0. -/
def reset (t : Time) (ts : TimeScale) : Time :=
  { t with at_ := fun s => if s.val < ts.val then 0 else t.at_ s }

/-- time.py:330-349 `_increment_by_time_scale`.  The rounding of float magnitudes
(time.py:342-349) is the identity on exact rationals. -/
def incr (t : Time) (ts : TimeScale) : Time :=
  let t1 := (t.set ts (t.get ts + 1)).reset ts
  if t1.absolute_enabled && ts = TimeScale.consideration_set_execution then
    { t1 with absolute := t1.absolute + t1.absolute_interval }
  else t1

end Time

/-- time.py:403-449 `class TimeHistoryTree`: `time_scale` (as its enum value),
`index`, `children`, `total_times`.  `parent` pointers are only used to find the
root, which is the tree itself in every call modelled here; `max_depth` is passed
as a parameter because it is the same in the whole tree. -/
inductive Tree where
  | node (scale : Nat) (index : Nat) (children : List Tree) (total : TimeScale → Nat)

namespace Tree

def scale : Tree → Nat | node s _ _ _ => s
def index : Tree → Nat | node _ i _ _ => i
def children : Tree → List Tree | node _ _ c _ => c
def total : Tree → TimeScale → Nat | node _ _ _ t => t

/-- time.py:450-481 `TimeHistoryTree.__init__` for a node whose scale has enum value
`n`: `get_child` raises for `CONSIDERATION_SET_EXECUTION` (value 0); one child is
created when the child scale is at least `max_depth`. -/
def new (maxDepth : TimeScale) : Nat → Nat → Except Err Tree
  | 0, _ => .error .valueError
  | k + 1, idx =>
    if maxDepth.val ≤ k then
      match new maxDepth k 0 with
      | .ok c => .ok (node (k + 1) idx [c] (fun _ => 0))
      | .error e => .error e
    else .ok (node (k + 1) idx [] (fun _ => 0))

/-- time.py:505 and 481: `self.total_times[time_scale] += 1`; the dict has keys for the
scales finer than the node's own, other keys raise `KeyError`. -/
def bump (scale : Nat) (total : TimeScale → Nat) (ts : TimeScale) :
    Except Err (TimeScale → Nat) :=
  if ts.val < scale then .ok (fun s => if s = ts then total s + 1 else total s)
  else .error .keyError

mutual
/-- time.py:483-505 `increment_time` (the part about the tree; the current time is
updated by `Clock.incr`). -/
def incr (maxDepth : TimeScale) (ts : TimeScale) : Tree → Except Err Tree
  | node sc idx ch tot =>
    if maxDepth.val ≤ sc - 1 then
      if ts.val = sc - 1 then
        match new maxDepth (sc - 1) ch.length with
        | .error e => .error e
        | .ok c =>
          match bump sc tot ts with
          | .ok tot' => .ok (node sc idx (ch ++ [c]) tot')
          | .error e => .error e
      else
        match incrLast maxDepth ts ch with
        | .error e => .error e
        | .ok ch' =>
          match bump sc tot ts with
          | .ok tot' => .ok (node sc idx ch' tot')
          | .error e => .error e
    else
      match bump sc tot ts with
      | .ok tot' => .ok (node sc idx ch tot')
      | .error e => .error e
/-- time.py:504 `self.children[-1].increment_time(time_scale)`. -/
def incrLast (maxDepth : TimeScale) (ts : TimeScale) : List Tree → Except Err (List Tree)
  | [] => .error .indexError
  | t :: rest =>
    match rest with
    | [] => match incr maxDepth ts t with
      | .ok t' => .ok [t']
      | .error e => .error e
    | r :: rs => match incrLast maxDepth ts (r :: rs) with
      | .ok rest' => .ok (t :: rest')
      | .error e => .error e
end

/-- time.py:554-566: `default_base_indices` updated with the argument.
`none` models both a missing key and the value `None` (the only default with a
value is `LIFE: 0`). -/
def baseIndices (given : TimeScale → Option Int) : TimeScale → Option Int :=
  fun ts => match given ts with
    | some i => some i
    | none => if ts = TimeScale.life then some 0 else none

/-- time.py:568-574: the finest scale with an index that is coarser than the query. -/
def baseScale (q : TimeScale) (idx : TimeScale → Option Int) : TimeScale :=
  -- sorted(base_indices, reverse=True): coarsest first, the last hit wins
  TimeScale.all.reverse.foldl
    (fun cur ts => if (idx ts).isSome && decide (q.val < ts.val) then ts else cur)
    TimeScale.life

/-- time.py:593-594: an unspecified index becomes `len(node.children) - 1`. -/
def pickIdx (g : Option Int) (len : Nat) : Int :=
  match g with
  | some i => i
  | none => (len : Int) - 1

/-- time.py:592-595: first walk from the root, filling unspecified indices with the
latest child.  Returns the filled index map.  `fuel` bounds the depth (the scale
drops by one in every step). -/
def fillWalk (base : TimeScale) :
    Nat → Tree → (TimeScale → Option Int) → Except Err (TimeScale → Option Int)
  | 0, _, idx => .ok idx
  | fuel + 1, t, idx =>
    if base.val < t.scale then
      match TimeScale.ofVal (t.scale - 1) with
      | .error e => .error e
      | .ok cs =>
        let i : Int := pickIdx (idx cs) t.children.length
        let idx' : TimeScale → Option Int := fun s => if s = cs then some i else idx s
        match pyIndex t.children i with
        | .error e => .error e
        | .ok c => fillWalk base fuel c idx'
    else .ok idx

/-- time.py:598-600: second walk, from `self`, along the filled indices. -/
def walk (base : TimeScale) :
    Nat → Tree → (TimeScale → Option Int) → Except Err Tree
  | 0, t, _ => .ok t
  | fuel + 1, t, idx =>
    if t.scale = base.val then .ok t
    else match TimeScale.ofVal (t.scale - 1) with
      | .error e => .error e
      | .ok cs => match idx cs with
        | none => .error .typeError           -- children[None]
        | some i => match pyIndex t.children i with
          | .error e => .error e
          | .ok c => walk base fuel c idx

/-- time.py:513-611 `get_total_times_relative`, called on a tree without parent (a
root).  `IndexError` is turned into `TimeScaleError` (time.py:602-611). -/
def getTotalTimesRelative (t : Tree) (q : TimeScale) (given : TimeScale → Option Int) :
    Except Err Nat :=
  if t.scale ≤ q.val then .error .timeScaleError
  else
    let idx := baseIndices given
    let base := baseScale q idx
    if t.scale < base.val then .error .timeScaleError
    else
      match fillWalk base t.scale t idx with
      | .error .indexError => .error .timeScaleError
      | .error e => .error e
      | .ok idx' => match walk base t.scale t idx' with
        | .error .indexError => .error .timeScaleError
        | .error e => .error e
        | .ok n => if q.val < n.scale then .ok (n.total q) else .error .keyError

end Tree

/-- time.py:119-199 `class Clock`: a root history tree (`max_depth` is the default
`ENVIRONMENT_STATE_UPDATE`) with its `current_time` and `previous_time`. -/
structure Clock where
  tree : Tree
  time : Time
  previous_time : Option Time

namespace Clock

/-- time.py:453 default `max_depth`. -/
def maxDepth : TimeScale := TimeScale.environment_state_update

/-- `TimeHistoryTree()` with the defaults: `LIFE` with one `ENVIRONMENT_SEQUENCE` child
with one `ENVIRONMENT_STATE_UPDATE` child (cf. `Clock.tree_new`). -/
def initTree : Tree :=
  .node 4 0 [.node 3 0 [.node 2 0 [] (fun _ => 0)] (fun _ => 0)] (fun _ => 0)

/-- time.py:132-134 `Clock.__init__`. -/
def new : Clock := { tree := initTree, time := Time.zero, previous_time := none }

/-- time.py:139-143 `_increment_time`, with the time part of `increment_time`
(time.py:506-511): `previous_time` is a copy of the current time, which is then
incremented.  A `KeyError` for `LIFE` leaves the clock unchanged. -/
def incr (c : Clock) (ts : TimeScale) : Except Err Clock :=
  match c.tree.incr maxDepth ts with
  | .error e => .error e
  | .ok t' => .ok { tree := t', time := c.time.incr ts, previous_time := some c.time }

/-- time.py:174-185 `get_time_by_time_scale`. -/
def getTimeByTimeScale (c : Clock) (ts : TimeScale) : Nat := c.time.get ts

/-- time.py:145-172 `get_total_times_relative(query, base, base_index=None)`. -/
def getTotalTimesRelative (c : Clock) (q base : TimeScale) (baseIndex : Option Int := none) :
    Except Err Nat :=
  let i : Int := match baseIndex with
    | some i => i
    | none => (c.getTimeByTimeScale base : Int)
  c.tree.getTotalTimesRelative q (fun s => if s = base then some i else none)

theorem tree_new : Tree.new maxDepth 4 0 = .ok initTree := by
  rfl

end Clock

end GS
