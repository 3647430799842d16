import Verif.Condition
/-!
# Constructors of conditions: `Threshold(...)` and the conditions named after the start of
a unit of time (condition.py:2335-2545)
-/

set_option linter.unusedSectionVars false

namespace GS
variable {α κ W : Type _} [DecidableEq α] [DecidableEq κ]

/-- condition.py:441-448: the comparator with the given name, if there is one. -/
def comparatorOf : String → Option Comparator
  | "<" => some .lt
  | "<=" => some .le
  | ">" => some .gt
  | ">=" => some .ge
  | "==" => some .eq
  | "!=" => some .ne
  | _ => none

/-- The argument `indices` of `Threshold`.  Simplification: an iterable can be iterated
over again (a list or tuple; not a one-shot iterator, which the first evaluation would
use up). -/
inductive IndicesArg where
  | none
  | timeScale (ts : TimeScale)
  | single (i : Int)
  | many (l : List Idx)

/-- condition.py:2497-2500. -/
def normIndices : IndicesArg → Option (List Idx)
  | .none => Option.none
  | .timeScale ts => some [.int ts.val]
  | .single i => some [.int i]
  | .many l => some l

/-- condition.py:2540-2545 `validate_parameter`: a custom validator (which may raise
anything) or `hasattr`, which is false iff reading the attribute raises `AttributeError`,
and raises what reading the attribute raises otherwise. -/
def validateParameter (w : World α κ W) (d : α) (p : Nat) :
    Option (α → Nat → Except Err Unit) → Except Err Unit
  | some f => f d p
  | none => match w.attr d p with
    | .ok _ => .ok ()
    | .error .attributeError => .error .conditionError
    | .error e => .error e

/-- condition.py:2477-2527 `Threshold.__init__`; `o` is the identity of the new object.
The warning is in `newThresholdWarns`. -/
def newThreshold (w : World α κ W) (o : OId) (d : α) (p : Nat) (thr : Rat) (cmp : String)
    (indices : IndicesArg) (atol rtol : Rat) (getter : Option Nat)
    (validator : Option (α → Nat → Except Err Unit)) : Except Err (Cond α κ W) :=
  match validateParameter w d p validator with
  | .error e => .error e
  | .ok () => match comparatorOf cmp with
    | none => .error .conditionError
    | some c => .ok (.leaf o (.threshold d p thr c (normIndices indices) atol rtol getter))

/-- condition.py:2489-2495: whether `Threshold.__init__` gives the warning `Tolerances for
inequality comparators are ignored`. -/
def newThresholdWarns (w : World α κ W) (d : α) (p : Nat) (cmp : String) (atol rtol : Rat)
    (validator : Option (α → Nat → Except Err Unit)) : Bool :=
  match validateParameter w d p validator with
  | .error _ => false
  | .ok () => match comparatorOf cmp with
    | none => false
    | some c => (atol != 0 || rtol != 0) && match c with
      | .lt | .le | .gt | .ge => true
      | .eq | .ne => false

/-- condition.py:2342-2357 `AtEnvironmentStateUpdateStart()`, a subclass of `AtPass`. -/
def atEnvironmentStateUpdateStart (o : OId) : Cond α κ W :=
  .leaf o (.atPass 0 .environment_state_update)

/-- condition.py:2360-2380 `AtEnvironmentStateUpdateNStart(n, time_scale)`, a subclass of
`All`; `o1`, `o2` are the identities of the components it creates. -/
def atEnvironmentStateUpdateNStart (o o1 o2 : OId) (n : Int)
    (ts : TimeScale := .environment_sequence) : Cond α κ W :=
  .all o [.leaf o1 (.atPass 0 .environment_state_update),
    .leaf o2 (.atEnvironmentStateUpdate n ts)]

/-- condition.py:2383-2398 `AtEnvironmentSequenceStart()`, a subclass of
`AtEnvironmentStateUpdate`. -/
def atEnvironmentSequenceStart (o : OId) : Cond α κ W :=
  .leaf o (.atEnvironmentStateUpdate 0 .environment_sequence)

/-- condition.py:2401-2418 `AtEnvironmentSequenceNStart(n)`, a subclass of `All`. -/
def atEnvironmentSequenceNStart (o o1 o2 : OId) (n : Int) : Cond α κ W :=
  .all o [.leaf o1 (.atEnvironmentStateUpdate 0 .environment_sequence),
    .leaf o2 (.atEnvironmentSequence n)]

end GS
