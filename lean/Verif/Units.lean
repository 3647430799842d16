import Verif.Scheduler
/-!
# Durations as they are written: numbers, texts and pint quantities
(condition.py:433-510, the constructors of `TimeInterval` and `TimeTermination`, and the
conversion of units in scheduler.py:1008-1032)

A unit of time is represented by its length in some fixed unit, a positive rational
number.  Simplification: magnitudes are exact (rational numbers, not floats).
-/

set_option linter.unusedSectionVars false

namespace GS

/-- A pint quantity of time: magnitude and (length of the) unit. -/
structure TimeQty where
  m : Rat
  u : Rat
deriving DecidableEq, Repr

/-- The duration of a quantity. -/
def TimeQty.val (q : TimeQty) : Rat := q.m * q.u

/-- `q.to(u)` of pint. -/
def TimeQty.to (q : TimeQty) (u : Rat) : TimeQty := ⟨q.val / u, u⟩

/-- What pint makes of a text: it has an unknown unit; it has no unit (then `int(n)` or
`float(n)` may still fail: `none`); it is a time; it is a quantity of something else. -/
inductive PintText where
  | undefined
  | number (r : Option Rat)
  | quantity (q : TimeQty)
  | otherDimension

/-- The parts of pint's unit registry that are used: condition.py:433-439
`_pint_all_time_units` (sorted, largest first), `_unit_registry.Quantity(text)` and
`getattr(_unit_registry, name)`. -/
structure Registry where
  units : List Rat
  parse : String → PintText
  named : String → Option Rat

/-- An argument for a duration: a number, a text or a quantity. -/
inductive DurArg where
  | num (r : Rat)
  | text (s : String)
  | qty (q : TimeQty)

/-- An argument for a unit: a pint unit or its name. -/
inductive UnitArg where
  | unit (u : Rat)
  | name (s : String)

/-- Rounding to an integer, halves to even: Python's `round(x)`. -/
def roundEven (x : Rat) : Int :=
  if x - x.floor < 1 / 2 then x.floor
  else if 1 / 2 < x - x.floor then x.floor + 1
  else if x.floor % 2 = 0 then x.floor else x.floor + 1

/-- `round(x, _unit_registry.precision)`, with the precision of `__init__.py:19`. -/
def round8 (x : Rat) : Rat := (roundEven (x * 10 ^ 8) : Rat) / 10 ^ 8

/-- condition.py:456-461 `_quantity_as_integer`; `none` for `ValueError`. -/
def quantityAsInteger (q : TimeQty) : Option TimeQty :=
  if (round8 q.m).den = 1 then some ⟨(round8 q.m).num, q.u⟩ else none

/-- condition.py:464-472 `_reduce_quantity_to_integer`. -/
def reduceToInteger (units : List Rat) (q : TimeQty) : TimeQty :=
  ((units.filter fun u => u ≤ q.u).findSome? fun u => quantityAsInteger (q.to u)).getD q

/-- condition.py:496-499 `getattr(_unit_registry, unit)`: a `TypeError` means that it is a
unit already.  Simplification: an unknown name raises `AttributeError` (pint's
`UndefinedUnitError` is a subclass of it). -/
def unitOf (reg : Registry) : UnitArg → Except Err Rat
  | .unit u => .ok u
  | .name s => match reg.named s with
    | some u => .ok u
    | none => .error .attributeError

/-- condition.py:502 `n * unit`. -/
def timesUnit (reg : Registry) (r : Rat) (unit : UnitArg) : Except Err TimeQty :=
  match unitOf reg unit with
  | .ok u => .ok ⟨r, u⟩
  | .error e => .error e

/-- condition.py:476-504 `_get_quantity`.  A text with an unknown unit stays a text, with
which pint cannot calculate (`TypeError`); a quantity of something else cannot be compared
with a unit of time (condition.py:466; pint's `DimensionalityError` is a `TypeError`). -/
def getQuantity (reg : Registry) (unit : UnitArg) : DurArg → Except Err TimeQty
  | .qty q => .ok q
  | .num r => timesUnit reg r unit
  | .text s => match reg.parse s with
    | .quantity q => .ok q
    | .number (some r) => timesUnit reg r unit
    | .number none => .error .valueError
    | .undefined => .error .typeError
    | .otherDimension => .error .typeError

/-- condition.py:475-510 `_parse_absolute_unit(n, unit)`. -/
def parseAbsoluteUnit (reg : Registry) (n : Option DurArg) (unit : UnitArg) :
    Except Err (Option TimeQty) :=
  match n with
  | none => .ok none
  | some n => match getQuantity reg unit n with
    | .ok q => .ok (some (reduceToInteger reg.units q))
    | .error e => .error e

/-- `a > b` for two arguments (condition.py:1371): numbers as numbers, texts
lexicographically by code points, quantities as pint does.  Simplification: every
comparison of arguments of different kinds raises `TypeError` (pint's exception is a
different one, and pint allows comparing with the number 0). -/
def DurArg.gt : DurArg → DurArg → Except Err Bool
  | .num a, .num b => .ok (decide (b < a))
  | .text a, .text b => .ok (decide (b < a))
  | .qty a, .qty b => .ok (decide (b.val < a.val))
  | _, _ => .error .typeError

/-- condition.py:1371-1372: whether the constructor of `TimeInterval` objects to the
order of `start` and `end`. -/
def startLater : Option DurArg → Option DurArg → Except Err Bool
  | some a, some b => a.gt b
  | _, _ => .ok false

/-- The arguments `repeat`, `start` and `end` of a `TimeInterval` after parsing. -/
structure IntervalTimes where
  rep : Option TimeQty
  start : Option TimeQty
  fin : Option TimeQty
deriving DecidableEq

/-- condition.py:1357-1376, the beginning of `TimeInterval.__init__`. -/
def newTimeInterval (reg : Registry) (rep start fin : Option DurArg) (unit : UnitArg) :
    Except Err IntervalTimes :=
  if rep.isNone && start.isNone && fin.isNone then .error .conditionError
  else match startLater start fin with
    | .error e => .error e
    | .ok true => .error .conditionError
    | .ok false =>
      match parseAbsoluteUnit reg rep unit with
      | .error e => .error e
      | .ok r => match parseAbsoluteUnit reg start unit with
        | .error e => .error e
        | .ok s => match parseAbsoluteUnit reg fin unit with
          | .error e => .error e
          | .ok f => .ok ⟨r, s, f⟩

/-! ## The interval between consideration sets, for any units -/

/-- The quantities of `Verif/Condition.lean` (whole multiples of powers of ten of the
finest unit) among all quantities. -/
def Qty.toTime (q : Qty) : TimeQty := ⟨q.m, 10 ^ q.e⟩

/-- scheduler.py:1013 `min(intervals, key=lambda x: x.u).u`. -/
def minUnit : List TimeQty → Rat
  | [] => 1
  | [q] => q.u
  | q :: qs => min q.u (minUnit qs)

/-- The number of decimal digits of `n`, minus one (with enough fuel). -/
def log10Floor : Nat → Nat → Nat
  | 0, _ => 0
  | fuel + 1, n => if n < 10 then 0 else log10Floor fuel (n / 10) + 1

/-- scheduler.py:1017 `round(np.log10(x))` for `x ≥ 1`: the `k` with
`10 ^ (2 k - 1) ≤ x² < 10 ^ (2 k + 1)`. -/
def roundLog10 (x : Rat) : Nat :=
  (log10Floor (x * x).floor.toNat (x * x).floor.toNat + 1) / 2

/-- scheduler.py:1017-1018: a magnitude in the unit `umin`; `int(a.m)` cuts off. -/
def inMinUnit (umin : Rat) (q : TimeQty) : Int :=
  q.m.num.tdiv q.m.den * 10 ^ roundLog10 (q.u / umin)

/-- scheduler.py:1022 `np.gcd.reduce`. -/
def gcdOf (umin : Rat) (qs : List TimeQty) : Nat :=
  qs.foldl (fun g q => Nat.gcd g (inMinUnit umin q).natAbs) 0

/-- scheduler.py:1013-1022: the greatest common divisor of the intervals, in the fixed
unit. -/
def commonInterval (qs : List TimeQty) : Rat :=
  (gcdOf (minUnit qs) qs : Rat) * minUnit qs

end GS
