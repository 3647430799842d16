import Verif.Units
/-!
# The rounding of absolute times

`Verif/Scheduler.lean` and `Verif/Condition.lean` calculate with exact times.  The code rounds
magnitudes to eight decimal places in two places; here they are as they are in the code.
(The third place, time.py:342-349, rounds floats only.  If the magnitude of the clock at
the start of a run is an integer, it stays an integer or a fraction: scheduler.py:1028-1032.)
-/

set_option linter.unusedSectionVars false

namespace GS
variable {α κ W : Type _} [DecidableEq α] [DecidableEq κ]

/-- scheduler.py:1013, 1030-1032: the unit in which the interval between consideration sets is
given: the smallest unit of the intervals.  Simplification: the magnitude of the default unit
(scheduler.py:1010-1011) is taken to be 1. -/
def Sys.clockUnit (s : Sys α κ W) (cs : List (Cond α κ W)) : Rat :=
  let intervals := cs.flatMap fun c =>
    c.intervals ++ (if s.mode = Mode.exactTime then c.fixedPoints else [])
  if intervals = [] then s.defaultUnit else (10 : Rat) ^ Sys.minExp intervals

/-- scheduler.py:898-904: the time on the clock is converted to the unit `u` of the interval,
and its magnitude is rounded if that makes it an integer.  Simplification: floats are exact. -/
def startRounded (abs u : Rat) : Rat :=
  match quantityAsInteger ((⟨abs, 1⟩ : TimeQty).to u) with
  | some q => q.val
  | none => abs

/-- condition.py:1389-1393: the `repeat` part of `TimeInterval`; `u` is the unit of the
clock, in which pint calculates the remainder. -/
def repeatRounded (u abs : Rat) (offset : Option Rat) : Option Qty → Except Err Bool
  | none => .ok true
  | some r => match offset with
    | none => .error .unboundLocalError
    | some off => if r.val = 0 then .error .zeroDivisionError
                  else .ok (decide (round8 (ratMod ((abs - off) / u) (r.val / u)) = 0))

/-- condition.py:1378-1407 `TimeInterval`'s `func`, with the rounding. -/
def timeIntervalRounded (u : Rat) (v : View α κ W) (id : Option κ) (owner : Option α)
    (rep start fin : Option Qty) (startIncl endIncl : Bool) : Except Err Bool :=
  let t := (v.clock id).time
  let offset : Option Rat := match start with
    | some s => if v.inExactTimeMode then some s.val
                else layerOffset owner t.absolute_interval v.queue
    | none => layerOffset owner t.absolute_interval v.queue
  match repeatRounded u t.absolute offset rep with
  | .error e => .error e
  | .ok r =>
    let okStart : Bool := match start with
      | none => true
      | some s => if startIncl then decide (s.val ≤ t.absolute) else decide (s.val < t.absolute)
    let okEnd : Bool := match fin with
      | none => true
      | some e => if endIncl then decide (t.absolute ≤ e.val) else decide (t.absolute < e.val)
    .ok (r && okStart && okEnd)

end GS
