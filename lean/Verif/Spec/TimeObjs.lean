import Verif.TimeObjs
/-!
# Specification vocabulary for times as objects

`TimeValues` is a program without objects: clocks and recorded times are values, and an
operation changes nothing but the clock it is about.
-/

namespace GS.Spec

/-- Clocks and recorded times, as values. -/
structure TimeValues where
  clocks : List Clock
  stamps : List Time

namespace TimeValues

/-- One operation on values. -/
def step (v : TimeValues) : TimeOp → TimeValues
  | .create => ⟨v.clocks ++ [Clock.new], v.stamps⟩
  | .copy i => match v.clocks[i]? with
    | some c => ⟨v.clocks ++ [c], v.stamps⟩
    | none => v
  | .incr i ts => match v.clocks[i]? with
    | some c => match c.incr ts with
      | .ok c' => ⟨v.clocks.set i c', v.stamps⟩
      | .error _ => v
    | none => v
  | .touch i f => match v.clocks[i]? with
    | some c => ⟨v.clocks.set i { c with time := f c.time }, v.stamps⟩
    | none => v
  | .stamp i => match v.clocks[i]? with
    | some c => ⟨v.clocks, v.stamps ++ [c.time]⟩
    | none => v

/-- A history of operations. -/
def after (v : TimeValues) (ops : List TimeOp) : TimeValues := ops.foldl step v

end TimeValues

/-- What a user sees of a clock: its history, `time` and `previous_time`. -/
def seen (o : TimeObjs) (c : ClockRef) : Clock :=
  ⟨c.tree, o.read c.cur, c.prev.map o.read⟩

/-- What a user sees of all clocks and of all recorded times. -/
def allSeen (o : TimeObjs) : TimeValues := ⟨o.clocks.map (seen o), o.stamps.map o.read⟩

end GS.Spec
