import Verif.Spec.Run
/-!
# Specification vocabulary for absolute time

Which times the conditions of a run mention, divisibility of times, and when the sets of
a run were yielded.
-/

set_option linter.unusedSectionVars false

namespace GS.Spec
variable {α κ W : Type _} [DecidableEq α] [DecidableEq κ]

/-- The conditions in force in a run: those of the nodes and the termination
conditions. -/
def InForce (s : Sys α κ W) (a : RunArgs α κ W) (c : Cond α κ W) : Prop :=
  (∃ n, (n, c) ∈ s.conds) ∨ c = a.seq ∨ c = a.esu ∨ c ∈ a.others

/-- The condition is, or combines by `All` and `Any`, a `TimeInterval(repeat=q)`. -/
inductive Repeats : Cond α κ W → Qty → Prop
  | leaf {o : Nat} {q : Qty} {st fi : Option Qty} {si ei : Bool} :
      Repeats (.leaf o (.timeInterval (some q) st fi si ei)) q
  | all {o : Nat} {args : List (Cond α κ W)} {c : Cond α κ W} {q : Qty} :
      c ∈ args → Repeats c q → Repeats (.all o args) q
  | any {o : Nat} {args : List (Cond α κ W)} {c : Cond α κ W} {q : Qty} :
      c ∈ args → Repeats c q → Repeats (.any o args) q

/-- The condition is, or combines by `All` and `Any`, one that mentions the time `q`
inclusively: a start, an end, or a termination time. -/
inductive MentionsTime : Cond α κ W → Qty → Prop
  | start {o : Nat} {q : Qty} {r fi : Option Qty} {ei : Bool} :
      MentionsTime (.leaf o (.timeInterval r (some q) fi true ei)) q
  | fin {o : Nat} {q : Qty} {r st : Option Qty} {si : Bool} :
      MentionsTime (.leaf o (.timeInterval r st (some q) si true)) q
  | term {o : Nat} {q : Qty} : MentionsTime (.leaf o (.timeTermination q true)) q
  | all {o : Nat} {args : List (Cond α κ W)} {c : Cond α κ W} {q : Qty} :
      c ∈ args → MentionsTime c q → MentionsTime (.all o args) q
  | any {o : Nat} {args : List (Cond α κ W)} {c : Cond α κ W} {q : Qty} :
      c ∈ args → MentionsTime c q → MentionsTime (.any o args) q

/-- `q` is a repeat interval used in the run. -/
def RepeatUsed (s : Sys α κ W) (a : RunArgs α κ W) (q : Qty) : Prop :=
  ∃ c, InForce s a c ∧ Repeats c q

/-- `q` is a start, end or termination time used (inclusively) in the run. -/
def TimeUsed (s : Sys α κ W) (a : RunArgs α κ W) (q : Qty) : Prop :=
  ∃ c, InForce s a c ∧ MentionsTime c q

/-- `x` is an integer multiple of `d`. -/
def Multiple (x d : Rat) : Prop := ∃ k : Int, x = k * d

/-- `g` is the greatest common divisor of the times satisfying `P`: all are integer
multiples of it, and it is a multiple of every other number with this property. -/
def IsGcd (P : Qty → Prop) (g : Rat) : Prop :=
  0 ≤ g ∧ (∀ q, P q → Multiple q.val g) ∧ ∀ d, (∀ q, P q → Multiple q.val d) → Multiple g d

/-- The position, set and absolute time of an entry that yields. -/
def timedSet? (id : Option κ) (e : Entry α κ W) : Option (Nat × List α × Rat) :=
  match e.ev with
  | .layer i set true => some (i, set, (e.before.clock id).time.absolute)
  | _ => none

/-- The sets yielded from the consideration queue, with their position in it and the
absolute time on the clock. -/
def timedSets (id : Option κ) (h : History α κ W) : List (Nat × List α × Rat) :=
  h.filterMap (timedSet? id)

/-- The absolute times at which sets with `n` were yielded. -/
def execTimes (id : Option κ) (n : α) (h : History α κ W) : List Rat :=
  (timedSets id h).filterMap fun y => if n ∈ y.2.1 then some y.2.2 else none

/-- Every pass that is over yielded from all `L` consideration sets. -/
def FullPasses (h : History α κ W) (L : Nat) : Prop :=
  ∀ p ∈ (passYields h).dropLast, p.length = L

end GS.Spec

namespace GS.Spec
variable {α κ W : Type _} [DecidableEq α] [DecidableEq κ]

/-- A condition that does not look at the numbers of passes and consideration set
executions (built-in conditions on absolute time, on calls of nodes, on finished nodes or
on their attributes). -/
def NoTicksLeaf : Leaf α κ W → Prop
  | .always | .never => True
  | .timeInterval .. | .timeTermination .. => True
  | .beforeNCalls .. | .atNCalls .. | .afterCall .. | .afterNCalls .. => True
  | .afterNCallsCombined .. | .everyNCalls .. | .justRan .. | .allHaveRun .. => True
  | .whenFinished .. | .whenFinishedAny .. | .whenFinishedAll .. | .threshold .. => True
  | _ => False

mutual
/-- Combinations of such conditions. -/
def NoTicks : Cond α κ W → Prop
  | .leaf _ k => NoTicksLeaf k
  | .all _ args => NoTicksAll args
  | .any _ args => NoTicksAll args
  | .not _ c => NoTicks c
  | _ => False
/-- All components are such conditions. -/
def NoTicksAll : List (Cond α κ W) → Prop
  | [] => True
  | c :: cs => NoTicks c ∧ NoTicksAll cs
end

end GS.Spec

namespace GS.Spec

/-- The time `x` is before the termination time `t`: a `TimeTermination(t)` with the given
`inclusive` argument does not yet hold. -/
def BeforeTime (t : Rat) (inclusive : Bool) (x : Rat) : Prop :=
  if inclusive = true then x < t else x ≤ t

/-- `t` is a time in the interval from `start` to `fin` (inclusive or not, as the flags say). -/
def Within (start fin : Option Qty) (startIncl endIncl : Bool) (t : Rat) : Prop :=
  (∀ b, start = some b → if startIncl = true then b.val ≤ t else b.val < t) ∧
  (∀ e, fin = some e → if endIncl = true then t ≤ e.val else t < e.val)

/-- `t` is a multiple of the repeat interval (if there is one) after `offset`. -/
def OnGrid (rep : Option Qty) (offset t : Rat) : Prop :=
  ∀ r, rep = some r → Multiple (t - offset) r.val

end GS.Spec
