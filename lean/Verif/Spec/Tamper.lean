import Verif.Spec.Restate
import Verif.Scheduler
/-!
# Specification vocabulary: what was recorded about earlier executions is changed

The sets `run` yields are the very objects kept in `execution_list`, so a caller that
modifies a yielded set changes `execution_list`.
-/

set_option linter.unusedSectionVars false

namespace GS.Spec
variable {α κ W : Type _} [DecidableEq α] [DecidableEq κ]

/-- `t` is `s`, but with other sets and times in `execution_list` and
`execution_timestamps`.  (There are lists for the same execution ids.) -/
structure SameButRecords (s t : Sys α κ W) : Prop where
  lists : ∀ id, (Dict.get? t.execList id).isSome = (Dict.get? s.execList id).isSome
  times : ∀ id, (Dict.get? t.timestamps id).isSome = (Dict.get? s.timestamps id).isSome
  rest : t = { s with execList := t.execList, timestamps := t.timestamps }

/-- A user function that does not look at `execution_list` and `execution_timestamps`. -/
def ForgetfulFn (f : View α κ W → Option κ → Option α → Except Err Bool) : Prop :=
  ∀ (v : View α κ W) l ts (id : Option κ) (o : Option α),
    f { v with execList := l, timestamps := ts } id o = f v id o

mutual
/-- The condition contains no `JustRan`, and no user function in it looks at
`execution_list` or `execution_timestamps`. -/
def Forgetful : Cond α κ W → Prop
  | .leaf _ (.func f) => ForgetfulFn f
  | .leaf _ (.justRan _) => False
  | .leaf _ _ => True
  | .whileNot _ f => ForgetfulFn f
  | .all _ cs => ForgetfulAll cs
  | .any _ cs => ForgetfulAll cs
  | .not _ c => Forgetful c
  | .nwhen _ c _ => Forgetful c
/-- All of them are such. -/
def ForgetfulAll : List (Cond α κ W) → Prop
  | [] => True
  | c :: cs => Forgetful c ∧ ForgetfulAll cs
end

/-- The conditions given to nodes and the termination conditions of the run are such. -/
def AllForgetful (a : RunArgs α κ W) (s : Sys α κ W) : Prop :=
  (∀ n c, Dict.get? s.conds n = some c → Forgetful c) ∧ Forgetful a.esu ∧ Forgetful a.seq

/-- While the generator is suspended, the outside world may change, and the caller may
change recorded sets and times in any way. -/
def Tampers (s s' : Sys α κ W) : Prop :=
  ∃ x, SameButRecords { s with world := x } s'

/-- While the generator is suspended, only the outside world changes. -/
def HandsOff (s s' : Sys α κ W) : Prop := ∃ x, s' = { s with world := x }

/-- Two moments of two runs: the same happened, in states that differ in the recorded
sets and times only. -/
structure SameMoment (x y : Entry α κ W) : Prop where
  ev : y.ev = x.ev
  before : SameButRecords x.before y.before
  after : SameButRecords x.after y.after

end GS.Spec
