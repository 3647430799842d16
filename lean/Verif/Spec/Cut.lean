import Verif.Spec.Order
import Verif.Spec.Share
/-!
# Specification vocabulary: what termination conditions do to a schedule
-/

set_option linter.unusedSectionVars false

namespace GS.Spec
variable {α κ W : Type _} [DecidableEq α] [DecidableEq κ]

/-- Both termination conditions of the run, asked one after the other, are not
satisfied. -/
def Unsatisfied (s : Sys α κ W) (a : RunArgs α κ W) : Prop :=
  ∃ st1 st2, eval s.toView a.id a.esu s.store = (.ok false, st1) ∧
    eval s.toView a.id a.seq st1 = (.ok false, st2)

/-- If the run is at a point where it asks its termination conditions (before a pass, and
before a consideration set), they are not satisfied. -/
def GoesOn (a : RunArgs α κ W) (s : Sys α κ W) : PC α → Prop
  | .outer => Unsatisfied s a
  | .inner i _ => i < s.queue.length → Unsatisfied s a
  | _ => True

/-- `n` steps of a run with the consumer `w`, in which termination conditions have not been
satisfied so far. -/
inductive Unended (w : List (List α) → World α κ W) (a : RunArgs α κ W) (s0 : Sys α κ W)
    (abs : Bool) : Nat → History α κ W → Sys α κ W → PC α → Prop
  | start {s : Sys α κ W} : s0.start a = (s, .ok abs) → Unended w a s0 abs 0 [] s .outer
  | step {n : Nat} {h : History α κ W} {s s' : Sys α κ W} {pc pc' : PC α} {ev : Option (Event α)} :
      Unended w a s0 abs n h s pc → GoesOn a (resumed w (yields h) s pc) pc →
      (resumed w (yields h) s pc).step a abs pc = (s', pc', ev) →
      Unended w a s0 abs (n + 1)
        (h ++ ev.toList.map fun x => ⟨resumed w (yields h) s pc, x, s'⟩) s' pc'

/-- No termination condition is about absolute time. -/
def NoAbsoluteEnd (a : RunArgs α κ W) : Prop :=
  a.esu.isAbsolute = false ∧ a.seq.isAbsolute = false ∧ ∀ c ∈ a.others, c.isAbsolute = false

/-- The arguments of two runs differ at most in termination conditions, which are not about
absolute time. -/
structure SameButEnd (a a' : RunArgs α κ W) : Prop where
  id : a'.id = a.id
  base : a'.base = a.base
  skip : a'.skip = a.skip
  plain : NoAbsoluteEnd a
  plain' : NoAbsoluteEnd a'

/-- The termination conditions have no object in common with the conditions of nodes. -/
def EndApart (s : Sys α κ W) (a : RunArgs α κ W) : Prop :=
  ∀ n c, Dict.get? s.conds n = some c → Apart c a.esu ∧ Apart c a.seq

/-- The same run with termination conditions `Never()`. -/
def unending (a : RunArgs α κ W) : RunArgs α κ W :=
  { a with esu := .leaf 0 .never, seq := .leaf 0 .never, others := [] }

/-- A time scale coarser than passes. -/
def Coarse (ts : TimeScale) : Prop := TimeScale.pass.val < ts.val

/-- Built-in conditions that do not change between passes: about calls (counted over a
coarse time scale), the last set, finished nodes or attributes of nodes. -/
def SettledLeaf : Leaf α κ W → Prop
  | .always | .never => True
  | .beforeNCalls _ _ ts | .atNCalls _ _ ts | .afterCall _ _ ts | .afterNCalls _ _ ts => Coarse ts
  | .afterNCallsCombined _ _ ts | .allHaveRun _ ts => Coarse ts
  | .justRan _ | .whenFinished _ | .whenFinishedAny _ | .whenFinishedAll _ => True
  | .threshold .. => True
  | _ => False

/-- `After...` conditions about the number of units of time. -/
def PastLeaf : Leaf α κ W → Prop
  | .afterPass _ ts | .afterNPasses _ ts => Coarse ts
  | .afterConsiderationSetExecution _ ts | .afterNConsiderationSetExecutions _ ts => Coarse ts
  | .afterEnvironmentStateUpdate _ ts | .afterNEnvironmentStateUpdates _ ts =>
    TimeScale.environment_state_update.val < ts.val
  | .afterEnvironmentSequence _ | .afterNEnvironmentSequences _ => True
  | _ => False

mutual
/-- Combinations of `SettledLeaf`. -/
def Settled : Cond α κ W → Prop
  | .leaf _ k => SettledLeaf k
  | .all _ args => SettledAll args
  | .any _ args => SettledAll args
  | .not _ c => Settled c
  | _ => False
/-- All components are. -/
def SettledAll : List (Cond α κ W) → Prop
  | [] => True
  | c :: cs => Settled c ∧ SettledAll cs
end

mutual
/-- A termination condition that, once satisfied, is not unsatisfied by the end of the pass:
combinations of `SettledLeaf` and `PastLeaf`, the latter not below `Not`. -/
def Lasting : Cond α κ W → Prop
  | .leaf _ k => SettledLeaf k ∨ PastLeaf k
  | .all _ args => LastingAll args
  | .any _ args => LastingAll args
  | .not _ c => Settled c
  | _ => False
/-- All components are. -/
def LastingAll : List (Cond α κ W) → Prop
  | [] => True
  | c :: cs => Lasting c ∧ LastingAll cs
end

end GS.Spec
