import Verif.Warn
import Verif.Spec.Structural
/-!
# Specification vocabulary for warnings
-/

set_option linter.unusedSectionVars false

namespace GS.Spec
variable {α κ W : Type _} [DecidableEq α] [DecidableEq κ]

/-- What a user can do with a `ConditionSet`. -/
inductive CondOp (α κ W : Type _) where
  | add (n : α) (c : AnyCond α κ W)
  | addSet (d : Dict α (List (AnyCond α κ W)))
  | setItem (n : α) (c : AnyCond α κ W)
  | remove (c : AnyCond α κ W)
  | removeOf (n : α)

/-- The call: new state, exception and warnings. -/
def CondOp.call (s : CSet α κ W) : CondOp α κ W → (CSet α κ W × Option Err) × List (Warning α)
  | .add n c => s.addW n c
  | .addSet d => s.addSetW d
  | .setItem n c => s.setItemW n c
  | .remove c => (((s.removeCondW c).1.1, raised (s.removeCondW c).1.2), (s.removeCondW c).2)
  | .removeOf n => (((s.removeOwnerW n).1.1, raised (s.removeOwnerW n).1.2), (s.removeOwnerW n).2)

/-- Calls one after the other, whether they raise or not, and all warnings they give. -/
inductive Told : CSet α κ W → List (CondOp α κ W) → List (Warning α) → CSet α κ W → Prop where
  | nil (s : CSet α κ W) : Told s [] [] s
  | cons {s s' t : CSet α κ W} {op : CondOp α κ W} {ops : List (CondOp α κ W)} {e : Option Err}
      {ws ws' : List (Warning α)} :
      op.call s = ((s', e), ws) → Told s' ops ws' t → Told s (op :: ops) (ws ++ ws') t

/-- The nodes a condition of a built-in class names. -/
def namedNodes : Leaf α κ W → List α
  | .beforeNCalls d _ _ | .atNCalls d _ _ | .afterCall d _ _ | .afterNCalls d _ _
  | .everyNCalls d _ | .justRan d | .whenFinished d | .threshold d _ _ _ _ _ _ _ => [d]
  | .afterNCallsCombined ds _ _ | .allHaveRun ds _ | .whenFinishedAny ds | .whenFinishedAll ds => ds
  | _ => []

mutual
/-- A part of the condition, namely `o`, names the node `n`. -/
def Names (n : α) (o : OId) : Cond α κ W → Prop
  | .leaf o' k => o' = o ∧ n ∈ namedNodes k
  | .whileNot _ _ => False
  | .all _ cs => NamesAny n o cs
  | .any _ cs => NamesAny n o cs
  | .not _ c => Names n o c
  | .nwhen _ c _ => Names n o c
/-- The same for one of the conditions. -/
def NamesAny (n : α) (o : OId) : List (Cond α κ W) → Prop
  | [] => False
  | c :: cs => Names n o c ∨ NamesAny n o cs
end

mutual
/-- The same, and the part is of a class that has one dependency, and not a `Threshold`. -/
def NamesOnly (n : α) (o : OId) : Cond α κ W → Prop
  | .leaf _ (.threshold _ _ _ _ _ _ _ _) => False
  | .leaf o' k => o' = o ∧ namedNodes k = [n]
  | .whileNot _ _ => False
  | .all _ cs => NamesOnlyAny n o cs
  | .any _ cs => NamesOnlyAny n o cs
  | .not _ c => NamesOnly n o c
  | .nwhen _ c _ => NamesOnly n o c
/-- The same for one of the conditions. -/
def NamesOnlyAny (n : α) (o : OId) : List (Cond α κ W) → Prop
  | [] => False
  | c :: cs => NamesOnly n o c ∨ NamesOnlyAny n o cs
end

mutual
/-- The identities of the objects a condition is made of. -/
def objects : Cond α κ W → List OId
  | .leaf o _ | .whileNot o _ => [o]
  | .all o cs | .any o cs => o :: objectsOf cs
  | .not o c => o :: objects c
  | .nwhen o c _ => o :: objects c
/-- The same for a list. -/
def objectsOf : List (Cond α κ W) → List OId
  | [] => []
  | c :: cs => objects c ++ objectsOf cs
end

/-- The call of a method or property of a scheduler: new state, exception and warnings. -/
def SchedOp.callW (sw : OId → α → Graph α → List (Warning α)) (s : Stack α κ W) :
    SchedOp α κ W → (Stack α κ W × Option Err) × List (Warning α)
  | .add n c => s.addConditionW sw n c
  | .addSet d => s.addConditionSetW sw d
  | .remove c =>
    (((s.removeConditionW c).1.1, raised (s.removeConditionW c).1.2), (s.removeConditionW c).2)
  | .removeOf n =>
    (((s.removeConditionOfW n).1.1, raised (s.removeConditionOfW n).1.2), (s.removeConditionOfW n).2)
  | .graph => (((s.readGraphW sw).1.1, raised (s.readGraphW sw).1.2), (s.readGraphW sw).2)
  | .queue => (((s.readQueueW sw).1.1, raised (s.readQueueW sw).1.2), (s.readQueueW sw).2)
  | .indices => (((s.readIndicesW sw).1.1, raised (s.readIndicesW sw).1.2), (s.readIndicesW sw).2)

/-- Operations one after the other, whether they raise or not, and all warnings they give. -/
inductive Announced (sw : OId → α → Graph α → List (Warning α)) :
    Stack α κ W → List (SchedOp α κ W) → List (Warning α) → Stack α κ W → Prop where
  | nil (s : Stack α κ W) : Announced sw s [] [] s
  | cons {s s' t : Stack α κ W} {op : SchedOp α κ W} {ops : List (SchedOp α κ W)} {e : Option Err}
      {ws ws' : List (Warning α)} :
      op.callW sw s = ((s', e), ws) → Announced sw s' ops ws' t →
        Announced sw s (op :: ops) (ws ++ ws') t

end GS.Spec
