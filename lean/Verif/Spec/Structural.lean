import Verif.Structural
import Verif.Spec.CondSet
/-!
# Structural conditions as an ordered composition
-/

namespace GS.Spec
variable {α κ W : Type _} [DecidableEq α] [DecidableEq κ]

/-- The graph `g` transformed by the conditions (with their owners), first to last; the
first exception if there is one. -/
def composed (g : Graph α) : List (α × SCond α) → Except Err (Graph α)
  | [] => .ok g
  | (n, c) :: es => match c.apply n g with
    | .ok g' => composed g' es
    | .error e => .error e

/-- Without the first occurrence of the object `o`. -/
def eraseFirst (o : OId) : List (α × SCond α) → List (α × SCond α)
  | [] => []
  | e :: es => if e.2.o = o then es else e :: eraseFirst o es

/-- The structural conditions among some entries. -/
def structEntries : Entries α κ W → List (α × SCond α)
  | [] => []
  | (_, .basic _) :: es => structEntries es
  | (n, .structural c) :: es => (n, c) :: structEntries es

/-- What a user can do with a scheduler's conditions and graph. -/
inductive SchedOp (α κ W : Type _) where
  | add (n : α) (c : AnyCond α κ W)
  | addSet (d : Dict α (List (AnyCond α κ W)))
  | remove (c : AnyCond α κ W)
  | removeOf (n : α)
  | graph
  | queue
  | indices

/-- The exception of a result, if any. -/
def raised {β : Type _} : Except Err β → Option Err
  | .ok _ => none
  | .error e => some e

/-- The call of the modelled method or property: new state and exception. -/
def SchedOp.call (s : Stack α κ W) : SchedOp α κ W → Stack α κ W × Option Err
  | .add n c => s.addCondition n c
  | .addSet d => s.addConditionSet d
  | .remove c => ((s.removeCondition c).1, raised (s.removeCondition c).2)
  | .removeOf n => ((s.removeConditionOf n).1, raised (s.removeConditionOf n).2)
  | .graph => (s.readGraph.1, raised s.readGraph.2)
  | .queue => (s.readQueue.1, raised s.readQueue.2)
  | .indices => (s.readIndices.1, raised s.readIndices.2)

/-- The structural conditions it adds. -/
def SchedOp.adds : SchedOp α κ W → List (α × SCond α)
  | .add n c => structEntries [(n, c)]
  | .addSet d => structEntries (listed d)
  | _ => []

/-- Its effect on the list of structural conditions present. -/
def SchedOp.effect (es : List (α × SCond α)) : SchedOp α κ W → List (α × SCond α)
  | .remove (.structural c) => eraseFirst c.o es
  | op => es ++ op.adds

/-- The structural conditions present after some operations, in order of addition. -/
def present (ops : List (SchedOp α κ W)) : List (α × SCond α) :=
  ops.foldl SchedOp.effect []

/-- Operations one after the other, none of which raises. -/
inductive Quiet : Stack α κ W → List (SchedOp α κ W) → Stack α κ W → Prop where
  | nil (s : Stack α κ W) : Quiet s [] s
  | cons {s s' t : Stack α κ W} {op : SchedOp α κ W} {ops : List (SchedOp α κ W)} :
      op.call s = (s', none) → Quiet s' ops t → Quiet s (op :: ops) t

/-- Every condition object is used for one owner only: two additions of the same object
are the same. -/
def OneOwner (adds : List (α × SCond α)) : Prop :=
  ∀ e ∈ adds, ∀ f ∈ adds, e.2.o = f.2.o → e = f

/-- The consideration queue for a graph: its layers, or all nodes in one set. -/
def queueFor (mode : Mode) (g : Graph α) : List (List α) :=
  match mode with
  | .standard => queueOf g
  | .exactTime => [Dict.keys g]

end GS.Spec
