import Verif.Spec.Rename
import Verif.Spec.Life
import Verif.Spec.Order
/-!
# Specification vocabulary: giving execution ids other names

`None` is an execution id like any other, so that a renaming may exchange it too.
-/

set_option linter.unusedSectionVars false

namespace GS.Spec
variable {α κ μ W γ : Type _}

/-- A renaming of execution ids. -/
abbrev IdRenaming (κ μ : Type _) := Renaming (Option κ) (Option μ)

/-- The same entries, under the new ids. -/
def reidDict (r : IdRenaming κ μ) (d : Dict (Option κ) γ) : Dict (Option μ) γ :=
  d.map fun p => (r.to p.1, p.2)

/-- The same outside world, which is told the new ids. -/
def reidWorld (r : IdRenaming κ μ) (w : World α κ W) : World α μ W where
  finished := fun n i => w.finished n (r.back i)
  attr := w.attr
  getter := fun g n p i => w.getter g n p (r.back i)
  ext := w.ext

/-- The same state of a scheduler, as far as it can be seen. -/
def reidView (r : IdRenaming κ μ) (v : View α κ W) : View α μ W where
  nodes := v.nodes
  mode := v.mode
  graph := v.graph
  queue := v.queue
  countsTotal := reidDict r v.countsTotal
  countsUseable := reidDict r v.countsUseable
  execList := reidDict r v.execList
  timestamps := reidDict r v.timestamps
  clocks := reidDict r v.clocks
  world := reidWorld r v.world

/-- A user function that does with the new ids what `f` does with the old ones. -/
def reidFunc (r : IdRenaming κ μ) (f : View α κ W → Option κ → Option α → Except Err Bool) :
    View α μ W → Option μ → Option α → Except Err Bool :=
  fun v id o => f (reidView r.symm v) (r.back id) o

/-- The same condition. -/
def reidLeaf (r : IdRenaming κ μ) : Leaf α κ W → Leaf α μ W
  | .func f => .func (reidFunc r f)
  | .always => .always
  | .never => .never
  | .timeInterval rep s e si ei => .timeInterval rep s e si ei
  | .timeTermination t incl => .timeTermination t incl
  | .beforeConsiderationSetExecution n ts => .beforeConsiderationSetExecution n ts
  | .atConsiderationSetExecution n ts => .atConsiderationSetExecution n ts
  | .afterConsiderationSetExecution n ts => .afterConsiderationSetExecution n ts
  | .afterNConsiderationSetExecutions n ts => .afterNConsiderationSetExecutions n ts
  | .beforePass n ts => .beforePass n ts
  | .atPass n ts => .atPass n ts
  | .afterPass n ts => .afterPass n ts
  | .afterNPasses n ts => .afterNPasses n ts
  | .everyNPasses n ts => .everyNPasses n ts
  | .beforeEnvironmentStateUpdate n ts => .beforeEnvironmentStateUpdate n ts
  | .atEnvironmentStateUpdate n ts => .atEnvironmentStateUpdate n ts
  | .afterEnvironmentStateUpdate n ts => .afterEnvironmentStateUpdate n ts
  | .afterNEnvironmentStateUpdates n ts => .afterNEnvironmentStateUpdates n ts
  | .atEnvironmentSequence n => .atEnvironmentSequence n
  | .afterEnvironmentSequence n => .afterEnvironmentSequence n
  | .afterNEnvironmentSequences n => .afterNEnvironmentSequences n
  | .beforeNCalls d n ts => .beforeNCalls d n ts
  | .atNCalls d n ts => .atNCalls d n ts
  | .afterCall d n ts => .afterCall d n ts
  | .afterNCalls d n ts => .afterNCalls d n ts
  | .afterNCallsCombined ds n ts => .afterNCallsCombined ds n ts
  | .everyNCalls d n => .everyNCalls d n
  | .justRan d => .justRan d
  | .allHaveRun ds ts => .allHaveRun ds ts
  | .whenFinished d => .whenFinished d
  | .whenFinishedAny ds => .whenFinishedAny ds
  | .whenFinishedAll ds => .whenFinishedAll ds
  | .threshold d p thr cmp is atol rtol g => .threshold d p thr cmp is atol rtol g

mutual
/-- The same condition. -/
def reidCond (r : IdRenaming κ μ) : Cond α κ W → Cond α μ W
  | .leaf o k => .leaf o (reidLeaf r k)
  | .whileNot o f => .whileNot o (reidFunc r f)
  | .all o args => .all o (reidConds r args)
  | .any o args => .any o (reidConds r args)
  | .not o c => .not o (reidCond r c)
  | .nwhen o c n => .nwhen o (reidCond r c) n
/-- The same conditions. -/
def reidConds (r : IdRenaming κ μ) : List (Cond α κ W) → List (Cond α μ W)
  | [] => []
  | c :: cs => reidCond r c :: reidConds r cs
end

/-- The same condition objects. -/
def reidStore (r : IdRenaming κ μ) (st : Store α κ) : Store α μ where
  owner := st.owner
  sat := fun o i => st.sat o (r.back i)
  fresh := st.fresh

/-- The same scheduler. -/
def reidSys (r : IdRenaming κ μ) (s : Sys α κ W) : Sys α μ W where
  toView := reidView r s.toView
  conds := s.conds.map fun p => (p.1, reidCond r p.2)
  store := reidStore r s.store
  defaultUnit := s.defaultUnit

/-- The same call of `run`, under the new id and on the base of the new id. -/
def reidArgs (r : IdRenaming κ μ) (a : RunArgs α κ W) : RunArgs α μ W where
  id := r.to a.id
  base := a.base.map r.to
  esu := reidCond r a.esu
  seq := reidCond r a.seq
  others := reidConds r a.others
  skip := a.skip

/-- The same generator. -/
def reidGen (r : IdRenaming κ μ) (g : Gen α κ W) : Gen α μ W := ⟨reidArgs r g.args, g.abs, g.pc⟩

/-- The same history of a scheduler. -/
def reidLog (r : IdRenaming κ μ) (l : List (Option κ × Entry α κ W)) : List (Option μ × Entry α μ W) :=
  l.map fun p => (r.to p.1, ⟨reidSys r p.2.before, p.2.ev, reidSys r p.2.after⟩)

/-- What the user does, with the new ids. -/
def reidUser (r : IdRenaming κ μ) (U : Sys α κ W → Sys α κ W → Prop) :
    Sys α μ W → Sys α μ W → Prop :=
  fun s t => U (reidSys r.symm s) (reidSys r.symm t)

/-- A consumer that does with the new ids what `w` does with the old ones. -/
def reidConsumer (r : IdRenaming κ μ) (w : List (List α) → World α κ W) :
    List (List α) → World α μ W := fun ys => reidWorld r (w ys)

/-- The same history of a run. -/
def reidHistory (r : IdRenaming κ μ) (h : History α κ W) : History α μ W :=
  h.map fun e => ⟨reidSys r e.before, e.ev, reidSys r e.after⟩

/-! ## Another default id -/

/-- `None` and `i` exchanged. -/
def swapNone [DecidableEq κ] (i : Option κ) : IdRenaming κ κ where
  to := fun j => if j = none then i else if j = i then none else j
  back := fun j => if j = none then i else if j = i then none else j
  back_to := by grind
  to_back := by grind

/-- A user function that answers alike when the ids have other names. -/
def IdBlindFn (r : IdRenaming κ κ) (f : View α κ W → Option κ → Option α → Except Err Bool) : Prop :=
  ∀ v id o, f (reidView r v) (r.to id) o = f v id o

mutual
/-- All user functions in the condition are such.  (All conditions of the library are.) -/
def IdBlind (r : IdRenaming κ κ) : Cond α κ W → Prop
  | .leaf _ (.func f) => IdBlindFn r f
  | .leaf _ _ => True
  | .whileNot _ f => IdBlindFn r f
  | .all _ cs => IdBlindAll r cs
  | .any _ cs => IdBlindAll r cs
  | .not _ c => IdBlind r c
  | .nwhen _ c _ => IdBlind r c
/-- All of them are such. -/
def IdBlindAll (r : IdRenaming κ κ) : List (Cond α κ W) → Prop
  | [] => True
  | c :: cs => IdBlind r c ∧ IdBlindAll r cs
end

/-- Nodes answer alike under all ids. -/
structure IdFree (w : World α κ W) : Prop where
  finished : ∀ n i j, w.finished n i = w.finished n j
  getter : ∀ g n p i j, w.getter g n p i = w.getter g n p j

/-- A scheduler with the given `default_execution_id` and conditions (`k` new objects). -/
def schedulerWith [DecidableEq α] (g : Graph α) (mode : Mode) (unit : Rat) (x : World α κ W) (k : Nat)
    (cs : List (α × Cond α κ W)) (i : Option κ) : Sys α κ W :=
  cs.foldl (fun s p => s.addBasic p.1 p.2) ((Sys.new g mode i unit x).alloc k)

end GS.Spec
