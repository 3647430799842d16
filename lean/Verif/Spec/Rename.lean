import Verif.Spec.Order
/-!
# Specification vocabulary: giving nodes other names
-/

set_option linter.unusedSectionVars false

namespace GS.Spec

/-- New names `β` for nodes `α`: every node has one new name, and every new name belongs
to one node. -/
structure Renaming (α β : Type _) where
  to : α → β
  back : β → α
  back_to : ∀ x, back (to x) = x
  to_back : ∀ y, to (back y) = y

/-- From the new names back to the old ones. -/
def Renaming.symm {α β : Type _} (r : Renaming α β) : Renaming β α :=
  ⟨r.back, r.to, r.to_back, r.back_to⟩

variable {α β κ W : Type _}

/-- The same sets of nodes. -/
def renameSets (r : Renaming α β) (l : List (List α)) : List (List β) := l.map fun x => x.map r.to

/-- The same graph. -/
def renameGraph (r : Renaming α β) (g : Graph α) : Graph β :=
  g.map fun p => (r.to p.1, p.2.map r.to)

/-- The same values of a dict whose values are about nodes. -/
def renameValues {γ δ : Type _} (f : γ → δ) (d : Dict κ γ) : Dict κ δ := d.map fun p => (p.1, f p.2)

/-- The same outside world. -/
def renameWorld (r : Renaming α β) (w : World α κ W) : World β κ W where
  finished := fun n => w.finished (r.back n)
  attr := fun n => w.attr (r.back n)
  getter := fun g n => w.getter g (r.back n)
  ext := w.ext

/-- The same state of a scheduler, as far as it can be seen. -/
def renameView (r : Renaming α β) (v : View α κ W) : View β κ W where
  nodes := v.nodes.map r.to
  mode := v.mode
  graph := renameGraph r v.graph
  queue := renameSets r v.queue
  countsTotal := renameValues (fun f ts n => f ts (r.back n)) v.countsTotal
  countsUseable := renameValues (fun f a b => f (r.back a) (r.back b)) v.countsUseable
  execList := renameValues (renameSets r) v.execList
  timestamps := v.timestamps
  clocks := v.clocks
  world := renameWorld r v.world

/-- A user function that does to the new names what `f` does to the old ones. -/
def renameFunc (r : Renaming α β) (f : View α κ W → Option κ → Option α → Except Err Bool) :
    View β κ W → Option κ → Option β → Except Err Bool :=
  fun v id o => f (renameView r.symm v) id (o.map r.back)

/-- The same condition. -/
def renameLeaf (r : Renaming α β) : Leaf α κ W → Leaf β κ W
  | .func f => .func (renameFunc r f)
  | .always => .always
  | .never => .never
  | .timeInterval rep s e si ei => .timeInterval rep s e si ei
  | .timeTermination t incl => .timeTermination t incl
  | .beforeConsiderationSetExecution n ts => .beforeConsiderationSetExecution n ts
  | .atConsiderationSetExecution n ts => .atConsiderationSetExecution n ts
  | .afterConsiderationSetExecution n ts => .afterConsiderationSetExecution n ts
  | .afterNConsiderationSetExecutions n ts => .afterNConsiderationSetExecutions n ts
  | .beforePass n ts => .beforePass n ts
  | .atPass n ts => .atPass n ts
  | .afterPass n ts => .afterPass n ts
  | .afterNPasses n ts => .afterNPasses n ts
  | .everyNPasses n ts => .everyNPasses n ts
  | .beforeEnvironmentStateUpdate n ts => .beforeEnvironmentStateUpdate n ts
  | .atEnvironmentStateUpdate n ts => .atEnvironmentStateUpdate n ts
  | .afterEnvironmentStateUpdate n ts => .afterEnvironmentStateUpdate n ts
  | .afterNEnvironmentStateUpdates n ts => .afterNEnvironmentStateUpdates n ts
  | .atEnvironmentSequence n => .atEnvironmentSequence n
  | .afterEnvironmentSequence n => .afterEnvironmentSequence n
  | .afterNEnvironmentSequences n => .afterNEnvironmentSequences n
  | .beforeNCalls d n ts => .beforeNCalls (r.to d) n ts
  | .atNCalls d n ts => .atNCalls (r.to d) n ts
  | .afterCall d n ts => .afterCall (r.to d) n ts
  | .afterNCalls d n ts => .afterNCalls (r.to d) n ts
  | .afterNCallsCombined ds n ts => .afterNCallsCombined (ds.map r.to) n ts
  | .everyNCalls d n => .everyNCalls (r.to d) n
  | .justRan d => .justRan (r.to d)
  | .allHaveRun ds ts => .allHaveRun (ds.map r.to) ts
  | .whenFinished d => .whenFinished (r.to d)
  | .whenFinishedAny ds => .whenFinishedAny (ds.map r.to)
  | .whenFinishedAll ds => .whenFinishedAll (ds.map r.to)
  | .threshold d p thr cmp is atol rtol g => .threshold (r.to d) p thr cmp is atol rtol g

mutual
/-- The same condition. -/
def renameCond (r : Renaming α β) : Cond α κ W → Cond β κ W
  | .leaf o k => .leaf o (renameLeaf r k)
  | .whileNot o f => .whileNot o (renameFunc r f)
  | .all o args => .all o (renameConds r args)
  | .any o args => .any o (renameConds r args)
  | .not o c => .not o (renameCond r c)
  | .nwhen o c n => .nwhen o (renameCond r c) n
/-- The same conditions. -/
def renameConds (r : Renaming α β) : List (Cond α κ W) → List (Cond β κ W)
  | [] => []
  | c :: cs => renameCond r c :: renameConds r cs
end

/-- The same condition objects. -/
def renameStore (r : Renaming α β) (st : Store α κ) : Store β κ where
  owner := fun o => (st.owner o).map r.to
  sat := st.sat
  fresh := st.fresh

/-- The same scheduler. -/
def renameSys (r : Renaming α β) (s : Sys α κ W) : Sys β κ W where
  toView := renameView r s.toView
  conds := s.conds.map fun p => (r.to p.1, renameCond r p.2)
  store := renameStore r s.store
  defaultUnit := s.defaultUnit

/-- The same call of `run`. -/
def renameArgs (r : Renaming α β) (a : RunArgs α κ W) : RunArgs β κ W where
  id := a.id
  base := a.base
  esu := renameCond r a.esu
  seq := renameCond r a.seq
  others := renameConds r a.others
  skip := a.skip

/-- The same event. -/
def renameEvent (r : Renaming α β) : Event α → Event β
  | .passStart => .passStart
  | .consider idx layer => .consider idx (layer.map r.to)
  | .add n => .add (r.to n)
  | .layer idx set shown => .layer idx (set.map r.to) shown
  | .emptyPass => .emptyPass
  | .stop => .stop

/-- The same place in the program. -/
def renamePC (r : Renaming α β) : PC α → PC β
  | .outer => .outer
  | .inner idx changed => .inner idx changed
  | .choosing c => .choosing
      { idx := c.idx, changed := c.changed, layer := c.layer.map r.to, exec := c.exec.map r.to,
        todo := c.todo.map r.to, again := c.again }
  | .yielded idx changed => .yielded idx changed
  | .yieldedEmpty => .yieldedEmpty
  | .returned => .returned
  | .raised e => .raised e

/-- The same history. -/
def renameHistory (r : Renaming α β) (h : History α κ W) : History β κ W :=
  h.map fun e => ⟨renameSys r e.before, renameEvent r e.ev, renameSys r e.after⟩

/-- A consumer that does with the new names what `w` does with the old ones. -/
def renameConsumer (r : Renaming α β) (w : List (List α) → World α κ W) :
    List (List β) → World β κ W :=
  fun ys => renameWorld r (w (renameSets r.symm ys))

end GS.Spec
