import Verif.GSC
import Verif.Whole
/-!
# Model of the warnings (condition.py:744-752, 843-846, 1044-1060, 3228-3252, 3451-3458,
scheduler.py:844-851, 1117-1128)

The functions below repeat those of `Verif/CondSet.lean`, `Verif/Structural.lean` and
`Verif/GSC.lean` and say in addition which warnings are given, in order.  Simplification:
warnings do not raise (for a filter that turns them into exceptions see `Verif/Strict.lean`), and Python's suppression of
repeated warnings is not modelled: a warning stands for a call of `warnings.warn`.
-/

set_option linter.unusedSectionVars false

namespace GS
variable {α κ W : Type _} [DecidableEq α] [DecidableEq κ]

/-- The calls of `warnings.warn`, except the one in `Threshold.__init__` (`newThresholdWarns`).
Conditions are given by their identity. -/
inductive Warning (α : Type _) where
  /-- condition.py:750-752: `Replacing basic condition for owner` -/
  | replacing (owner : α) (old new : OId)
  /-- condition.py:846: `Condition ... not found for owner` -/
  | notFound (owner : α)
  /-- condition.py:1056-1060: `o is dependent on owner, but you are assigning owner as its
  owner` -/
  | ownDependency (o : OId) (owner : α)
  /-- condition.py:3243-3252: `o: owner is already before/with/after nodes`, and whether it says
  `Condition is ignored` -/
  | already (o : OId) (owner : α) (nodes : List α) (ignored : Bool)
  /-- condition.py:3455-3457: `o: there was no edge from sender to receiver` -/
  | noEdge (o : OId) (sender receiver : α)
  /-- scheduler.py:1121-1128: `Condition ... creates a cycle`; `none` for `Base graph` -/
  | cycle (blamed : Option OId)
  /-- scheduler.py:848-851: `In exact time mode, graph structure conditions will have no
  effect` -/
  | exactTime
deriving DecidableEq, Repr

/-! ## Owners -/

/-- condition.py:1046-1054 `_validate_owner`: `dependencies`, taken from the first positional
argument that the class passes on (1972, 2010, 2040, 2072, 2111, 2159, 2187, 2223, 2254, 2294,
2334); none for a `Threshold`, which passes keyword arguments only (2517-2527).
Simplification: nodes are not iterable, or strings. -/
def firstDeps : Leaf α κ W → List α
  | .beforeNCalls d _ _ | .atNCalls d _ _ | .afterCall d _ _ | .afterNCalls d _ _
  | .everyNCalls d _ | .justRan d | .whenFinished d => [d]
  | .afterNCallsCombined ds _ _ | .allHaveRun ds _ | .whenFinishedAny ds | .whenFinishedAll ds =>
    ds.take 1
  | _ => []

/-- condition.py:1044-1060 `_validate_owner` of one object. -/
def leafWarnings (v : Option α) (o : OId) (k : Leaf α κ W) : List (Warning α) :=
  match v with
  | none => []
  | some n => if n ∈ firstDeps k then [.ownDependency o n] else []

mutual
/-- The warnings of the `owner` setters: condition.py:953-956, 1143-1149, 1256-1259,
1285-1288, as in `setOwner`. -/
def ownerWarnings (v : Option α) : Cond α κ W → Store α κ → List (Warning α)
  | .leaf o k, _ => leafWarnings v o k
  | .whileNot _ _, _ => []
  | .all o args, st => ownersWarnings v args (st.putOwner o v)
  | .any o args, st => ownersWarnings v args (st.putOwner o v)
  | .not o c, st => ownerWarnings v c (st.putOwner o v)
  | .nwhen o c _, st => ownerWarnings v c (st.putOwner o v)
/-- condition.py:1146-1149: only children without an owner. -/
def ownersWarnings (v : Option α) : List (Cond α κ W) → Store α κ → List (Warning α)
  | [], _ => []
  | c :: cs, st =>
    match st.owner c.oid with
    | none => ownerWarnings v c st ++ ownersWarnings v cs (setOwner v c st)
    | some _ => ownersWarnings v cs st
end

/-! ## `ConditionSet` -/

namespace CSet

/-- condition.py:713-754 `add_condition`. -/
def addW (s : CSet α κ W) (owner : α) (c : AnyCond α κ W) :
    (CSet α κ W × Option Err) × List (Warning α) :=
  (s.add owner c,
    match c with
    | .basic b => ownerWarnings (some owner) b s.store ++
        (match Dict.get? s.basic owner with
          | some old => [.replacing owner old.oid b.oid]
          | none => [])
    | .structural _ => [])

/-- condition.py:877-882. -/
def addAllW (s : CSet α κ W) (owner : α) :
    List (AnyCond α κ W) → (CSet α κ W × Option Err) × List (Warning α)
  | [] => ((s, none), [])
  | c :: cs => match s.addW owner c with
    | ((s', some e), ws) => ((s', some e), ws)
    | ((s', none), ws) => ((s'.addAllW owner cs).1, ws ++ (s'.addAllW owner cs).2)

/-- condition.py:850-882 `add_condition_set`. -/
def addSetW (s : CSet α κ W) :
    Dict α (List (AnyCond α κ W)) → (CSet α κ W × Option Err) × List (Warning α)
  | [] => ((s, none), [])
  | (owner, cs) :: rest => match s.addAllW owner cs with
    | ((s', some e), ws) => ((s', some e), ws)
    | ((s', none), ws) => ((s'.addSetW rest).1, ws ++ (s'.addSetW rest).2)

/-- condition.py:706-711 `__setitem__`. -/
def setItemW (s : CSet α κ W) (owner : α) (c : AnyCond α κ W) :
    (CSet α κ W × Option Err) × List (Warning α) :=
  match Dict.get? s.structural owner with
  | some (_ :: _) => ((s, some .typeError), [])
  | _ => s.addW owner c

/-- condition.py:756-848 `remove_condition(condition)`: the warning (843-846) if
`condition_found` is `None`.  The owner setter is called with `None`, which is no
dependency. -/
def removeCondW (s : CSet α κ W) (c : AnyCond α κ W) :
    (CSet α κ W × Except Err (Option (AnyCond α κ W))) × List (Warning α) :=
  (s.removeCond c,
    match s.ownerOf c with
    | none => []
    | some owner =>
      match c with
      | .basic b => match Dict.get? s.basic owner with
        | none => [.notFound owner]
        | some b' => if b.oid = b'.oid then [] else [.notFound owner]
      | .structural d => if (s.removeStructural owner d.o).2 then [] else [.notFound owner])

/-- condition.py:756-848 `remove_condition(owner)`. -/
def removeOwnerW (s : CSet α κ W) (owner : α) :
    (CSet α κ W × Except Err (Option (AnyCond α κ W))) × List (Warning α) :=
  (s.removeOwner owner,
    match Dict.get? s.basic owner, Dict.get? s.structural owner with
    | none, some [] => [.notFound owner]
    | none, none => [.notFound owner]
    | _, _ => [])

end CSet

/-! ## Structural conditions -/

namespace GSC

/-- condition.py:2608-2641 `modify_graph`, once the condition has an owner: the warnings of
3228-3252 (`_validate_graph`, after the checks of 2721-2729) and of 3451-3458. -/
def warnings (o : OId) (c : GSC α) (owner : α) (s : HG α) : List (Warning α) :=
  if c.inGraph owner s = false then []
  else match c with
    | .reposition c =>
      if 0 < (c.nodes.filter (c.valid owner s)).length then
        [.already o owner (c.nodes.filter (c.valid owner s))
          (decide ((c.nodes.filter (c.valid owner s)).length = c.nodes.length))]
      else []
    | .addEdgeTo _ => []
    | .removeEdgeFrom node => if node ∈ s.clone.senders owner then [] else [.noEdge o node owner]

/-- The same for a graph given as a value. -/
def warningsOn (o : OId) (c : GSC α) (owner : α) (g : Graph α) : List (Warning α) :=
  c.warnings o owner (HG.load g)

end GSC

/-! ## The scheduler -/

namespace Stack

/-- scheduler.py:1117-1134 `_push_graph`: the warning names the last structural condition. -/
def pushW (s : Stack α κ W) (g : Graph α) : Stack α κ W × List (Warning α) :=
  (s.push g,
    match toposort g with
    | .ok _ => []
    | .error _ => [.cycle (s.cset.order.getLast?.map (·.o))])

/-- scheduler.py:1107-1111.  `sw o n g` are the warnings that the `modify_graph` of the
condition `o` of `n` gives for `g` (`GSC.warningsOn` for the built-in classes). -/
def pushAllW (sw : OId → α → Graph α → List (Warning α)) (s : Stack α κ W) (g : Graph α) :
    List (SCond α) → (Stack α κ W × Option Err) × List (Warning α)
  | [] => ((s, none), [])
  | c :: cs =>
    match s.modify c g with
    | .error e => ((s, some e), match s.cset.owners c.o with | none => [] | some n => sw c.o n g)
    | .ok g' => (((s.pushW g').1.pushAllW sw g' cs).1,
        (match s.cset.owners c.o with | none => [] | some n => sw c.o n g) ++ (s.pushW g').2 ++
          ((s.pushW g').1.pushAllW sw g' cs).2)

/-- scheduler.py:1087-1115 `_handle_modified_structural_conditions`. -/
def handleW (sw : OId → α → Graph α → List (Warning α)) (s : Stack α κ W) :
    (Stack α κ W × Option Err) × List (Warning α) :=
  let order := s.cset.order
  if s.last = some (order.map (·.o)) then ((s, none), [])
  else
    let k := commonWith s.last (order.map (·.o))
    match popN (numPops s.last k) s with
    | (s1, some e) => ((s1, some e), [])
    | (s1, none) => match s1.graphs with
      | [] => ((s1, some .indexError), [])
      | g :: _ => match s1.pushAllW sw g (order.drop k) with
        | ((s2, some e), ws) => ((s2, some e), ws)
        | ((s2, none), ws) => (({ s2 with last := some (order.map (·.o)) }, none), ws)

/-- scheduler.py:476-507: the warnings of `__init__`. -/
def newWarnings (base : Graph α) : List (Warning α) :=
  match toposort base with
  | .ok _ => []
  | .error _ => [.cycle none]

/-- scheduler.py:720-747 `add_condition`. -/
def addConditionW (sw : OId → α → Graph α → List (Warning α)) (s : Stack α κ W) (n : α)
    (c : AnyCond α κ W) : (Stack α κ W × Option Err) × List (Warning α) :=
  match s.cset.addW n c with
  | ((cs, some e), ws) => (({ s with cset := cs }, some e), ws)
  | ((cs, none), ws) => ((handleW sw { s with cset := cs }).1, ws ++ (handleW sw { s with cset := cs }).2)

/-- scheduler.py:749-777 `add_condition_set`. -/
def addConditionSetW (sw : OId → α → Graph α → List (Warning α)) (s : Stack α κ W)
    (d : Dict α (List (AnyCond α κ W))) : (Stack α κ W × Option Err) × List (Warning α) :=
  match s.cset.addSetW d with
  | ((cs, some e), ws) => (({ s with cset := cs }, some e), ws)
  | ((cs, none), ws) => ((handleW sw { s with cset := cs }).1, ws ++ (handleW sw { s with cset := cs }).2)

/-- scheduler.py:779-800 `remove_condition(condition)`. -/
def removeConditionW (s : Stack α κ W) (c : AnyCond α κ W) :
    (Stack α κ W × Except Err (Option (AnyCond α κ W))) × List (Warning α) :=
  (s.removeCondition c, (s.cset.removeCondW c).2)

/-- scheduler.py:779-800 `remove_condition(owner)`. -/
def removeConditionOfW (s : Stack α κ W) (n : α) :
    (Stack α κ W × Except Err (Option (AnyCond α κ W))) × List (Warning α) :=
  (s.removeConditionOf n, (s.cset.removeOwnerW n).2)

/-- scheduler.py:1143-1151 the `graph` property. -/
def readGraphW (sw : OId → α → Graph α → List (Warning α)) (s : Stack α κ W) :
    (Stack α κ W × Except Err (Graph α)) × List (Warning α) :=
  (s.readGraph, (s.handleW sw).2)

/-- scheduler.py:1158-1170 the `consideration_queue` property; in exact-time mode the graph is
read after the conditions have been handled. -/
def readQueueW (sw : OId → α → Graph α → List (Warning α)) (s : Stack α κ W) :
    (Stack α κ W × Except Err (List (List α))) × List (Warning α) :=
  (s.readQueue, (s.handleW sw).2 ++
    match s.handle with
    | (s', none) => (match s'.mode with | .exactTime => (s'.handleW sw).2 | .standard => [])
    | (_, some _) => [])

/-- scheduler.py:1172-1180 the `consideration_queue_indices` property. -/
def readIndicesW (sw : OId → α → Graph α → List (Warning α)) (s : Stack α κ W) :
    (Stack α κ W × Except Err (Dict α Nat)) × List (Warning α) :=
  (s.readIndices, (s.handleW sw).2)

end Stack

/-- scheduler.py:844-851: the last warning of `_validate_conditions`, given at the start of
every run. -/
def Whole.runWarnings (w : Whole α κ W) : List (Warning α) :=
  if w.stack.mode = .exactTime ∧ 0 < w.stack.cset.structural.length then [.exactTime] else []

end GS
