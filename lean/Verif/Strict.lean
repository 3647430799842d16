import Verif.Warn
/-!
# Model of a warning filter that turns warnings into exceptions

The same functions as in `Verif/Warn.lean` when every call of `warnings.warn` raises
(`warnings.simplefilter('error')`, `python -W error`): each of them stops where the warning is
given.  The warnings of `Threshold.__init__` and of the start of a run are in `Verif/StrictRun.lean`.
-/

set_option linter.unusedSectionVars false

namespace GS
variable {α κ W : Type _} [DecidableEq α] [DecidableEq κ]

/-- What such a call raises: an exception of its own, or a warning. -/
inductive Failure (α : Type _) where
  | err (e : Err)
  | warned (w : Warning α)
deriving DecidableEq, Repr

mutual
/-- The `owner` setters, condition.py:953-956 (`_validate_owner` before the assignment),
1143-1149, 1256-1259, 1285-1288. -/
def setOwnerS (v : Option α) : Cond α κ W → Store α κ → Store α κ × Option (Warning α)
  | .leaf o k, st => match leafWarnings v o k with
    | [] => (st.putOwner o v, none)
    | w :: _ => (st, some w)
  | .whileNot o _, st => (st.putOwner o v, none)
  | .all o args, st => setOwnersS v args (st.putOwner o v)
  | .any o args, st => setOwnersS v args (st.putOwner o v)
  | .not o c, st => setOwnerS v c (st.putOwner o v)
  | .nwhen o c _, st => setOwnerS v c (st.putOwner o v)
/-- condition.py:1146-1149. -/
def setOwnersS (v : Option α) : List (Cond α κ W) → Store α κ → Store α κ × Option (Warning α)
  | [], st => (st, none)
  | c :: cs, st =>
    match st.owner c.oid with
    | none => match setOwnerS v c st with
      | (st', some w) => (st', some w)
      | (st', none) => setOwnersS v cs st'
    | some _ => setOwnersS v cs st
end

namespace CSet

/-- condition.py:713-754 `add_condition`: the owner is set (736), the warning is given
(750-752), and only then is the condition stored. -/
def addS (s : CSet α κ W) (owner : α) : AnyCond α κ W → CSet α κ W × Option (Failure α)
  | .basic c => match setOwnerS (some owner) c s.store with
    | (st, some w) => ({ s with store := st }, some (.warned w))
    | (st, none) => match Dict.get? s.basic owner with
      | some old => ({ s with store := st }, some (.warned (.replacing owner old.oid c.oid)))
      | none => ({ s with store := st, basic := Dict.set s.basic owner c, rebuild := true }, none)
  | .structural c => match s.addStructural owner c with
    | (s', some e) => (s', some (.err e))
    | (s', none) => (s', none)

/-- condition.py:877-882. -/
def addAllS (s : CSet α κ W) (owner : α) : List (AnyCond α κ W) → CSet α κ W × Option (Failure α)
  | [] => (s, none)
  | c :: cs => match s.addS owner c with
    | (s', some f) => (s', some f)
    | (s', none) => s'.addAllS owner cs

/-- condition.py:850-882 `add_condition_set`. -/
def addSetS (s : CSet α κ W) : Dict α (List (AnyCond α κ W)) → CSet α κ W × Option (Failure α)
  | [] => (s, none)
  | (owner, cs) :: rest => match s.addAllS owner cs with
    | (s', some f) => (s', some f)
    | (s', none) => s'.addSetS rest

/-- condition.py:706-711 `__setitem__`. -/
def setItemS (s : CSet α κ W) (owner : α) (c : AnyCond α κ W) : CSet α κ W × Option (Failure α) :=
  match Dict.get? s.structural owner with
  | some (_ :: _) => (s, some (.err .typeError))
  | _ => s.addS owner c

/-- condition.py:756-848 `remove_condition(condition)`: the warning (846) is given after
everything else. -/
def removeCondS (s : CSet α κ W) (c : AnyCond α κ W) : CSet α κ W × Option (Failure α) :=
  match s.removeCondW c with
  | ((s', .error e), _) => (s', some (.err e))
  | ((s', .ok _), []) => (s', none)
  | ((s', .ok _), w :: _) => (s', some (.warned w))

/-- condition.py:756-848 `remove_condition(owner)`. -/
def removeOwnerS (s : CSet α κ W) (owner : α) : CSet α κ W × Option (Failure α) :=
  match s.removeOwnerW owner with
  | ((s', .error e), _) => (s', some (.err e))
  | ((s', .ok _), []) => (s', none)
  | ((s', .ok _), w :: _) => (s', some (.warned w))

end CSet

namespace Stack

/-- scheduler.py:1117-1134 `_push_graph`: the warning (1128) is given before the graph is
appended (1130). -/
def pushS (s : Stack α κ W) (g : Graph α) : Stack α κ W × Option (Failure α) :=
  match toposort g with
  | .ok _ => (s.push g, none)
  | .error _ => (s, some (.warned (.cycle (s.cset.order.getLast?.map (·.o)))))

/-- scheduler.py:1107-1111.  `modify_graph` (condition.py:2608-2641, 3228-3252, 3451-3458) works
on a copy of the graph: if it raises nothing has changed.  Its warnings come before its own
exceptions, except those for nodes that are not in the graph, where it gives none. -/
def pushAllS (sw : OId → α → Graph α → List (Warning α)) (s : Stack α κ W) (g : Graph α) :
    List (SCond α) → Stack α κ W × Option (Failure α)
  | [] => (s, none)
  | c :: cs =>
    match (match s.cset.owners c.o with | none => [] | some n => sw c.o n g) with
    | w :: _ => (s, some (.warned w))
    | [] => match s.modify c g with
      | .error e => (s, some (.err e))
      | .ok g' => match s.pushS g' with
        | (s', some f) => (s', some f)
        | (s', none) => s'.pushAllS sw g' cs

/-- scheduler.py:1087-1115 `_handle_modified_structural_conditions`. -/
def handleS (sw : OId → α → Graph α → List (Warning α)) (s : Stack α κ W) :
    Stack α κ W × Option (Failure α) :=
  let order := s.cset.order
  if s.last = some (order.map (·.o)) then (s, none)
  else
    let k := commonWith s.last (order.map (·.o))
    match popN (numPops s.last k) s with
    | (s1, some e) => (s1, some (.err e))
    | (s1, none) => match s1.graphs with
      | [] => (s1, some (.err .indexError))
      | g :: _ => match s1.pushAllS sw g (order.drop k) with
        | (s2, some f) => (s2, some f)
        | (s2, none) => ({ s2 with last := some (order.map (·.o)) }, none)

/-- scheduler.py:720-747 `add_condition`. -/
def addConditionS (sw : OId → α → Graph α → List (Warning α)) (s : Stack α κ W) (n : α)
    (c : AnyCond α κ W) : Stack α κ W × Option (Failure α) :=
  match s.cset.addS n c with
  | (cs, some f) => ({ s with cset := cs }, some f)
  | (cs, none) => handleS sw { s with cset := cs }

/-- scheduler.py:749-777 `add_condition_set`. -/
def addConditionSetS (sw : OId → α → Graph α → List (Warning α)) (s : Stack α κ W)
    (d : Dict α (List (AnyCond α κ W))) : Stack α κ W × Option (Failure α) :=
  match s.cset.addSetS d with
  | (cs, some f) => ({ s with cset := cs }, some f)
  | (cs, none) => handleS sw { s with cset := cs }

/-- scheduler.py:779-800 `remove_condition(condition)`. -/
def removeConditionS (s : Stack α κ W) (c : AnyCond α κ W) : Stack α κ W × Option (Failure α) :=
  match s.cset.removeCondS c with
  | (cs, f) => ({ s with cset := cs }, f)

/-- scheduler.py:779-800 `remove_condition(owner)`. -/
def removeConditionOfS (s : Stack α κ W) (n : α) : Stack α κ W × Option (Failure α) :=
  match s.cset.removeOwnerS n with
  | (cs, f) => ({ s with cset := cs }, f)

/-- `some` or `IndexError`. -/
def orIndexErrorS {β : Type _} : Option β → Except (Failure α) β
  | some b => .ok b
  | none => .error (.err .indexError)

/-- scheduler.py:1143-1151 the `graph` property. -/
def readGraphS (sw : OId → α → Graph α → List (Warning α)) (s : Stack α κ W) :
    Stack α κ W × Except (Failure α) (Graph α) :=
  match s.handleS sw with
  | (s', some f) => (s', .error f)
  | (s', none) => (s', orIndexErrorS s'.graphs.head?)

/-- scheduler.py:1158-1170 the `consideration_queue` property. -/
def readQueueS (sw : OId → α → Graph α → List (Warning α)) (s : Stack α κ W) :
    Stack α κ W × Except (Failure α) (List (List α)) :=
  match s.handleS sw with
  | (s', some f) => (s', .error f)
  | (s', none) => match s'.mode with
    | .exactTime => match s'.readGraphS sw with
      | (s'', .error f) => (s'', .error f)
      | (s'', .ok g) => (s'', .ok [Dict.keys g])
    | .standard => (s', orIndexErrorS s'.queues.head?)

/-- scheduler.py:1172-1180 the `consideration_queue_indices` property. -/
def readIndicesS (sw : OId → α → Graph α → List (Warning α)) (s : Stack α κ W) :
    Stack α κ W × Except (Failure α) (Dict α Nat) :=
  match s.handleS sw with
  | (s', some f) => (s', .error f)
  | (s', none) => (s', orIndexErrorS s'.indices.head?)

end Stack
end GS
