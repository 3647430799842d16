import Verif.CondSet
/-!
# Model of the scheduler's graph stack (scheduler.py:679-800, 1087-1180)
-/

set_option linter.unusedSectionVars false

namespace GS
variable {α κ W : Type _} [DecidableEq α] [DecidableEq κ]

/-- scheduler.py:476-484, the attributes of a `Scheduler` that structural conditions
affect.  The three lists have their last element first.  `last` is
`_last_handled_structural_condition_order`; only the identity of its elements matters. -/
structure Stack (α κ W : Type _) where
  mode : Mode
  cset : CSet α κ W
  graphs : List (Graph α)
  queues : List (List (List α))
  indices : List (Dict α Nat)
  last : Option (List OId)

/-- scheduler.py:1089-1097: `common_index + 1`, the number of leading elements that two
lists of condition objects have in common (objects are compared by identity). -/
def commonPrefix : List OId → List OId → Nat
  | c :: cs, d :: ds => if c = d then commonPrefix cs ds + 1 else 0
  | _, _ => 0

/-- scheduler.py:1089-1097: the same if nothing has been handled yet (`TypeError`). -/
def commonWith (last : Option (List OId)) (order : List OId) : Nat :=
  match last with
  | none => 0
  | some l => commonPrefix l order

/-- scheduler.py:1101-1105: how many graphs are popped. -/
def numPops (last : Option (List OId)) (k : Nat) : Nat :=
  match last with
  | none => 0
  | some l => (l.drop k).length

namespace Stack

/-- scheduler.py:1117-1134 `_push_graph`.  Simplification: no warning for a cycle. -/
def push (s : Stack α κ W) (g : Graph α) : Stack α κ W :=
  { s with
    graphs := g :: s.graphs
    queues := queueOf g :: s.queues
    indices := queueIndices (queueOf g) :: s.indices }

/-- scheduler.py:1136-1141 `_pop_graph`, `k` times; `IndexError` if there is none. -/
def popN : Nat → Stack α κ W → Stack α κ W × Option Err
  | 0, s => (s, none)
  | k + 1, s => match s.graphs with
    | [] => (s, some .indexError)
    | _ :: gs => popN k { s with
        graphs := gs, queues := s.queues.tail, indices := s.indices.tail }

/-- condition.py:2624-2629 `modify_graph`: `ConditionError` without an owner. -/
def modify (s : Stack α κ W) (c : SCond α) (g : Graph α) : Except Err (Graph α) :=
  match s.cset.owners c.o with
  | none => .error .conditionError
  | some n => c.apply n g

/-- scheduler.py:1107-1111: apply and push the conditions one after the other. -/
def pushAll (s : Stack α κ W) (g : Graph α) : List (SCond α) → Stack α κ W × Option Err
  | [] => (s, none)
  | c :: cs => match s.modify c g with
    | .error e => (s, some e)
    | .ok g' => (s.push g').pushAll g' cs

/-- scheduler.py:1087-1115 `_handle_modified_structural_conditions`. -/
def handle (s : Stack α κ W) : Stack α κ W × Option Err :=
  let order := s.cset.order
  if s.last = some (order.map (·.o)) then (s, none)
  else
    let k := commonWith s.last (order.map (·.o))
    match popN (numPops s.last k) s with
    | (s1, some e) => (s1, some e)
    | (s1, none) => match s1.graphs with
      | [] => (s1, some .indexError)
      | g :: _ => match s1.pushAll g (order.drop k) with
        | (s2, some e) => (s2, some e)
        | (s2, none) => ({ s2 with last := some (order.map (·.o)) }, none)

/-- scheduler.py:476-507 `__init__` up to the conditions, for a base graph in which every
sender is a key (`baseGraph`), and the condition objects that exist. -/
def new (mode : Mode) (base : Graph α) (st : Store α κ) (owners : OId → Option α) :
    Stack α κ W :=
  push { mode := mode, cset := CSet.empty st owners, graphs := [], queues := [], indices := [],
         last := none } base

/-- scheduler.py:720-747 `add_condition`. -/
def addCondition (s : Stack α κ W) (n : α) (c : AnyCond α κ W) : Stack α κ W × Option Err :=
  match s.cset.add n c with
  | (cs, some e) => ({ s with cset := cs }, some e)
  | (cs, none) => handle { s with cset := cs }

/-- scheduler.py:749-777 `add_condition_set`. -/
def addConditionSet (s : Stack α κ W) (d : Dict α (List (AnyCond α κ W))) :
    Stack α κ W × Option Err :=
  match s.cset.addSet d with
  | (cs, some e) => ({ s with cset := cs }, some e)
  | (cs, none) => handle { s with cset := cs }

/-- scheduler.py:779-800 `remove_condition(condition)`. -/
def removeCondition (s : Stack α κ W) (c : AnyCond α κ W) :
    Stack α κ W × Except Err (Option (AnyCond α κ W)) :=
  match s.cset.removeCond c with
  | (cs, r) => ({ s with cset := cs }, r)

/-- scheduler.py:779-800 `remove_condition(owner)`. -/
def removeConditionOf (s : Stack α κ W) (n : α) :
    Stack α κ W × Except Err (Option (AnyCond α κ W)) :=
  match s.cset.removeOwner n with
  | (cs, r) => ({ s with cset := cs }, r)

/-- scheduler.py:1143-1151 the `graph` property. -/
def readGraph (s : Stack α κ W) : Stack α κ W × Except Err (Graph α) :=
  match s.handle with
  | (s', some e) => (s', .error e)
  | (s', none) => (s', orIndexError s'.graphs.head?)

/-- scheduler.py:1158-1170 the `consideration_queue` property. -/
def readQueue (s : Stack α κ W) : Stack α κ W × Except Err (List (List α)) :=
  match s.handle with
  | (s', some e) => (s', .error e)
  | (s', none) => match s'.mode with
    | .exactTime => match s'.readGraph with
      | (s'', .error e) => (s'', .error e)
      | (s'', .ok g) => (s'', .ok [Dict.keys g])
    | .standard => (s', orIndexError s'.queues.head?)

/-- scheduler.py:1172-1180 the `consideration_queue_indices` property. -/
def readIndices (s : Stack α κ W) : Stack α κ W × Except Err (Dict α Nat) :=
  match s.handle with
  | (s', some e) => (s', .error e)
  | (s', none) => (s', orIndexError s'.indices.head?)

end Stack
end GS
