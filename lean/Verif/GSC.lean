import Verif.Util
import Verif.CondSet
/-!
# Model of the built-in structural conditions (condition.py:2551-3458)

Graphs are dicts of mutable sets, and the code below shares sets between graphs and
between nodes (`Operation.KEEP` and `Operation.REPLACE` return one of their arguments).
The model therefore has set objects with identity: a heap of sets, and graphs that map
nodes to positions in the heap.
-/

set_option linter.unusedSectionVars false

namespace GS
variable {α κ W : Type _} [DecidableEq α]

/-! ## Set objects -/

/-- The identity of a set object. -/
notation "Addr" => Nat

/-- The contents of all set objects. -/
abbrev Heap (α : Type _) := List (List α)

/-- The contents of one set object. -/
def Heap.read (h : Heap α) (a : Addr) : List α := (h[a]?).getD []

/-- A graph (a dict from nodes to set objects) together with all set objects. -/
structure HG (α : Type _) where
  heap : Heap α
  graph : Dict α Addr

namespace HG

/-- The identity of `graph[n]`; only used for keys of the graph. -/
def addr (s : HG α) (n : α) : Addr := (Dict.get? s.graph n).getD 0

/-- The contents of `graph[n]`.  Simplification: empty if `n` is no key; the nodes used
below are keys (`_validate_graph`, condition.py:2721-2729). -/
def senders (s : HG α) (n : α) : List α :=
  match Dict.get? s.graph n with
  | some a => s.heap.read a
  | none => []

/-- In-place modification of the set object `graph[n]`. -/
def upd (s : HG α) (n : α) (f : List α → List α) : HG α :=
  match Dict.get? s.graph n with
  | some a => { s with heap := s.heap.set a (f (s.heap.read a)) }
  | none => s

/-- `graph[n] = v` for a newly made set `v`. -/
def assign (s : HG α) (n : α) (v : List α) : HG α :=
  { heap := s.heap ++ [v], graph := Dict.set s.graph n s.heap.length }

/-- The graph as a value. -/
def value (s : HG α) : Graph α := s.graph.map fun p => (p.1, s.heap.read p.2)

/-- The loop of `clone_graph` (utilities.py:111-117), for a graph whose values are sets:
a new set object for every entry. -/
def cloneFrom (h : Heap α) : Dict α Addr → HG α
  | [] => ⟨h, []⟩
  | (k, a) :: g => ⟨(cloneFrom (h ++ [h.read a]) g).heap,
      (k, h.length) :: (cloneFrom (h ++ [h.read a]) g).graph⟩

/-- utilities.py:106-118 `clone_graph`. -/
def clone (s : HG α) : HG α := cloneFrom s.heap s.graph

/-- A graph given as a value, with its own set objects. -/
def load (g : Graph α) : HG α :=
  { heap := g.map Prod.snd, graph := (Dict.keys g).zipIdx }

end HG

/-! ## Operations -/

/-- condition.py:537-591: the members of `Operation`. -/
inductive Oper where
  | keep | replace | discard | intersection | union | merge | difference
  | inverseDifference | symmetricDifference
deriving DecidableEq, Repr

/-- `set.union`. -/
def setUnion (s c : List α) : List α := s ++ c.filter (fun x => x ∉ s)

/-- condition.py:569-591: the result of an operation, as a value. -/
def Oper.val : Oper → List α → List α → List α
  | .keep, s, _ => s
  | .replace, _, c => c
  | .discard, _, _ => []
  | .intersection, s, c => s.filter (fun x => x ∈ c)
  | .union, s, c => setUnion s c
  | .merge, s, c => setUnion s c
  | .difference, s, c => s.filter (fun x => x ∉ c)
  | .inverseDifference, s, c => c.filter (fun x => x ∉ s)
  | .symmetricDifference, s, c => s.filter (fun x => x ∉ c) ++ c.filter (fun x => x ∉ s)

/-- condition.py:569-591: the set object an operation returns: KEEP and REPLACE return
their argument, the others a new set. -/
def Oper.obj (op : Oper) (h : Heap α) (s c : Addr) : Heap α × Addr :=
  match op with
  | .keep => (h, s)
  | .replace => (h, c)
  | op => (h ++ [op.val (h.read s) (h.read c)], h.length)

/-- `set.union(*sets)`. -/
def unionAll (ls : List (List α)) : List α := ls.foldl setUnion []

/-! ## Conditions with operations -/

/-- The three families of repositioning conditions; `BeforeNode` and `AfterNode` only
restrict the number of subject nodes. -/
inductive Kind where
  | before   -- condition.py:3270-3314 BeforeNodes, 3317-3324 BeforeNode
  | withNode -- condition.py:3327-3372 WithNode
  | after    -- condition.py:3375-3419 AfterNodes, 3422-3429 AfterNode
deriving DecidableEq, Repr

/-- The attributes of a `BeforeNodes`, `WithNode` or `AfterNodes` object
(condition.py:2750-2839, 3221-3429).  `subjectSenders` and `subjectReceivers` give the
operation for each subject; a single operation for all is a constant function.
Simplification: options that mean no operation are not represented here; the constructors
and such options are modelled in `Verif/GSCArgs.lean`. -/
structure OpCond (α : Type _) where
  kind : Kind
  nodes : List α
  ownerSenders : Oper
  ownerReceivers : Oper
  subjectSenders : α → Oper
  subjectReceivers : α → Oper
  reconnect : Bool := true
  removeSelf : Bool := true
  prune : Bool := true
  ignoreConflicts : Bool := false

namespace OpCond

/-- condition.py:3302-3303, 3359-3360, 3408-3409 `_nodes_already_valid`: the test for one
subject. -/
def valid (c : OpCond α) (owner : α) (s : HG α) (n : α) : Bool :=
  match c.kind with
  | .before => decide (owner ∈ s.senders n)
  | .withNode => (s.senders n).all (fun x => decide (x ∈ s.senders owner)) &&
      (s.senders owner).all (fun x => decide (x ∈ s.senders n))
  | .after => decide (n ∈ s.senders owner)

/-- condition.py:3305-3306, 3362-3363, 3411-3412 `_is_required_edge`. -/
def required (c : OpCond α) (owner sender receiver : α) : Bool :=
  match c.kind with
  | .before => decide (sender = owner) && decide (receiver ∈ c.nodes)
  | .withNode => decide (receiver ∈ c.nodes) || decide (receiver = owner)
  | .after => decide (sender ∈ c.nodes) && decide (receiver = owner)

/-- condition.py:3254-3260 `_GSCReposition._preprocess`. -/
def preprocess (c : OpCond α) (owner : α) (s : HG α) : HG α :=
  c.nodes.foldl (fun s n => (s.upd n (setRemove owner)).upd owner (setRemove n)) s

/-- condition.py:3098-3099, 3106-3109, 3116-3124: `new_sender_nodes`, as set objects. -/
def newSenders (c : OpCond α) (owner : α) (s : HG α) (h : Heap α) : Heap α × Dict α Addr :=
  let h1 := h ++ [unionAll (c.nodes.map s.senders)]
  let o := c.ownerSenders.obj h1 (s.addr owner) h.length
  c.nodes.foldl (fun acc n =>
    let r := (c.subjectSenders n).obj acc.1 (s.addr n) (s.addr owner)
    (r.1, Dict.set acc.2 n r.2)) (o.1, [(owner, o.2)])

/-- condition.py:3097, 3111-3114, 3125-3129: `new_receiver_nodes`.  These sets are never
modified, so values suffice. -/
def newReceivers (c : OpCond α) (owner : α) (s : HG α) : Graph α :=
  let old := getReceivers s.value
  c.nodes.foldl (fun acc n =>
    Dict.set acc n ((c.subjectReceivers n).val (Dict.getD old n) (Dict.getD old owner)))
    [(owner, c.ownerReceivers.val (Dict.getD old owner)
      (unionAll (c.nodes.map fun n => Dict.getD old n)))]

/-- condition.py:2918-2971 `_get_edge_conflicts`: whether a conflict is found.
Simplification: the texts of the message are not built here; for nodes that are not strings
building them raises `TypeError` (`','.join`, 2907-2908) instead of the `ConditionError`.
This is modelled in `Verif/ConflictText.lean`. -/
def edgeConflict (ns : Dict α Addr) (h : Heap α) (nr : Graph α) (sender receiver : α) : Bool :=
  (decide (receiver ∈ Dict.keys ns) &&
    (decide (sender ∈ HG.senders ⟨h, ns⟩ receiver) &&
      (decide (sender ∈ Dict.keys nr) && decide (receiver ∉ Dict.getD nr sender)))) ||
  (decide (sender ∈ Dict.keys nr) &&
    (decide (receiver ∈ Dict.getD nr sender) &&
      (decide (receiver ∈ Dict.keys ns) && decide (sender ∉ HG.senders ⟨h, ns⟩ receiver))))

/-- condition.py:3131-3137, the conflicts found in the first loop. -/
def firstConflicts (ns : Dict α Addr) (h : Heap α) (nr : Graph α) : Bool :=
  ns.any fun p => (h.read p.2).any fun sender => edgeConflict ns h nr sender p.1

/-- condition.py:3143-3164: the body of the second loop, for one sender and node; the
flag says whether a conflict was found so far. -/
def receiverStep (ns : Dict α Addr) (nr : Graph α) (sender : α) (rs : List α)
    (acc : HG α × Bool) (node : α) : HG α × Bool :=
  if node ∈ rs then
    (acc.1.upd node (setAdd sender), acc.2 || edgeConflict ns acc.1.heap nr sender node)
  else (acc.1.upd node (setRemove sender), acc.2)

/-- condition.py:3142-3164: the second loop. -/
def receiverLoop (ns : Dict α Addr) (nr : Graph α) (nodes : List α) (acc : HG α × Bool) :
    HG α × Bool :=
  nr.foldl (fun acc p => nodes.foldl (receiverStep ns nr p.1 p.2) acc) acc

/-- condition.py:3094-3170 `_GSCWithOperations._process`. -/
def operate (c : OpCond α) (owner : α) (s : HG α) : Except Err (HG α) :=
  let nr := c.newReceivers owner s
  let rg := s.clone
  let ns := c.newSenders owner s rg.heap
  let first := firstConflicts ns.2 ns.1 nr
  let r := receiverLoop ns.2 nr (Dict.keys s.graph)
    (⟨ns.1, ns.2.foldl (fun g p => Dict.set g p.1 p.2) rg.graph⟩, first)
  if c.ignoreConflicts = false ∧ r.2 = true then .error .conditionError else .ok r.1

/-- condition.py:3308-3314, 3365-3372, 3414-3419: what the subclasses' `_process` add. -/
def place (c : OpCond α) (owner : α) (s : HG α) : HG α :=
  match c.kind with
  | .before => c.nodes.foldl (fun s n => s.upd n (setAdd owner)) s
  | .withNode =>
    match c.nodes with
    | [] => s
    | n :: _ => (s.assign owner (setUnion (s.senders owner) (s.senders n))).assign n
        (setUnion (s.senders owner) (s.senders n))
  | .after => s.assign owner (setUnion (s.senders owner) c.nodes)

/-- condition.py:3004-3011 `_handle_remove_new_self_referential_edges`. -/
def removeNewSelf (base : Graph α) (s : HG α) : HG α :=
  (Dict.keys s.graph).foldl (fun s node =>
    if node ∉ Dict.getD base node then
      if node ∈ s.senders node then s.upd node (setRemove node) else s
    else s) s

/-- condition.py:3045-3046, 3077-3078: remove an edge if it is there. -/
def cut (s : HG α) (sender receiver : α) : HG α :=
  if sender ∈ s.senders receiver then s.upd receiver (setRemove sender) else s

/-- condition.py:3025-3026: `nodes_to_check`. -/
def toCheck (c : OpCond α) (cycle : List α) : List α :=
  if (c.nodes.filter fun n => n ∈ cycle).length ≠ 0 then c.nodes.filter fun n => n ∈ cycle
  else c.nodes

/-- condition.py:3016-3047 `_prune_owner_edge`. -/
def pruneOwnerEdge (c : OpCond α) (owner : α) (base : Graph α) (idx : Nat) (cycle : List α)
    (s : HG α) : HG α :=
  let fullAncestor := (c.toCheck cycle).all fun n => owner ∈ Dict.getD (getAncestors base) n
  let fullDescendant := (c.toCheck cycle).all fun n => owner ∈ Dict.getD (getDescendants base) n
  let sender := if fullAncestor || !fullDescendant then owner
    else (cycle[(idx + cycle.length - 1) % cycle.length]?).getD owner
  let receiver := if fullAncestor || !fullDescendant then
      (cycle[(idx + 1) % cycle.length]?).getD owner
    else owner
  if c.required owner sender receiver then s else cut s sender receiver

/-- condition.py:3065-3078: one edge of a cycle. -/
def pruneEdge (c : OpCond α) (owner : α) (base : Graph α) (cycle : List α) (s : HG α) (i : Nat) :
    HG α :=
  let sender := (cycle[i]?).getD owner
  let idx := (i + 1) % cycle.length
  let receiver := (cycle[idx]?).getD owner
  if receiver = owner then c.pruneOwnerEdge owner base idx cycle s
  else if receiver ∈ Dict.getD base sender ∧ sender ≠ owner ∧
      c.required owner sender receiver = false then cut s sender receiver
  else s

/-- condition.py:3063-3082: all edges of a cycle. -/
def pruneCycle (c : OpCond α) (owner : α) (base : Graph α) (cycle : List α) (s : HG α) : HG α :=
  (List.range cycle.length).foldl (c.pruneEdge owner base cycle) s

/-- Insertion into a list sorted by decreasing length, behind those of equal length. -/
def insertCycle (c : List α) : List (List α) → List (List α)
  | [] => [c]
  | d :: ds => if c.length > d.length then c :: d :: ds else d :: insertCycle c ds

/-- `sorted(cycles, key=lambda x: -len(x))`, a stable sort. -/
def sortCycles (cs : List (List α)) : List (List α) := cs.foldl (fun acc c => insertCycle c acc) []

/-- condition.py:3056-3084: the `for` loop; the second component is `cycles`.
`cyc` is `get_simple_cycles` (utilities.py:327-338), i.e. `nx.simple_cycles`: a parameter,
because neither its order nor the node each cycle starts with is documented.  It is a
function of the graph: `get_simple_cycles` is cached, and the same set objects with the
same contents give the same enumeration. -/
def pruneRound (cyc : Graph α → List (List α)) (c : OpCond α) (owner : α) (base : Graph α)
    (todo : List (List α)) (s : HG α) : HG α × List (List α) :=
  todo.foldl (fun acc cycle =>
    if cycle ∈ acc.2 then
      (c.pruneCycle owner base cycle acc.1, cyc (c.pruneCycle owner base cycle acc.1).value)
    else acc) (s, cyc s.value)

/-- condition.py:3055-3090: the `while` loop.  `fuel` bounds the rounds; the
`assertionError` of the exhausted case is unreachable (`C42_terminates`). -/
def pruneLoop (cyc : Graph α → List (List α)) (c : OpCond α) (owner : α) (base : Graph α) :
    Nat → List (List α) → HG α → Except Err (HG α)
  | 0, _, _ => .error .assertionError
  | fuel + 1, prev, s =>
    if prev = [] then .ok s
    else
      let r := c.pruneRound cyc owner base (sortCycles prev) s
      if prev = r.2 then .ok r.1 else pruneLoop cyc c owner base fuel r.2 r.1

/-- Number of elements of all sets. -/
def heapSize (h : Heap α) : Nat := (h.map List.length).sum

/-- condition.py:3049-3092 `_handle_prune_cycles`. -/
def pruneCycles (cyc : Graph α → List (List α)) (c : OpCond α) (owner : α) (base : Graph α)
    (s : HG α) : Except Err (HG α) :=
  if c.prune then c.pruneLoop cyc owner base (heapSize s.heap + 2) (cyc s.value) s else .ok s

/-- condition.py:2987-3000: the body of the double loop. -/
def reconnectStep (c : OpCond α) (owner : α) (base : Graph α) (sender : α) (s : HG α)
    (receiver : α) : HG α :=
  if receiver ∉ c.nodes ∧ owner ∈ Dict.getD base receiver ∧ sender ∈ Dict.getD base owner ∧
      (owner ∉ s.senders receiver ∨ sender ∉ s.senders owner) ∧
      sender ∉ Dict.getD (getDescendants s.value) receiver then
    s.upd receiver (setAdd sender)
  else s

/-- condition.py:2981-3002 `_handle_reconnect_non_subject_receivers`. -/
def reconnectAll (c : OpCond α) (owner : α) (base : Graph α) (s : HG α) : HG α :=
  if c.reconnect then
    (Dict.getD base owner).foldl (fun s sender =>
      (Dict.getD (getReceivers base) owner).foldl (c.reconnectStep owner base sender) s) s
  else s

/-- condition.py:2974-2979 `_postprocess`. -/
def postprocess (cyc : Graph α → List (List α)) (c : OpCond α) (owner : α) (base : Graph α)
    (s : HG α) : Except Err (HG α) :=
  match c.pruneCycles cyc owner base (if c.removeSelf then removeNewSelf base s else s) with
  | .ok s => .ok (c.reconnectAll owner base s)
  | .error e => .error e

/-- condition.py:2631-2641 `_modify_graph` of the base class.  `base` is the value of the
argument; its sets are not modified (`C39_argument`). -/
def transform (cyc : Graph α → List (List α)) (c : OpCond α) (owner : α) (s : HG α) :
    Except Err (HG α) :=
  match c.operate owner (c.preprocess owner s.clone) with
  | .ok r => c.postprocess cyc owner s.value (c.place owner r)
  | .error e => .error e

/-- condition.py:3262-3267 `_GSCReposition._modify_graph`. -/
def modify (cyc : Graph α → List (List α)) (c : OpCond α) (owner : α) (s : HG α) :
    Except Err (HG α) :=
  if (c.nodes.filter (c.valid owner s.clone)).length = c.nodes.length then .ok s.clone
  else c.transform cyc owner s.clone

end OpCond

/-! ## All built-in classes -/

/-- The built-in structural conditions other than `CustomGraphStructureCondition`. -/
inductive GSC (α : Type _) where
  | reposition (c : OpCond α)
  | addEdgeTo (node : α)        -- condition.py:3432-3441
  | removeEdgeFrom (node : α)   -- condition.py:3444-3458

namespace GSC

/-- The subject nodes. -/
def nodes : GSC α → List α
  | .reposition c => c.nodes
  | .addEdgeTo n => [n]
  | .removeEdgeFrom n => [n]

/-- condition.py:2721-2729: whether the owner and all subjects are keys of the graph. -/
def inGraph (c : GSC α) (owner : α) (s : HG α) : Bool :=
  (owner :: c.nodes).all fun n => n ∈ Dict.keys s.graph

/-- condition.py:2608-2641 `modify_graph`, once the condition has an owner.
Warnings are modelled in `Verif/Warn.lean`. -/
def modifyGraph (cyc : Graph α → List (List α)) (c : GSC α) (owner : α) (s : HG α) :
    Except Err (HG α) :=
  if c.inGraph owner s = false then .error .conditionError
  else match c with
    | .reposition c => c.modify cyc owner s
    | .addEdgeTo node => .ok (s.clone.upd node (setAdd owner))
    | .removeEdgeFrom node => .ok (s.clone.upd owner (setRemove node))

/-- `modify_graph` on values: the effect on a graph whose sets are separate objects. -/
def onValue (cyc : Graph α → List (List α)) (c : GSC α) (owner : α) (g : Graph α) :
    Except Err (Graph α) :=
  match c.modifyGraph cyc owner (HG.load g) with
  | .ok s => .ok s.value
  | .error e => .error e

/-- The condition object with identity `o` (`Verif/CondSet.lean`). -/
def toSCond (cyc : Graph α → List (List α)) (o : OId) (c : GSC α) : SCond α :=
  { o := o, nodes := c.nodes, apply := c.onValue cyc }

end GSC
end GS
