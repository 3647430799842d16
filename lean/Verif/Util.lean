import Verif.Graph
/-!
# Model of the graph functions of utilities.py

`get_receivers`, the conversions from and to networkx, ancestors and descendants, and
`clone_graph` on the values users write.
-/

set_option linter.unusedSectionVars false

namespace GS
variable {α : Type _} [DecidableEq α]

/-- `set.add`. -/
def setAdd (x : α) (l : List α) : List α := if x ∈ l then l else l ++ [x]

/-- `set.discard` / `set.remove` of an element. -/
def setRemove (x : α) (l : List α) : List α := l.filter (fun y => y ≠ x)

/-- `d[k]` for a dict of sets, the empty set if there is no entry. -/
def Dict.getD (d : Graph α) (k : α) : List α :=
  match Dict.get? d k with
  | some l => l
  | none => []

/-! ## Receivers -/

/-- utilities.py:319-323: `if s not in receivers: receivers[s] = set()` followed by
`receivers[s].add(node)`. -/
def addReceiver (rs : Graph α) (s node : α) : Graph α := Dict.set rs s (setAdd node (Dict.getD rs s))

/-- utilities.py:308-324 `get_receivers`. -/
def getReceivers (g : Graph α) : Graph α :=
  g.foldl (fun rs p => p.2.foldl (fun rs s => addReceiver rs s p.1) rs)
    ((Dict.keys g).map fun n => (n, []))

/-! ## networkx -/

/-- A `networkx.DiGraph`: for every node its successors (`graph.adj`).  networkx is an
external package; only the parts used here are modelled, after its documentation. -/
abbrev NxGraph (α : Type _) := Dict α (List α)

/-- `nx.DiGraph(d)` for a dict of sets: nodes are the keys, then the other nodes that
occur; an edge `k -> v` for every `v` in `d[k]`. -/
def nxOfDict (d : Graph α) : NxGraph α := Toposort.addExtra d

/-- `G.reverse()`. -/
def nxReverse (G : NxGraph α) : NxGraph α :=
  G.map fun p => (p.1, (Dict.keys G).filter fun u => p.1 ∈ Dict.getD G u)

/-- utilities.py:167-183 `dependency_dict_to_networkx_digraph`. -/
def toNx (g : Graph α) : NxGraph α := nxReverse (nxOfDict g)

/-- utilities.py:201-202, 204-205: `if n not in res_graph: res_graph[n] = set()`. -/
def ensureKey (g : Graph α) (n : α) : Graph α :=
  match Dict.get? g n with
  | some _ => g
  | none => Dict.set g n []

/-- utilities.py:203-206: the body of the inner loop. -/
def addSender (g : Graph α) (sender rec : α) : Graph α :=
  Dict.set (ensureKey g rec) rec (setAdd sender (Dict.getD (ensureKey g rec) rec))

/-- utilities.py:186-207 `networkx_digraph_to_dependency_dict`. -/
def fromNx (addMissing : Bool) (G : NxGraph α) : Graph α :=
  G.foldl (fun res p =>
    p.2.foldl (fun res rec => addSender res p.1 rec)
      (if addMissing then ensureKey res p.1 else res)) []

/-! ## Ancestors and descendants -/

/-- One more round of a breadth-first search from `x`: the nodes that are successors of
`x` or of a node found so far. -/
def bfsStep (G : NxGraph α) (x : α) (found : List α) : List α :=
  (Dict.keys G).filter fun r =>
    decide (r ∈ Dict.getD G x) || found.any fun s => decide (r ∈ Dict.getD G s)

/-- `k` rounds. -/
def bfs (G : NxGraph α) (x : α) : Nat → List α
  | 0 => []
  | k + 1 => bfsStep G x (bfs G x k)

/-- `nx.descendants(G, x)`: `{child for parent, child in bfs_edges(G, x)}`, which does not
contain `x` itself.  After as many rounds as there are nodes nothing new is found
(`bfs_closed`). -/
def nxDescendants (G : NxGraph α) (x : α) : List α := setRemove x (bfs G x G.length)

/-- `nx.ancestors(G, x)`: the same search against the edges. -/
def nxAncestors (G : NxGraph α) (x : α) : List α := nxDescendants (nxReverse G) x

/-- utilities.py:282-292 `get_ancestors`. -/
def getAncestors (g : Graph α) : Graph α := (Dict.keys g).map fun n => (n, nxAncestors (toNx g) n)

/-- utilities.py:295-305 `get_descendants`. -/
def getDescendants (g : Graph α) : Graph α :=
  (Dict.keys g).map fun n => (n, nxDescendants (toNx g) n)

/-! ## Cloning -/

/-- What users may write as the dependencies of a node: an iterable other than a string,
or anything else (a single node, e.g. a string). -/
inductive Deps (α : Type _) where
  | iter (l : List α)
  | single (x : α)

/-- utilities.py:113-116: `set(v)` or `set([v])`. -/
def Deps.toSet : Deps α → List α
  | .iter l => l.eraseDups
  | .single x => [x]

/-- utilities.py:106-118 `clone_graph`. -/
def cloneRaw (g : Dict α (Deps α)) : Graph α :=
  g.foldl (fun res p => Dict.set res p.1 p.2.toSet) []

end GS
