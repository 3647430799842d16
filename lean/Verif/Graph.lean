import Verif.Spec.Graph
/-!
# Model of graph layering

The `toposort` package, scheduler.py:361-381, and the base graph and queue built by
`Scheduler.__init__`.
-/

set_option linter.unusedSectionVars false

namespace GS
variable {α : Type _} [DecidableEq α]

namespace Toposort

/-- `toposort.toposort`, first statement after the empty check:
`data = {item: {e for e in dep if e != item} ...}`.  (The package is a dependency
without pinned version; this is the source of versions >= 1.7.) -/
def stripSelf (g : Graph α) : Graph α := g.map fun p => (p.1, p.2.filter (fun e => e ≠ p.1))

/-- `toposort.toposort`: `extra_items_in_deps`. -/
def extraItems (g : Graph α) : List α :=
  ((g.flatMap Prod.snd).filter (fun v => v ∉ g.map Prod.fst)).eraseDups

/-- `toposort.toposort`: `data.update({item: set() for item in extra_items_in_deps})`;
the extra items are no keys, so `update` appends. -/
def addExtra (g : Graph α) : Graph α := g ++ (extraItems g).map fun n => (n, [])

/-- Items without remaining dependencies. -/
def ordered (g : Graph α) : List α := (g.filter fun p => p.2.isEmpty).map Prod.fst

/-- `{item: (dep - ordered) for item, dep in data.items() if item not in ordered}`. -/
def remove (o : List α) (g : Graph α) : Graph α :=
  (g.filter fun p => p.1 ∉ o).map fun p => (p.1, p.2.filter (fun e => e ∉ o))

/-- The `while True` loop of `toposort`.  `fuel` bounds the number of rounds; the
`assertionError` of the exhausted case is unreachable (`toposort_total`). -/
def rounds : Nat → Graph α → Except Err (List (List α))
  | 0, _ => .error .assertionError
  | f + 1, g =>
    if ordered g = [] then
      if g = [] then .ok [] else .error .circularDependency
    else match rounds f (remove (ordered g) g) with
      | .ok ls => .ok (ordered g :: ls)
      | .error e => .error e

end Toposort

/-- `list(toposort(graph))`: the body of scheduler.py:361-365
`_build_consideration_queue` (its cache is modelled in `Verif/Cache.lean`). -/
def toposort (g : Graph α) : Except Err (List (List α)) :=
  let data := Toposort.addExtra (Toposort.stripSelf g)
  if g = [] then .ok [] else Toposort.rounds (data.length + 1) data

/-- utilities.py:106-118 `clone_graph` followed by scheduler.py:499-504: empty sender
sets for the nodes that only occur as senders, overwritten by the given entries. -/
def baseGraph (g : Graph α) : Graph α :=
  Dict.update (((g.flatMap Prod.snd).eraseDups).map fun n => (n, ([] : List α))) g

/-- scheduler.py:1117-1134 `_push_graph`: the queue stored for a graph. -/
def queueOf (g : Graph α) : List (List α) :=
  match toposort g with
  | .ok q => q
  | .error _ => [[]]

/-- scheduler.py:368-381 `_generate_consideration_queue_indices`. -/
def queueIndices (q : List (List α)) : Dict α Nat :=
  (q.zipIdx).foldl (fun d p => p.1.foldl (fun d n => Dict.set d n p.2) d) []

end GS
