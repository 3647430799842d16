import Verif.Spec.GSC
import Verif.Spec.Graph
/-!
# One graph, written in two ways

A dependency dict lists its keys, and each set its elements, in some order.  For sets of
strings this order differs from process to process.
-/

namespace GS.Spec
variable {α : Type _} [DecidableEq α]

/-- The same keys and the same edges, whatever the order of the keys and of the elements
of the sets. -/
structure SameShape (g h : Graph α) : Prop where
  keys : ∀ n, n ∈ Dict.keys g ↔ n ∈ Dict.keys h
  edges : ∀ x r, Edge g x r ↔ Edge h x r

/-- The same graph, or the same error. -/
inductive SameOutcome : Except Err (HG α) → Except Err (HG α) → Prop
  | graph {s t : HG α} : SameShape s.value t.value → SameOutcome (.ok s) (.ok t)
  | raised (e : Err) : SameOutcome (.error e) (.error e)

/-- A call of `modify_graph` whose result does not depend on how the graph is written:
an edge condition, or a repositioning condition for which
* conflicts are reported, or there are none;
* the graph has no cycle, if the condition is to reconnect;
* there is no cycle to prune, if the condition is to prune. -/
def Unordered (cyc : Graph α → List (List α)) (owner : α) (s : HG α) : GSC α → Prop
  | .addEdgeTo _ => True
  | .removeEdgeFrom _ => True
  | .reposition c => Constructible c owner ∧
    (c.ignoreConflicts = false ∨
      ∃ t, (GSC.reposition { c with ignoreConflicts := false }).modifyGraph cyc owner s = .ok t) ∧
    (c.reconnect = true → ¬ Cyclic s.value) ∧
    (c.prune = true → ∀ t, (GSC.reposition { c with prune := false, reconnect := false }).modifyGraph
      cyc owner s = .ok t → ¬ Cyclic t.value)

/-- The conditions applied one after the other, each with its owner; each call is one that
does not depend on how the graph is written. -/
def AllUnordered (cyc : Graph α → List (List α)) : Graph α → List (α × GSC α) → Prop
  | _, [] => True
  | g, (owner, d) :: ds => Unordered cyc owner (HG.load g) d ∧
    ∀ g', d.onValue cyc owner g = .ok g' → AllUnordered cyc g' ds

/-- The effect of the conditions, first to last. -/
def applyAll (cyc : Graph α → List (List α)) : Graph α → List (α × GSC α) → Except Err (Graph α)
  | g, [] => .ok g
  | g, (owner, d) :: ds => match d.onValue cyc owner g with
    | .ok g' => applyAll cyc g' ds
    | .error e => .error e

/-- The condition objects `es`, with their owners, are the conditions `ds` in this order,
whatever their identities. -/
inductive AreConditions (cyc : Graph α → List (List α)) : List (α × SCond α) → List (α × GSC α) → Prop
  | nil : AreConditions cyc [] []
  | cons {es : List (α × SCond α)} {ds : List (α × GSC α)} (owner : α) (d : GSC α) (o : OId) :
      AreConditions cyc es ds → AreConditions cyc ((owner, d.toSCond cyc o) :: es) ((owner, d) :: ds)

end GS.Spec
