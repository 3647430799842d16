import Verif.Basic
/-!
# Specification vocabulary for graphs

A dependency dict maps a receiver to its senders.
-/

namespace GS

/-- A graph in dependency-dict form: `{receiver: {senders}}`
(utilities.py:22 `typing_graph_dependency_dict`).  The list of senders stands for a
Python set: only membership matters. -/
abbrev Graph (α : Type _) := Dict α (List α)

namespace Spec
variable {α : Type _}

/-- `s` is listed as a sender of `r`. -/
def Edge (g : Graph α) (s r : α) : Prop := ∃ p ∈ g, p.1 = r ∧ s ∈ p.2

/-- Keys and nodes that only appear as senders. -/
def IsNode (g : Graph α) (n : α) : Prop := (∃ p ∈ g, p.1 = n) ∨ ∃ p ∈ g, n ∈ p.2

/-- An edge between two different nodes. -/
def ProperEdge (g : Graph α) (s r : α) : Prop := Edge g s r ∧ s ≠ r

/-- A cycle through at least two nodes. -/
def HasCycle (g : Graph α) : Prop := ∃ n, Relation.TransGen (ProperEdge g) n n

/-- `ChainTo g k n`: there is a chain of `k` edges between different nodes ending
in `n`. -/
def ChainTo (g : Graph α) : Nat → α → Prop
  | 0, n => IsNode g n
  | k + 1, n => ∃ s, ProperEdge g s n ∧ ChainTo g k s

/-- Every node's longest chain has length `i` exactly for the nodes of layer `i`. -/
def At (q : List (List α)) (i : Nat) (n : α) : Prop := ∃ l, q[i]? = some l ∧ n ∈ l

end Spec
end GS

namespace GS.Spec
variable {α : Type _}

/-- Two presentations of the same graph: same nodes, same edges. -/
structure SameGraph (g h : Graph α) : Prop where
  nodes : ∀ n, IsNode g n ↔ IsNode h n
  edges : ∀ s r, Edge g s r ↔ Edge h s r

/-- Two queues with the same sets in the same order. -/
def SameQueue (p q : List (List α)) : Prop :=
  p.length = q.length ∧ ∀ i n, At p i n ↔ At q i n

end GS.Spec
