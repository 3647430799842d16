import Verif.Spec.GSC
import Verif.Spec.Structural
import Verif.GraphEdges
/-!
# Changing a graph once, twice, and edge by edge
-/

namespace GS.Spec
variable {α κ W : Type _} [DecidableEq α] [DecidableEq κ]

/-- The same keys, and the same edges. -/
structure SameEdges (g h : Graph α) : Prop where
  keys : Dict.keys g = Dict.keys h
  edges : ∀ x r, Edge g x r ↔ Edge h x r

/-- The conditions for which once is as good as twice: all but `BeforeNodes` with
`owner_senders=KEEP` and `subject_senders=REPLACE` together with removal of self-edges or
of cycles, and `WithNode` for nodes with self-edges. -/
def OnceIsEnough (d : GSC α) (owner : α) (g : Graph α) : Prop :=
  match d with
  | .reposition c => Constructible c owner ∧ match c.kind with
    | .before => (c.ownerSenders ≠ .keep ∨ ∀ n ∈ c.nodes, c.subjectSenders n ≠ .replace) ∨
        (c.removeSelf = false ∧ c.prune = false)
    | .withNode => ¬ Edge g owner owner ∧ ∀ n ∈ c.nodes, ¬ Edge g n n
    | .after => True
  | .addEdgeTo _ => True
  | .removeEdgeFrom _ => True

/-- A call of `add_graph_edge` or of `remove_graph_edge`. -/
structure EdgeCall (α : Type _) where
  add : Bool
  sender : α
  receiver : α
deriving DecidableEq

/-- The last call that is about the edge from `x` to `r`. -/
def lastAbout (calls : List (EdgeCall α)) (x r : α) : Option (EdgeCall α) :=
  (calls.filter fun c => c.sender = x ∧ c.receiver = r).getLast?

/-- An edge is there if the last call about it has added it, or if it was there and no
call is about it. -/
def ByLastCall (calls : List (EdgeCall α)) (g : Graph α) (x r : α) : Prop :=
  match lastAbout calls x r with
  | some c => c.add = true
  | none => Edge g x r

/-- The calls one after the other, each with the identity of the condition object it
makes; none of them raises. -/
inductive EdgeCalls (cyc : Graph α → List (List α)) :
    Stack α κ W → List (OId × EdgeCall α) → Stack α κ W → Prop where
  | nil (s : Stack α κ W) : EdgeCalls cyc s [] s
  | add {s t u : Stack α κ W} {o : OId} {x r : α} {l : List (OId × EdgeCall α)} :
      s.addGraphEdge cyc o x r = (t, none) → EdgeCalls cyc t l u →
      EdgeCalls cyc s ((o, ⟨true, x, r⟩) :: l) u
  | remove {s t u : Stack α κ W} {o : OId} {x r : α} {l : List (OId × EdgeCall α)} :
      s.removeGraphEdge cyc o x r = (t, none) → EdgeCalls cyc t l u →
      EdgeCalls cyc s ((o, ⟨false, x, r⟩) :: l) u

/-- Calls for nodes of the graph. -/
def Sensible (g : Graph α) (calls : List (EdgeCall α)) : Prop :=
  ∀ c ∈ calls, c.sender ≠ c.receiver ∧ c.sender ∈ Dict.keys g ∧ c.receiver ∈ Dict.keys g

/-- `n` is `r` or depends on it, directly or indirectly. -/
def DependsOn (g : Graph α) (r n : α) : Prop := n = r ∨ Relation.TransGen (Edge g) r n

end GS.Spec
