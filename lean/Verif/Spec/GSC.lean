import Verif.GSC
/-!
# Specification of structural conditions with operations

Written against the documentation of `Operation` and of the arguments
`owner_senders`, `owner_receivers`, `subject_senders` and `subject_receivers`.
-/

namespace GS.Spec
variable {α : Type _}

/-- Whether an element is in the result, given whether it is in the source set and in the
comparison set. -/
def OperHolds : Oper → Prop → Prop → Prop
  | .keep, s, _ => s
  | .replace, _, c => c
  | .discard, _, _ => False
  | .intersection, s, c => s ∧ c
  | .union, s, c => s ∨ c
  | .merge, s, c => s ∨ c
  | .difference, s, c => s ∧ ¬ c
  | .inverseDifference, s, c => c ∧ ¬ s
  | .symmetricDifference, s, c => (s ∧ ¬ c) ∨ (c ∧ ¬ s)

/-- The owner and the subjects. -/
def Touched (c : OpCond α) (owner x : α) : Prop := x = owner ∨ x ∈ c.nodes

/-- The sender operation of `r` makes `x` a sender of `r`. -/
def NewSender (c : OpCond α) (owner : α) (g : Graph α) (r x : α) : Prop :=
  (r = owner ∧ OperHolds c.ownerSenders (Edge g x owner) (∃ n ∈ c.nodes, Edge g x n)) ∨
  (r ≠ owner ∧ OperHolds (c.subjectSenders r) (Edge g x r) (Edge g x owner))

/-- The receiver operation of `x` makes `r` a receiver of `x`. -/
def NewReceiver (c : OpCond α) (owner : α) (g : Graph α) (x r : α) : Prop :=
  (x = owner ∧ OperHolds c.ownerReceivers (Edge g owner r) (∃ n ∈ c.nodes, Edge g n r)) ∨
  (x ≠ owner ∧ OperHolds (c.subjectReceivers x) (Edge g x r) (Edge g owner r))

/-- Two operations disagree about an edge between the owner and the subjects. -/
def Disagree (c : OpCond α) (owner : α) (g : Graph α) : Prop :=
  ∃ x r, Touched c owner x ∧ Touched c owner r ∧
    ¬ (NewSender c owner g r x ↔ NewReceiver c owner g x r)

/-- `g'` results from `g` by the operations. -/
structure Operated (c : OpCond α) (owner : α) (g g' : Graph α) : Prop where
  nodes : Dict.keys g' = Dict.keys g
  senders : ∀ x r, Touched c owner r → (Edge g' x r ↔ NewSender c owner g r x)
  receivers : ∀ x r, Touched c owner x → (Edge g' x r ↔ NewReceiver c owner g x r)
  others : ∀ x r, ¬ Touched c owner x → ¬ Touched c owner r → (Edge g' x r ↔ Edge g x r)

/-- `g` without the edges between the owner and the subjects. -/
def WithoutOwnerEdges (c : OpCond α) (owner : α) (g g' : Graph α) : Prop :=
  Dict.keys g' = Dict.keys g ∧ ∀ x r, Edge g' x r ↔
    Edge g x r ∧ ¬ (x = owner ∧ r ∈ c.nodes) ∧ ¬ (x ∈ c.nodes ∧ r = owner)

/-- The edges a condition is for: owner before subjects, subjects before owner, and for
`WithNode` all edges into the owner and the subject. -/
def RequiredEdge (c : OpCond α) (owner sender receiver : α) : Prop :=
  match c.kind with
  | .before => sender = owner ∧ receiver ∈ c.nodes
  | .withNode => receiver ∈ c.nodes ∨ receiver = owner
  | .after => sender ∈ c.nodes ∧ receiver = owner

/-- A simple cycle, listed from any of its nodes in the direction of the edges. -/
def SimpleCycle (g : Graph α) (c : List α) : Prop :=
  c ≠ [] ∧ c.Nodup ∧ ∀ i a b, c[i]? = some a → c[(i + 1) % c.length]? = some b → Edge g a b

/-- What is assumed of `nx.simple_cycles`: it lists simple cycles only, and some if there
is one. -/
def ListsCycles (cyc : Graph α → List (List α)) : Prop :=
  ∀ g, (∀ c ∈ cyc g, SimpleCycle g c) ∧ ((∃ c, SimpleCycle g c) → cyc g ≠ [])

/-- A cycle, self-edges included. -/
def Cyclic (g : Graph α) : Prop := ∃ n, Relation.TransGen (Edge g) n n

/-- The owner already is where the condition puts it, for every subject. -/
def AlreadyPlaced (c : OpCond α) (owner : α) (g : Graph α) : Prop :=
  ∀ n ∈ c.nodes, match c.kind with
    | .before => Edge g owner n
    | .withNode => ∀ x, Edge g x n ↔ Edge g x owner
    | .after => Edge g n owner

/-- The edges the three classes add to those given by the operations. -/
def Added (c : OpCond α) (owner : α) (g : Graph α) (x r : α) : Prop :=
  match c.kind with
  | .before => x = owner ∧ r ∈ c.nodes
  | .withNode => Touched c owner r ∧ ∃ r', Touched c owner r' ∧ Edge g x r'
  | .after => x ∈ c.nodes ∧ r = owner

/-- The attributes a `BeforeNodes`, `WithNode` or `AfterNodes` object can have
(condition.py:2699-2717, 2737-2743, 3337-3357): a subject is not the owner; `WithNode` has
one subject and merges senders. -/
structure Constructible (c : OpCond α) (owner : α) : Prop where
  apart : owner ∉ c.nodes
  withNode : c.kind = .withNode → ∃ n, c.nodes = [n] ∧ c.ownerSenders = .merge ∧
    c.subjectSenders n = .merge

end GS.Spec
