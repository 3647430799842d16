import Verif.Spec.Rates
import Verif.Spec.Order
/-!
# Specification vocabulary: the complete schedule of nodes with rates
-/

set_option linter.unusedSectionVars false

namespace GS.Spec
variable {α : Type _} [DecidableEq α]

/-- A list of sets without the empty ones; if nothing remains, one empty set. -/
def orEmpty (l : List (List α)) : List (List α) :=
  match l.filter fun x => !x.isEmpty with
  | [] => [[]]
  | x :: l => x :: l

/-- What the `p`-th pass yields: of every consideration set, in order, the nodes whose rate
divides `p`; one empty set if there is no such node. -/
def ratedPass (rate : α → Nat) (q : List (List α)) (p : Nat) : List (List α) :=
  orEmpty (q.map fun layer => layer.filter fun n => decide (rate n ∣ p))

/-- What the passes `1, ..., N` yield. -/
def ratedSchedule (rate : α → Nat) (q : List (List α)) (N : Nat) : List (List α) :=
  (List.range N).flatMap fun p => ratedPass rate q (p + 1)

/-- The sets up to the one with which all of `nodes` have occurred. -/
def untilAll (nodes : List α) : List (List α) → List (List α)
  | [] => []
  | x :: l => if nodes = [] then [] else x :: untilAll (nodes.filter fun n => !x.contains n) l

end GS.Spec
