import Verif.Spec.Run
/-!
# Specification: how often conditions are evaluated
-/

set_option linter.unusedSectionVars false

namespace GS.Spec
variable {α κ W : Type _} [DecidableEq α] [DecidableEq κ]

/-- The node whose condition the generator evaluates in its next step, if any: the next one
of the consideration set that is not selected already.  (`C98_only`: the step depends on no
other node's condition.) -/
def evaluates : PC α → Option α
  | .choosing c => match c.todo with
    | [] => none
    | n :: _ => if n ∈ c.exec then none else some n
  | _ => none

/-- The choice of a set from `layer`, from its beginning on; the list is the nodes whose
conditions were evaluated in it, in order. -/
inductive Choosing (a : RunArgs α κ W) (abs : Bool) (layer : List α) :
    List α → Sys α κ W → Choice α → Prop
  | begin {s : Sys α κ W} {idx : Nat} {changed : Bool} : Choosing a abs layer [] s
      { idx := idx, changed := changed, layer := layer, exec := [], todo := layer, again := false }
  | step {l : List α} {s s' : Sys α κ W} {c c' : Choice α} {ev : Option (Event α)} :
      Choosing a abs layer l s c → s.step a abs (.choosing c) = (s', .choosing c', ev) →
      Choosing a abs layer (l ++ (evaluates (.choosing c)).toList) s' c'

/-- The nodes whose conditions are evaluated in `k` steps of a run. -/
def evaluationsIn (a : RunArgs α κ W) (abs : Bool) : Nat → Sys α κ W → PC α → List α
  | 0, _, _ => []
  | k + 1, s, pc => (evaluates pc).toList ++
      evaluationsIn a abs k (s.step a abs pc).1 (s.step a abs pc).2.1

/-- 1 + 2 + ... + n. -/
def upTo (n : Nat) : Nat := n * (n + 1) / 2

/-- The same scheduler with other conditions for its nodes. -/
def withConds (s : Sys α κ W) (d : Dict α (Cond α κ W)) : Sys α κ W := { s with conds := d }

end GS.Spec
