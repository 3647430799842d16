import Verif.Spec.Reference
/-!
# Specification vocabulary: nodes that wait for nodes that wait for nodes
-/

set_option linter.unusedSectionVars false

namespace GS.Spec
variable {α κ W : Type _} [DecidableEq α] [DecidableEq κ]

/-- The condition holds only if `d` has been called `k` times since: it is `EveryNCalls(d, k)`, or a
conjunction one part of which, or a disjunction every part of which is such, or `NWhen` of such. -/
inductive NeedsCalls (d : α) (k : Nat) : Cond α κ W → Prop
  | every {o : OId} : NeedsCalls d k (.leaf o (.everyNCalls d k))
  | all {o : OId} {cs : List (Cond α κ W)} {c : Cond α κ W} (hc : c ∈ cs) (h : NeedsCalls d k c) :
      NeedsCalls d k (.all o cs)
  | any {o : OId} {cs : List (Cond α κ W)} (h : ∀ c ∈ cs, NeedsCalls d k c) : NeedsCalls d k (.any o cs)
  | nwhen {o : OId} {c : Cond α κ W} {m : Int} (h : NeedsCalls d k c) : NeedsCalls d k (.nwhen o c m)

/-- The node `n` waits for `k` calls of another node `d`: its condition says so, or it has no condition,
`d` is one of its senders and `k` is 1. -/
def WaitsForCalls (s : Sys α κ W) (n d : α) (k : Nat) : Prop :=
  d ≠ n ∧ ((∃ c, Dict.get? s.conds n = some c ∧ NeedsCalls d k c) ∨
    (Dict.get? s.conds n = none ∧ k = 1 ∧ ∃ ds, Dict.get? s.graph n = some ds ∧ d ∈ ds))

/-- A chain of nodes from `n` to `e`, each of which waits for calls of the next; `k` is the product of
the numbers. -/
inductive ChainOfCalls (s : Sys α κ W) : α → α → Nat → Prop
  | one {n d : α} {k : Nat} (h : WaitsForCalls s n d k) : ChainOfCalls s n d k
  | more {n d e : α} {j k : Nat} (h : WaitsForCalls s n d j) (hs : ChainOfCalls s d e k) :
      ChainOfCalls s n e (j * k)

end GS.Spec
