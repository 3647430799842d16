import Verif.Spec.EveryN
import Verif.Spec.Graph
/-!
# Specification vocabulary: nodes that execute in every n-th pass
-/

set_option linter.unusedSectionVars false

namespace GS.Spec
variable {α κ W : Type _} [DecidableEq α] [DecidableEq κ]

/-- `c`, a condition of the node `n`, waits for exactly the calls in the list: it is
`Always()` (no calls), `EveryNCalls(d, k)` with `k ≥ 1` (`k` calls of `d`), or `All` of such
conditions. (`st` says which condition objects exist and which nodes they belong to.) -/
inductive WaitsFor (st : Store α κ) (n : α) : Cond α κ W → List (α × Nat) → Prop
  | always (o : OId) : WaitsFor st n (.leaf o .always) []
  | every (o : OId) (d : α) (k : Nat) (hk : 1 ≤ k) (ho : o < st.fresh ∧ st.owner o = some n) :
      WaitsFor st n (.leaf o (.everyNCalls d k)) [(d, k)]
  | allNil (o : OId) : WaitsFor st n (.all o []) []
  | allCons (o : OId) (c : Cond α κ W) (cs : List (Cond α κ W)) (l m : List (α × Nat))
      (hc : WaitsFor st n c l) (hcs : WaitsFor st n (.all o cs) m) :
      WaitsFor st n (.all o (c :: cs)) (l ++ m)

/-- The calls the node `n` of a scheduler waits for: those of its condition; one call of each
of its senders if it has none. -/
def NodeWaitsFor (s : Sys α κ W) (n : α) (l : List (α × Nat)) : Prop :=
  (∃ c, Dict.get? s.conds n = some c ∧ WaitsFor s.store n c l) ∨
  (Dict.get? s.conds n = none ∧ ∃ deps, Dict.get? s.graph n = some deps ∧ l = deps.map fun d => (d, 1))

/-- The largest product `k * rate d` over the calls waited for, at least 1. -/
def slowest (rate : α → Nat) : List (α × Nat) → Nat
  | [] => 1
  | p :: l => max (p.2 * rate p.1) (slowest rate l)

/-- The nodes in `G` wait only for each other, each for nodes in earlier consideration sets,
and `rate` gives their rates: a node that waits for nothing has rate 1, another one the
largest product `k * rate d` over the `k` calls of `d` it waits for. All are at positions up
to `j`. -/
def Rated (s : Sys α κ W) (G : α → Prop) (rate : α → Nat) (j : Nat) : Prop :=
  ∀ n, G n → ∃ i l, i ≤ j ∧ At s.queue i n ∧ NodeWaitsFor s n l ∧ rate n = slowest rate l ∧
    ∀ p ∈ l, G p.1 ∧ ∃ i', i' < i ∧ At s.queue i' p.1

end GS.Spec
