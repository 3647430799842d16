import Verif.Spec.Reference
/-!
# Specification vocabulary: the phasing examples of the documentation

scheduler.py:256-300, with any numbers.
-/

set_option linter.unusedSectionVars false

namespace GS.Spec
variable {α κ W : Type _} [DecidableEq α] [DecidableEq κ]

/-- The condition object belongs to the node. -/
def Owned (s : Sys α κ W) (o : OId) (n : α) : Prop := o < s.store.fresh ∧ s.store.owner o = some n

/-- "Alternate basic phasing in a linear process": two nodes in successive consideration sets;
`a` has `Any(AtPass(0), EveryNCalls(b, n))`, `b` has `Any(EveryNCalls(a, 1), EveryNCalls(b, 1))`. -/
structure Alternates (s : Sys α κ W) (a b : α) (n : Nat) : Prop where
  queue : s.queue = [[a], [b]]
  apart : a ≠ b
  nodes : ∀ m, m ∈ s.nodes ↔ m = a ∨ m = b
  first : ∃ o o1 o2, Dict.get? s.conds a = some (.any o [.leaf o1 (.atPass 0 .environment_state_update),
    .leaf o2 (.everyNCalls b n)]) ∧ Owned s o2 a
  second : ∃ o o1 o2, Dict.get? s.conds b = some (.any o [.leaf o1 (.everyNCalls a 1),
    .leaf o2 (.everyNCalls b 1)]) ∧ Owned s o1 b ∧ Owned s o2 b

/-- "Basic phasing in two processes": `a` and `b` in one consideration set, `c` in the next;
`a` has `EveryNPasses(1)`, `b` has `EveryNCalls(a, k)`, `c` has
`Any(AfterNCalls(a, i), AfterNCalls(b, j))`. -/
structure TwoProcesses (s : Sys α κ W) (a b c : α) (k i j : Nat) : Prop where
  queue : s.queue = [[a, b], [c]] ∨ s.queue = [[b, a], [c]]
  apart : a ≠ b ∧ a ≠ c ∧ b ≠ c
  nodes : ∀ m, m ∈ s.nodes ↔ m = a ∨ m = b ∨ m = c
  first : ∃ o, Dict.get? s.conds a = some (.leaf o (.everyNPasses 1 .environment_state_update))
  second : ∃ o, Dict.get? s.conds b = some (.leaf o (.everyNCalls a k)) ∧ Owned s o b
  third : ∃ o o1 o2, Dict.get? s.conds c = some (.any o
    [.leaf o1 (.afterNCalls a i .environment_state_update),
     .leaf o2 (.afterNCalls b j .environment_state_update)])

/-- The run ends when the node has been executed `m` times in it: `AfterNCalls(n, m)`. -/
def UntilCalls (n : α) (m : Nat) (a : RunArgs α κ W) : Prop :=
  ∃ o o', a.esu = .leaf o (.afterNCalls n m .environment_state_update) ∧ a.seq = .leaf o' .never

/-- Pass `t` (counted from 0) of the first example: `a` in every `n`-th pass, `b` in each. -/
def alternatePass (a b : α) (n t : Nat) : List (List α) :=
  (if n ∣ t then [[a]] else []) ++ [[b]]

/-- Pass `t` (counted from 0) of the second example: `a` in each pass, `b` with every `k`-th
execution of `a`, and `c` from the pass on in which `a` has executed `i` times or `b` has
executed `j` times. -/
def twoProcessPass (a b c : α) (k i j t : Nat) : List (List α) :=
  [if k ∣ t + 1 then [a, b] else [a]] ++ if i ≤ t + 1 ∨ j ≤ (t + 1) / k then [[c]] else []

end GS.Spec
