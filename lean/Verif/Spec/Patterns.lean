import Verif.Spec.Restate
/-!
# Specification vocabulary: patterns of execution

A pattern lists, pass by pass, the sets of nodes that execute together.
-/

set_option linter.unusedSectionVars false

namespace GS.Spec
variable {α κ W : Type _} [DecidableEq α] [DecidableEq κ]

/-- Sets that the consideration sets `q` can yield in this order: each consideration set is
passed over or yields some of its nodes, at least one. -/
inductive Possible : List (List α) → List (List α) → Prop
  | nil : Possible [] []
  | over {l : List α} {q p : List (List α)} : Possible q p → Possible (l :: q) p
  | some {l x : List α} {q p : List (List α)} :
      x ≠ [] → (∀ n ∈ x, n ∈ l) → Possible q p → Possible (l :: q) (x :: p)

/-- What a pass can yield: such sets, at least one, or, if nothing executes, one empty set. -/
def PossiblePass (q p : List (List α)) : Prop := (p ≠ [] ∧ Possible q p) ∨ p = [[]]

/-- The passes of the pattern in which the node executes. -/
def passesOf (T : List (List (List α))) (n : α) : List Nat :=
  (List.range T.length).filter fun k => decide (n ∈ (T[k]?.getD []).flatten)

/-- `Any(AtPass(k1), AtPass(k2), ...)`, whichever objects it is made of. -/
def IsAtPasses (ks : List Nat) (c : Cond α κ W) : Prop :=
  bare c = .any 0 (ks.map fun (k : Nat) => .leaf 0 (.atPass (k : Int) .environment_state_update))

/-- Each node's condition is `Any(AtPass(k1), AtPass(k2), ...)`, for the passes in which it is to
execute. -/
def Timetable (T : List (List (List α))) (s : Sys α κ W) : Prop :=
  ∀ n ∈ s.nodes, ∃ c, Dict.get? s.conds n = Option.some c ∧ IsAtPasses (passesOf T n) c

/-- The run ends after `N` passes. -/
def AfterPasses (N : Nat) (a : RunArgs α κ W) : Prop :=
  bare a.esu = .leaf 0 (.afterNPasses (N : Int) .environment_state_update) ∧
  bare a.seq = .leaf 0 .never

end GS.Spec
