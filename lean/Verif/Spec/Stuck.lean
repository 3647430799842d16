import Verif.Spec.EveryN
import Verif.Spec.Values
import Verif.Spec.Safe
/-!
# Specification: nodes that wait for each other (C99)
-/

set_option linter.unusedSectionVars false

namespace GS.Spec
variable {α κ W : Type _} [DecidableEq α] [DecidableEq κ]

mutual
/-- A condition of the node `b` that only waits: `Always`, `Never`, `AfterPass`,
`AfterNPasses`, `AfterCall`, `AfterNCalls`, `AllHaveRun` (all with the time scale that is
their default), `EveryNCalls`, and `All` and `Any` of such conditions.  (`st` says which
objects exist and to which nodes they belong.) -/
def WaitsOnly (nodes : List α) (st : Store α κ) (b : α) : Cond α κ W → Prop
  | .leaf _ .always | .leaf _ .never => True
  | .leaf _ (.afterPass _ ts) | .leaf _ (.afterNPasses _ ts) => ts = .environment_state_update
  | .leaf _ (.afterCall d _ ts) | .leaf _ (.afterNCalls d _ ts) =>
    ts = .environment_state_update ∧ d ∈ nodes
  | .leaf _ (.allHaveRun ds ts) => ts = .environment_state_update ∧ ∀ d ∈ ds, d ∈ nodes
  | .leaf o (.everyNCalls d _) => d ∈ nodes ∧ o < st.fresh ∧ st.owner o = some b
  | .all _ args | .any _ args => WaitOnly nodes st b args
  | _ => False
/-- All conditions of a list do. -/
def WaitOnly (nodes : List α) (st : Store α κ) (b : α) : List (Cond α κ W) → Prop
  | [] => True
  | c :: cs => WaitsOnly nodes st b c ∧ WaitOnly nodes st b cs
end

mutual
/-- What such a condition waits for will come if the nodes that execute are those in `X`: the
time will come anyway, a (positive) number of calls of a node if the node is in `X`. -/
def Comes (nodes : List α) (X : α → Prop) : Cond α κ W → Prop
  | .leaf _ .always | .leaf _ (.afterPass _ _) | .leaf _ (.afterNPasses _ _) => True
  | .leaf _ (.afterCall d n _) => 0 ≤ n → X d
  | .leaf _ (.afterNCalls d n _) | .leaf _ (.everyNCalls d n) => 1 ≤ n → X d
  | .leaf _ (.allHaveRun ds _) => ∀ d ∈ Meant nodes ds, X d
  | .all _ args => AllCome nodes X args
  | .any _ args => SomeComes nodes X args
  | _ => False
/-- For all conditions of the list. -/
def AllCome (nodes : List α) (X : α → Prop) : List (Cond α κ W) → Prop
  | [] => True
  | c :: cs => Comes nodes X c ∧ AllCome nodes X cs
/-- For one of them. -/
def SomeComes (nodes : List α) (X : α → Prop) : List (Cond α κ W) → Prop
  | [] => False
  | c :: cs => Comes nodes X c ∨ SomeComes nodes X cs
end

/-- What the node `n` waits for will come if the nodes that execute are those in `X`. A node
without a condition waits for its senders. -/
def NodeComes (s : Sys α κ W) (X : α → Prop) (n : α) : Prop :=
  (∃ c, Dict.get? s.conds n = some c ∧ Comes s.nodes X c) ∨
  (Dict.get? s.conds n = none ∧ ∃ senders, Dict.get? s.graph n = some senders ∧ ∀ d ∈ senders, X d)

/-- The nodes of `K` wait for each other in a circle: for each of them, what it waits for
cannot come from nodes outside `K` alone. -/
def Stuck (s : Sys α κ W) (K : List α) : Prop := ∀ n ∈ K, ¬ NodeComes s (fun d => d ∉ K) n

/-- All nodes of the scheduler with a condition have one that only waits. -/
def OnlyWaiting (s : Sys α κ W) : Prop :=
  ∀ n ∈ s.nodes, ∀ c, Dict.get? s.conds n = some c → WaitsOnly s.nodes s.store n c

end GS.Spec
