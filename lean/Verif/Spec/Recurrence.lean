import Verif.Spec.ByPass
/-!
# Specification vocabulary: schedules pass by pass
-/

set_option linter.unusedSectionVars false

namespace GS.Spec
variable {α κ W : Type _} [DecidableEq α] [DecidableEq κ]

/-- In how many of the passes the node executed. -/
def passesWith (d : α) (ps : List (List (List α))) : Nat := ps.countP fun p => decide (d ∈ p.flatten)

/-- The part of a list from its last element with `p` on; the whole list if there is none. -/
def fromLast {β : Type _} (p : β → Bool) (l : List β) : List β :=
  l.drop (l.length - (afterLast p l).length - 1)

/-- The node `d` is in one of the sets before that of `n`. -/
def goesBefore (q : List (List α)) (d n : α) : Bool :=
  decide (d ∈ (q.takeWhile fun l => decide (n ∉ l)).flatten)

section
variable (q : List (List α)) (runs : List (List (List (List α)))) (B : List (List (List α)))
  (P : List (List α))

/-- When the set of `n` is considered in the pass `P`, of this pass only the sets before it count. -/
def seenNow (n d : α) : List (List (List α)) := if goesBefore q d n then [P] else []

/-- How often `d` executed until `n` is considered in the pass `P`, which comes after the passes `B` of
the run and after the earlier runs. -/
def calledBy (ts : TimeScale) (n d : α) : Nat :=
  match ts with
  | .pass => passesWith d (seenNow q P n d)
  | .environment_state_update => passesWith d (B ++ seenNow q P n d)
  | _ => runs.flatten.flatten.flatten.count d + passesWith d (B ++ seenNow q P n d)

/-- How often `d` executed since `n` last did, until `n` is considered in the pass `P`. If `d` is
considered before `n`, it counts in the passes after the last one with `n`, and in `P`; if it is
considered after `n`, it counts from the last pass with `n` on, but not in `P`. -/
def calledSince (n d : α) : Nat :=
  if goesBefore q d n then passesWith d (afterLast (fun p => decide (n ∈ p.flatten)) B ++ [P])
  else passesWith d (fromLast (fun p => decide (n ∈ p.flatten)) B)

/-- What a condition of `n` says of the pass `P`. -/
def saysLeaf (n : α) : Leaf α κ W → Prop
  | .beforeNCalls d k ts => (calledBy q runs B P ts n d : Int) < k
  | .atNCalls d k ts => (calledBy q runs B P ts n d : Int) = k
  | .afterCall d k ts => k < (calledBy q runs B P ts n d : Int)
  | .afterNCalls d k ts => k ≤ (calledBy q runs B P ts n d : Int)
  | .everyNCalls d k => k ≤ (calledSince q B P n d : Int)
  | .allHaveRun ds ts => ∀ d ∈ ds, 1 ≤ calledBy q runs B P ts n d
  | k => dueLeaf runs.length B.length k

mutual
/-- What a composed condition of `n` says of the pass. -/
def says (n : α) : Cond α κ W → Prop
  | .leaf _ k => saysLeaf q runs B P n k
  | .all _ cs => saysAll n cs
  | .any _ cs => saysAny n cs
  | .not _ c => ¬ says n c
  | _ => False
/-- All of them say so. -/
def saysAll (n : α) : List (Cond α κ W) → Prop
  | [] => True
  | c :: cs => says n c ∧ saysAll n cs
/-- One of them says so. -/
def saysAny (n : α) : List (Cond α κ W) → Prop
  | [] => False
  | c :: cs => says n c ∨ saysAny n cs
end

end

section
variable (runs : List (List (List (List α)))) (B : List (List (List α))) (P : List (List α))

/-- Whether `n` is to execute in the pass: what its condition says; with `NWhen(c, m)`, that `c` says
so and `n` has executed less than `m` times; without condition, that every sender has executed since. -/
def executesIn (s : Sys α κ W) (n : α) : Prop :=
  match Dict.get? s.conds n with
  | some (.nwhen _ c m) =>
    ((runs.flatten.flatten.flatten.count n + passesWith n B : Nat) : Int) < m ∧ says s.queue runs B P n c
  | some c => says s.queue runs B P n c
  | none => match Dict.get? s.graph n with
    | some ds => ∀ d ∈ ds, 1 ≤ calledSince s.queue B P n d
    | none => False

end

/-- The two nodes are in different sets. -/
def InAnotherSet (q : List (List α)) (d n : α) : Prop := ∃ i j, i ≠ j ∧ At q i d ∧ At q j n

/-- Conditions on the numbers of passes and runs and on the calls of nodes with `E`. -/
def OtherLeaf (E : α → Prop) : Leaf α κ W → Prop
  | .beforeNCalls d _ ts | .atNCalls d _ ts | .afterCall d _ ts | .afterNCalls d _ ts =>
    E d ∧ ts ≠ .consideration_set_execution
  | .everyNCalls d _ => E d
  | .allHaveRun ds ts => ds ≠ [] ∧ (∀ d ∈ ds, E d) ∧ ts ≠ .consideration_set_execution
  | k => PassLeaf k

/-- Such conditions, joined by `All`, `Any` and `Not`. -/
inductive OtherCond (E : α → Prop) : Cond α κ W → Prop
  | leaf {o : OId} {k : Leaf α κ W} (h : OtherLeaf E k) : OtherCond E (.leaf o k)
  | all {o : OId} {cs : List (Cond α κ W)} (h : ∀ c ∈ cs, OtherCond E c) : OtherCond E (.all o cs)
  | any {o : OId} {cs : List (Cond α κ W)} (h : ∀ c ∈ cs, OtherCond E c) : OtherCond E (.any o cs)
  | not {o : OId} {c : Cond α κ W} (h : OtherCond E c) : OtherCond E (.not o c)

/-- What decides about `n` is in other sets: its condition, or the condition inside `NWhen`, is such a
condition on nodes of other sets; or it has no condition and its senders are in other sets. -/
def LooksElsewhere (s : Sys α κ W) (n : α) : Prop :=
  (∃ c, Dict.get? s.conds n = some c ∧ OtherCond (fun d => InAnotherSet s.queue d n) c) ∨
  (∃ o c m, Dict.get? s.conds n = some (.nwhen o c m) ∧ OtherCond (fun d => InAnotherSet s.queue d n) c) ∨
  (Dict.get? s.conds n = none ∧ ∀ ds, Dict.get? s.graph n = some ds → ∀ d ∈ ds, InAnotherSet s.queue d n)

/-- Which nodes execute in a pass. -/
def nodesIn (P : List (List α)) (n : α) : Bool := decide (n ∈ P.flatten)

/-- The passes contain only nodes of the queue, and for each of them and each pass the recurrence
holds. -/
def Solves (s0 : Sys α κ W) (runs : List (List (List (List α)))) (E : List (List (List α))) : Prop :=
  ∀ B P C, E = B ++ P :: C → (∀ n ∈ P.flatten, n ∈ s0.queue.flatten) ∧
    ∀ n ∈ s0.queue.flatten, (n ∈ P.flatten ↔ executesIn runs B P s0 n)

end GS.Spec
