import Verif.Spec.Run
/-!
# Specification vocabulary: runs that differ in the iteration order of sets
-/

set_option linter.unusedSectionVars false

namespace GS.Spec
variable {α κ W : Type _} [DecidableEq α] [DecidableEq κ]

/-- Two lists that represent the same set. -/
def SameMembers (x y : List α) : Prop := ∀ n, n ∈ x ↔ n ∈ y

/-- The same sets in the same order; the order inside the sets may differ. -/
inductive SameSets : List (List α) → List (List α) → Prop
  | nil : SameSets [] []
  | cons {x y : List α} {xs ys : List (List α)} :
      SameMembers x y → SameSets xs ys → SameSets (x :: xs) (y :: ys)

/-- The same scheduler, but Python iterates over the consideration sets in another
order. -/
def Reordered (s s' : Sys α κ W) : Prop :=
  s' = { s with queue := s'.queue } ∧ SameSets s.queue s'.queue

/-- `d` and `m` are never considered together. -/
def NotTogether (q : List (List α)) (d m : α) : Prop := ∀ l ∈ q, ¬ (d ∈ l ∧ m ∈ l)

/-- The scheduler when the consumer of the run calls `next()`: the consumer has set the
outside world (attributes of nodes and so on) to `w ys`, where `ys` are the sets it was
given so far. -/
def resumed (w : List (List α) → World α κ W) (ys : List (List α)) (s : Sys α κ W) (pc : PC α) :
    Sys α κ W :=
  if pc.suspended then { s with world := w ys } else s

/-- A run with a consumer that behaves as `w` says.  (Compare `Reach`, where the consumer
may do anything that `E` allows.) -/
inductive Scripted (w : List (List α) → World α κ W) (a : RunArgs α κ W) (s0 : Sys α κ W)
    (abs : Bool) : History α κ W → Sys α κ W → PC α → Prop
  | start {s : Sys α κ W} : s0.start a = (s, .ok abs) → Scripted w a s0 abs [] s .outer
  | step {h : History α κ W} {s s' : Sys α κ W} {pc pc' : PC α} {ev : Option (Event α)} :
      Scripted w a s0 abs h s pc → (resumed w (yields h) s pc).step a abs pc = (s', pc', ev) →
      Scripted w a s0 abs (h ++ ev.toList.map fun x => ⟨resumed w (yields h) s pc, x, s'⟩) s' pc'

/-- A user function whose result depends on the current time and the outside world
only. -/
def TimeWorld (f : View α κ W → Option κ → Option α → Except Err Bool) : Prop :=
  ∀ v v' i o, v'.clock i = v.clock i → v'.world = v.world → f v' i o = f v i o

/-- The condition cannot change while a set is chosen, provided that the counts of the
nodes in `P` do not change, and neither do the useable counts in `Q`. `own` is the owner
of the condition. -/
def FixedLeaf (P : α → Prop) (Q : α → Option α → Prop) (own : Option α) : Leaf α κ W → Prop
  | .func f => TimeWorld f
  | .beforeNCalls d _ _ => P d
  | .atNCalls d _ _ => P d
  | .afterCall d _ _ => P d
  | .afterNCalls d _ _ => P d
  | .afterNCallsCombined ds _ _ => ∀ d ∈ ds, P d
  | .allHaveRun ds _ => (ds = [] → ∀ d, P d) ∧ ∀ d ∈ ds, P d
  | .everyNCalls d _ => Q d own
  | _ => True

mutual
/-- The same for composed conditions.  `NWhen`, which counts evaluations, is allowed if
`counting`. -/
def FixedCond (counting : Bool) (P : α → Prop) (Q : α → Option α → Prop) (own : OId → Option α) :
    Cond α κ W → Prop
  | .leaf o k => FixedLeaf P Q (own o) k
  | .whileNot _ f => TimeWorld f
  | .all _ args => FixedAll counting P Q own args
  | .any _ args => FixedAll counting P Q own args
  | .not _ c => FixedCond counting P Q own c
  | .nwhen _ c _ => counting = true ∧ FixedCond counting P Q own c
/-- All of the conditions are such. -/
def FixedAll (counting : Bool) (P : α → Prop) (Q : α → Option α → Prop) (own : OId → Option α) :
    List (Cond α κ W) → Prop
  | [] => True
  | c :: cs => FixedCond counting P Q own c ∧ FixedAll counting P Q own cs
end

/-- Conditions that stay satisfied when further nodes are selected: a node has been
called often enough. -/
def SmoothLeaf : Leaf α κ W → Prop
  | .afterCall _ _ _ => True
  | .afterNCalls _ _ _ => True
  | .afterNCallsCombined _ _ _ => True
  | .allHaveRun ds _ => ds = []
  | _ => False

/-- Such conditions and fixed ones, joined by `Any`.  (`AllHaveRun` of particular nodes is
excluded here: whether it raises for a wrong node depends on which of them ran.) -/
inductive SmoothCond (P : α → Prop) (Q : α → Option α → Prop) (own : OId → Option α) :
    Cond α κ W → Prop
  | fixed {c : Cond α κ W} : FixedCond false P Q own c → SmoothCond P Q own c
  | leaf {o : OId} {k : Leaf α κ W} : SmoothLeaf k → SmoothCond P Q own (.leaf o k)
  | any {o : OId} {args : List (Cond α κ W)} : (∀ c ∈ args, SmoothCond P Q own c) →
      SmoothCond P Q own (.any o args)

/-- Those and `AllHaveRun`, joined by `All`. -/
inductive RisingCond (P : α → Prop) (Q : α → Option α → Prop) (own : OId → Option α) :
    Cond α κ W → Prop
  | smooth {c : Cond α κ W} : SmoothCond P Q own c → RisingCond P Q own c
  | allHaveRun {o : OId} {ds : List α} {ts : TimeScale} :
      RisingCond P Q own (.leaf o (.allHaveRun ds ts))
  | all {o : OId} {args : List (Cond α κ W)} : (∀ c ∈ args, RisingCond P Q own c) →
      RisingCond P Q own (.all o args)

/-- Conditions for which the order of iteration does not matter.  The condition of a node
`n` is a combination of
* conditions on the time, `JustRan`, `WhenFinished...`, `Threshold`, user functions of the
  time and the outside world;
* `EveryNCalls(d, ...)`, `BeforeNCalls(d, ...)`, `AtNCalls(d, ...)`, where `d` and `n` are
  never considered together;
* `AfterCall`, `AfterNCalls`, `AfterNCallsCombined`, `AllHaveRun` of any nodes, but not
  below `Not`;
where `All` is not used below `Any`, except of conditions of the first two kinds.
Termination conditions may be any conditions but `EveryNCalls` and user functions that
read more. -/
def OrderFree (s : Sys α κ W) (a : RunArgs α κ W) : Prop :=
  FixedCond true (fun _ => True) (fun _ _ => False) s.store.owner a.esu ∧
  FixedCond true (fun _ => True) (fun _ _ => False) s.store.owner a.seq ∧
  ∀ n c, Dict.get? s.conds n = some c →
    RisingCond (fun d => NotTogether s.queue d n) (fun d b => b = some n ∧ NotTogether s.queue d n)
      s.store.owner c

end GS.Spec
