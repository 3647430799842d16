import Verif.Spec.Part
/-!
# Specification vocabulary: runs that do not depend on what ran before
-/

set_option linter.unusedSectionVars false

namespace GS.Spec
variable {α κ W : Type _} [DecidableEq α] [DecidableEq κ]

/-- Conditions that look no further back than the beginning of the current environment state
update, and at the outside world.  (`JustRan` looks at the last set, which may be one of an
earlier run; `EveryNCalls` looks at counts that are set to zero when a run begins.) -/
def RecentLeaf : Leaf α κ W → Prop
  | .always | .never => True
  | .beforeConsiderationSetExecution _ ts | .atConsiderationSetExecution _ ts
  | .afterConsiderationSetExecution _ ts | .afterNConsiderationSetExecutions _ ts =>
    ts = .environment_state_update
  | .beforePass _ ts | .atPass _ ts | .afterPass _ ts | .afterNPasses _ ts | .everyNPasses _ ts =>
    ts = .environment_state_update
  | .beforeNCalls _ _ ts | .atNCalls _ _ ts | .afterCall _ _ ts | .afterNCalls _ _ ts
  | .afterNCallsCombined _ _ ts | .allHaveRun _ ts => ts.val ≤ TimeScale.environment_state_update.val
  | .everyNCalls .. => True
  | .whenFinished _ | .whenFinishedAny _ | .whenFinishedAll _ | .threshold .. => True
  | _ => False

mutual
/-- The same condition, built once or twice, that looks no further back than the beginning of
the current environment state update: combinations by `All`, `Any` and `Not` of the same
conditions, where an `EveryNCalls` has the same owner in both.  `NWhen` is allowed for the
objects in `P`, if both conditions have the same object. -/
def SameRecent (P : Nat → Prop) (own own' : Nat → Option α) : Cond α κ W → Cond α κ W → Prop
  | .leaf o k, .leaf o' k' => k' = k ∧ RecentLeaf k ∧ (∀ d n, k = .everyNCalls d n → own' o' = own o)
  | .all _ cs, .all _ cs' => SameRecents P own own' cs cs'
  | .any _ cs, .any _ cs' => SameRecents P own own' cs cs'
  | .not _ c, .not _ c' => SameRecent P own own' c c'
  | .nwhen o c n, .nwhen o' c' n' => o' = o ∧ P o ∧ n' = n ∧ SameRecent P own own' c c'
  | _, _ => False
/-- Component by component. -/
def SameRecents (P : Nat → Prop) (own own' : Nat → Option α) :
    List (Cond α κ W) → List (Cond α κ W) → Prop
  | [], [] => True
  | c :: cs, c' :: cs' => SameRecent P own own' c c' ∧ SameRecents P own own' cs cs'
  | _, _ => False
end

/-- What the outside world answers in runs with execution ids `id` and `id'`. -/
structure WorldFor (id id' : Option κ) (w w' : World α κ W) : Prop where
  finished : ∀ n, w'.finished n id' = w.finished n id
  attr : ∀ n p, w'.attr n p = w.attr n p
  getter : ∀ g n p, w'.getter g n p id' = w.getter g n p id

/-- The increments since the current environment state update began. -/
def sinceUpdate (log : List TimeScale) : List TimeScale :=
  log.reverse.takeWhile fun e => decide (e.val < TimeScale.environment_state_update.val)

/-- Two schedulers before runs with execution ids `id` and `id'`: they have the same graph,
each node has either no condition in both or the same condition, which looks no further back
than the beginning of the current environment state update, and the same has happened in the
current environment state update (after a run that was not abandoned: nothing).  `NWhen` is
allowed for objects in `P`, which have been satisfied equally often.  Nothing is said about
how often nodes were called, about the sets executed, and about earlier environment state
updates. -/
structure SameStart (P : Nat → Prop) (id id' : Option κ) (s s' : Sys α κ W) : Prop where
  graph : s'.graph = s.graph
  queue : s'.queue = s.queue
  nodes : s'.nodes = s.nodes
  conds : ∀ n, (Dict.get? s.conds n = none ∧ Dict.get? s'.conds n = none) ∨
    ∃ c c', Dict.get? s.conds n = some c ∧ Dict.get? s'.conds n = some c' ∧
      SameRecent P s.store.owner s'.store.owner c c' ∧
      (∀ o, Occurs o c → o < s.store.fresh) ∧ (∀ o, Occurs o c' → o < s'.store.fresh)
  sat : ∀ o, P o → o < s.store.fresh ∧ o < s'.store.fresh ∧ s'.store.sat o id' = s.store.sat o id
  clock : ∃ log log', Shows (s.clock id) log ∧ Shows (s'.clock id') log' ∧
    sinceUpdate log' = sinceUpdate log

/-- The same termination conditions, which look no further back than the beginning of the
current environment state update.  (A termination condition has no owner: `EveryNCalls` is
excluded.) -/
structure SameEnds (P : Nat → Prop) (a a' : RunArgs α κ W) : Prop where
  skip : a'.skip = a.skip
  esu : ∀ own own', SameRecent P own own' a.esu a'.esu
  seq : ∀ own own', SameRecent P own own' a.seq a'.seq

/-- The condition has no `NWhen` and looks no further back than the beginning of the current
environment state update. -/
def Recent (c : Cond α κ W) : Prop := ∀ own, SameRecent (fun _ => False) own own c c

/-- A scheduler whose conditions look no further back than the beginning of the current
environment state update, between such updates under the execution id `id`. -/
structure Repeatable (id : Option κ) (s : Sys α κ W) : Prop where
  conds : ∀ n c, Dict.get? s.conds n = some c → Recent c ∧ ∀ o, Occurs o c → o < s.store.fresh
  clock : ∃ log, Shows (s.clock id) log ∧ sinceUpdate log = []

/-- Complete runs, one after the other, and what they yield.  When a run begins the world is
`w0`, and during it the world is what `w` says; between the runs nothing else happens. -/
inductive Successive (w0 : World α κ W) (w : List (List α) → World α κ W) (a : RunArgs α κ W) :
    Sys α κ W → List (List (List α)) → Prop
  | none (s : Sys α κ W) : Successive w0 w a s []
  | more {s t : Sys α κ W} {h : History α κ W} {yss : List (List (List α))} :
      Scripted w a { s with world := w0 } false h t .returned → Successive w0 w a t yss →
      Successive w0 w a s (yields h :: yss)

end GS.Spec
