import Verif.Scheduler
/-!
# Vocabulary for sessions

A session is everything a user does with one scheduler from its construction on.  Its
record names only what the user can see: calls of `end_environment_sequence`, and runs
that left their outer loop (which is when an environment state update is over).
-/

namespace GS.Spec
variable {α κ W : Type _} [DecidableEq α] [DecidableEq κ]

/-- What is recorded of a session. -/
inductive Act (κ : Type _) where
  /-- `end_environment_sequence(i)` was called -/
  | ended (i : Option κ)
  /-- a run under `i` reached its end, without
  `skip_environment_state_update_time_increment` -/
  | updated (i : Option κ)
deriving DecidableEq, Repr

/-- The record of one step of a run. -/
def stepActs (a : RunArgs α κ W) (ev : Option (Event α)) : List (Act κ) :=
  if ev = some .stop ∧ a.skip = false then [.updated a.id] else []

/-- `Session s0 acts s`: from `s0` the user reached `s`, by starting runs (successfully or
not) under any ids, advancing any of them by a step at any time, calling `get_clock` and
`end_environment_sequence`, and doing things that leave the clocks alone (changing
conditions, the graph, or the world the user's functions look at). -/
inductive Session (s0 : Sys α κ W) : List (Act κ) → Sys α κ W → Prop
  | init : Session s0 [] s0
  | start {acts : List (Act κ)} {s s' : Sys α κ W} (a : RunArgs α κ W) (r : Except Err Bool) :
      Session s0 acts s → s.start a = (s', r) → Session s0 acts s'
  | step {acts : List (Act κ)} {s s' : Sys α κ W} (a : RunArgs α κ W) (abs : Bool)
      (pc pc' : PC α) (ev : Option (Event α)) :
      Session s0 acts s → s.step a abs pc = (s', pc', ev) →
      Session s0 (acts ++ stepActs a ev) s'
  | clock {acts : List (Act κ)} {s : Sys α κ W} (i : Option κ) :
      Session s0 acts s → Session s0 acts (s.getClock i)
  | endSequence {acts : List (Act κ)} {s s' : Sys α κ W} (i : Option κ) :
      Session s0 acts s → s.endEnvironmentSequence i = .ok s' →
      Session s0 (acts ++ [.ended i]) s'
  | other {acts : List (Act κ)} {s s' : Sys α κ W} :
      Session s0 acts s → s'.clocks = s.clocks → Session s0 acts s'

/-- How often `end_environment_sequence(i)` was called. -/
def sequencesEnded (i : Option κ) (acts : List (Act κ)) : Nat := acts.count (.ended i)

/-- How many runs under `i` have reached their end since `end_environment_sequence(i)` was
called last. -/
def updatesSince (i : Option κ) (acts : List (Act κ)) : Nat :=
  (acts.reverse.takeWhile fun x => decide (x ≠ .ended i)).count (.updated i)

/-- How many runs under `i` have reached their end. -/
def updatesEnded (i : Option κ) (acts : List (Act κ)) : Nat := acts.count (.updated i)

end GS.Spec
