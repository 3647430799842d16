import Verif.Session
import Verif.Props.Again
/-!
# C76: environment sequences
-/

set_option linter.unusedSectionVars false

namespace GS.Props
open Spec TimeScale
variable {α κ W : Type _} [DecidableEq α] [DecidableEq κ]
variable {g : Graph α} {mode : Mode} {id : Option κ} {unit : Rat} {w : World α κ W}
variable {acts : List (Act κ)} {s : Sys α κ W}

/-- C76: in every session with a new scheduler, and for every execution id, the clock's
`environment_sequence` is the number of calls of `end_environment_sequence` for this id, and
its `environment_state_update` is the number of runs under this id that reached their end
since the last such call.  Runs never change the former, calls for other ids change neither. -/
theorem C76_clock (h : Session (Sys.new g mode id unit w) acts s) (i : Option κ) :
    (s.clock i).time.at_ environment_sequence = sequencesEnded i acts ∧
    (s.clock i).time.at_ environment_state_update = updatesSince i acts := by
  obtain ⟨log, h1, h2⟩ := h.tally i (Sys.new_clock ..)
  obtain ⟨hn, _, h3⟩ := shows_iff.1 h1
  refine ⟨?_, ?_⟩
  · rw [h3, field_eq_count, h2.sequences]
    intro e he
    have := hn e he
    revert this; cases e <;> simp [val]
  · rw [h3, ← h2.since]
    unfold field elapsed
    congr 2
    funext e
    cases e <;> simp [val]

/-- C76, the conditions on environment sequences, evaluated under any id in any state of a
session. -/
theorem C76_sequence_conditions (h : Session (Sys.new g mode id unit w) acts s) (i : Option κ)
    (n : Int) (o : OId) (st : Store α κ) :
    let k : Int := sequencesEnded i acts
    eval s.toView i (.leaf o (.atEnvironmentSequence n)) st = (.ok (decide (k = n)), st) ∧
    eval s.toView i (.leaf o (.afterEnvironmentSequence n)) st = (.ok (decide (k > n)), st) ∧
    eval s.toView i (.leaf o (.afterNEnvironmentSequences n)) st = (.ok (decide (k ≥ n)), st) := by
  obtain ⟨log, h1, h2⟩ := h.tally i (Sys.new_clock ..)
  have := C22_environment_sequences h1 n (st := st) (o := o)
  rw [h2.sequences] at this
  exact this

/-- C76, the conditions on environment state updates with
`time_scale=ENVIRONMENT_SEQUENCE`. -/
theorem C76_update_conditions (h : Session (Sys.new g mode id unit w) acts s) (i : Option κ)
    (n : Int) (o : OId) (st : Store α κ) :
    let k : Int := updatesSince i acts
    eval s.toView i (.leaf o (.atEnvironmentStateUpdate n environment_sequence)) st =
      (.ok (decide (k = n)), st) ∧
    eval s.toView i (.leaf o (.beforeEnvironmentStateUpdate n environment_sequence)) st =
      (.ok (decide (k < n)), st) ∧
    eval s.toView i (.leaf o (.afterEnvironmentStateUpdate n environment_sequence)) st =
      (.ok (decide (k > n)), st) ∧
    eval s.toView i (.leaf o (.afterNEnvironmentStateUpdates n environment_sequence)) st =
      (.ok (decide (k ≥ n)), st) := by
  obtain ⟨log, h1, h2⟩ := h.tally i (Sys.new_clock ..)
  have := C22_environment_state_updates h1 (ts := environment_sequence) (by decide) n (st := st) (o := o)
  rw [h2.since] at this
  exact this

/-- C76, the same conditions with `time_scale=LIFE` count all the runs under the id that
reached their end. -/
theorem C76_life_conditions (h : Session (Sys.new g mode id unit w) acts s) (i : Option κ)
    (n : Int) (o : OId) (st : Store α κ) :
    let k : Int := updatesEnded i acts
    eval s.toView i (.leaf o (.atEnvironmentStateUpdate n life)) st = (.ok (decide (k = n)), st) ∧
    eval s.toView i (.leaf o (.beforeEnvironmentStateUpdate n life)) st =
      (.ok (decide (k < n)), st) ∧
    eval s.toView i (.leaf o (.afterEnvironmentStateUpdate n life)) st =
      (.ok (decide (k > n)), st) ∧
    eval s.toView i (.leaf o (.afterNEnvironmentStateUpdates n life)) st =
      (.ok (decide (k ≥ n)), st) := by
  obtain ⟨log, h1, h2⟩ := h.tally i (Sys.new_clock ..)
  have := C22_environment_state_updates h1 (ts := life) (by decide) n (st := st) (o := o)
  rw [elapsed_life (shows_iff.1 h1).1, h2.updates] at this
  exact this

/-- C76: `end_environment_sequence` succeeds in every state of a session, sets the finer
units of the clock of its id to zero and changes nothing else but that clock: not the clocks
of other ids, and neither call counters nor execution lists of any id. -/
theorem C76_end (h : Session (Sys.new g mode id unit w) acts s) (i : Option κ) :
    ∃ c, s.endEnvironmentSequence i = .ok { s with clocks := Dict.set s.clocks i c } ∧
      (∀ t, t.val < environment_sequence.val → c.time.at_ t = 0) ∧
      c.time.at_ environment_sequence = (s.clock i).time.at_ environment_sequence + 1 := by
  obtain ⟨log, h1, _⟩ := h.tally i (Sys.new_clock ..)
  obtain ⟨c, h3, h4⟩ := h1.incr (ts := environment_sequence) (by simp)
  have h5 := (shows_iff.1 h1).2.2
  have h6 := (shows_iff.1 h4).2.2
  refine ⟨c, ?_, fun t ht => ?_, ?_⟩
  · unfold Sys.endEnvironmentSequence Sys.incrClock
    rw [h3]; rfl
  · rw [h6, field_snoc, if_pos ht]
  · rw [h6, h5, field_snoc, if_neg (by decide), if_pos rfl]

/-- C76: how runs enter the record.  A run that is iterated to its end under `a.id` is
recorded once (not at all with `skip_environment_state_update_time_increment`); a run that
is not finished, at whatever point, is not recorded. -/
theorem C76_run {w' : List (List α) → World α κ W} {a : RunArgs α κ W} {s0 s1 : Sys α κ W}
    {abs : Bool} {h : History α κ W} {pc : PC α} (hs : Session s0 acts s1)
    (hr : Scripted w' a s1 abs h s pc) :
    (pc.final = false → Session s0 acts s) ∧
    (pc = .returned → Session s0 (acts ++ if a.skip then [] else [.updated a.id]) s) :=
  hr.session hs

/-! ## Example -/

/-- The state after `end_environment_sequence`. -/
def endedSeq (s : Sys Nat Nat Unit) (i : Option Nat) : Sys Nat Nat Unit :=
  match s.endEnvironmentSequence i with
  | .ok s' => s'
  | .error _ => s

/-- The state after a complete run of `demoArgs`. -/
def ranOnce (s : Sys Nat Nat Unit) : Sys Nat Nat Unit := (scriptAfter constWorld demoArgs s 60).2.1

theorem ranOnce_session {acts : List (Act Nat)} {s0 s : Sys Nat Nat Unit} (h : Session s0 acts s)
    (h1 : (s.start demoArgs).2 = .ok false)
    (h2 : (scriptAfter constWorld demoArgs s 60).2.2 = .returned) :
    Session s0 (acts ++ [.updated none]) (ranOnce s) := by
  have k := scriptAfter_scripted (w := constWorld) h1 60
  exact (C76_run h k).2 h2

theorem endedSeq_session {acts : List (Act Nat)} {s0 s : Sys Nat Nat Unit} {i : Option Nat}
    (h : Session s0 acts s) (h1 : (s.endEnvironmentSequence i).isOk = true) :
    Session s0 (acts ++ [.ended i]) (endedSeq s i) := by
  rcases e : s.endEnvironmentSequence i with x | s'
  · rw [e] at h1; cases h1
  · have := h.endSequence i e
    unfold endedSeq
    rw [e]
    exact this

/-- Two runs, the end of a sequence, another run, and a sequence ended under another id:
one sequence is over, and one update of the current one. -/
def sessionDemo : Sys Nat Nat Unit :=
  endedSeq (ranOnce (endedSeq (ranOnce (ranOnce demo0)) none)) (some 3)

example : Session demo0
      [.updated none, .updated none, .ended none, .updated none, .ended (some 3)] sessionDemo ∧
    sequencesEnded none [Act.updated none, .updated none, .ended none, .updated none,
      .ended (some 3)] = 1 ∧
    updatesSince none [Act.updated none, .updated none, .ended none, .updated none,
      .ended (some 3)] = 1 ∧
    updatesEnded none [Act.updated none, .updated none, .ended none, .updated none,
      .ended (some 3)] = 3 ∧
    (eval sessionDemo.toView none (.leaf 0 (.atEnvironmentSequence 1)) sessionDemo.store).1 =
      .ok true := by
  have k0 : Session demo0 [] demo0 := .init
  have k1 := ranOnce_session k0 (by decide +kernel) (by decide +kernel)
  have k2 := ranOnce_session k1 (by decide +kernel) (by decide +kernel)
  have k3 := endedSeq_session (i := none) k2 (by decide +kernel)
  have k4 := ranOnce_session k3 (by decide +kernel) (by decide +kernel)
  have k5 := endedSeq_session (i := some 3) k4 (by decide +kernel)
  refine ⟨k5, by decide, by decide, by decide, ?_⟩
  have := (C76_sequence_conditions (g := [(1, [0]), (2, [0])]) (mode := .standard) (id := none)
    (unit := 1) (w := demoWorld) k5 none 1 0 sessionDemo.store).1
  unfold sessionDemo at this ⊢
  rw [this]
  rfl

end GS.Props
