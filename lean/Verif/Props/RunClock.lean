import Verif.RunClock
import Verif.Props.Demo
/-!
# C19: the clock during a run
-/

set_option linter.unusedSectionVars false

namespace GS.Props
open Spec TimeScale
variable {α κ W β : Type _} [DecidableEq α] [DecidableEq κ]
variable {E : Sys α κ W → Sys α κ W → Prop} {a : RunArgs α κ W} {s0 s : Sys α κ W}
variable {abs : Bool} {h : History α κ W} {pc : PC α}

/-- C19: a completed run has incremented its clock, pass by pass, by
`CONSIDERATION_SET_EXECUTION` once per yielded set and then by `PASS`, and at the end by
`ENVIRONMENT_STATE_UPDATE` unless told not to; nothing else happened to the clock (apart
from absolute time). -/
theorem C19_completed_run (hr : Reach E a s0 abs h s .returned)
    (hE : Keeps E (fun s => s.clock a.id)) {log0 : List TimeScale}
    (h0 : Shows (s0.clock a.id) log0) :
    Shows (s.clock a.id) (log0 ++
      ((passYields h).flatMap fun p =>
        List.replicate p.length consideration_set_execution ++ [pass]) ++
      if a.skip then [] else [environment_state_update]) ∧
    (passYields h).flatten = yields h ∧
    (passYields h).length = (h.filter fun e => e.ev = .passStart).length :=
  ⟨hr.clockAt hE h0, hr.passYields_flatten.1, hr.passYields_flatten.2.1⟩

/-- C19, in terms of the time shown: the sequence number is unchanged and the state
update number has grown by one, with the finer fields at zero, unless the increment is
skipped. -/
theorem C19_time_after (hr : Reach E a s0 abs h s .returned)
    (hE : Keeps E (fun s => s.clock a.id)) {log0 : List TimeScale}
    (h0 : Shows (s0.clock a.id) log0) :
    (s.clock a.id).time.at_ environment_sequence = (s0.clock a.id).time.at_ environment_sequence ∧
    (s.clock a.id).time.at_ environment_state_update =
      (s0.clock a.id).time.at_ environment_state_update + (if a.skip then 0 else 1) ∧
    (a.skip = false → (s.clock a.id).time.at_ pass = 0 ∧
      (s.clock a.id).time.at_ consideration_set_execution = 0) := by
  obtain ⟨hc, _, _⟩ := C19_completed_run hr hE h0
  obtain ⟨_, _, e0⟩ := shows_iff.1 h0
  obtain ⟨_, _, e1⟩ := shows_iff.1 hc
  have fine : ∀ (l : List TimeScale) (t : TimeScale), (∀ x ∈ l, x.val < t.val) → ∀ l0,
      field (l0 ++ l) t = field l0 t := by
    intro l t
    induction l using snocInd with
    | h0 => intro _ l0; simp
    | h1 l x ih =>
      intro hl l0
      have hx := hl x (by simp)
      rw [← List.append_assoc, field_snoc, if_neg (by omega), if_neg (by rintro rfl; omega)]
      exact ih (fun y hy => hl y (by simp [hy])) l0
  have hmem : ∀ x ∈ ((passYields h).flatMap fun p =>
        List.replicate p.length consideration_set_execution ++ [pass]), x.val < 2 := by
    intro x hx
    obtain ⟨p, _, hp⟩ := List.mem_flatMap.1 hx
    rcases List.mem_append.1 hp with hp | hp
    · rw [(List.mem_replicate.1 hp).2]; decide
    · simp at hp; subst hp; decide
  refine ⟨?_, ?_, ?_⟩
  · rw [e0, e1]
    cases a.skip with
    | true =>
      simp only [if_true, List.append_nil]
      exact fine _ _ (fun x hx => Nat.lt_trans (hmem x hx) (by decide)) _
    | false =>
      simp only [Bool.false_eq_true, if_false]
      rw [field_snoc, if_neg (by decide), if_neg (by decide)]
      exact fine _ _ (fun x hx => Nat.lt_trans (hmem x hx) (by decide)) _
  · rw [e0, e1]
    cases a.skip with
    | true =>
      simp only [if_true, List.append_nil, Nat.add_zero]
      exact fine _ environment_state_update (fun x hx => hmem x hx) _
    | false =>
      simp only [Bool.false_eq_true, if_false]
      rw [field_snoc, if_neg (by decide), if_pos rfl, fine _ environment_state_update (fun x hx => hmem x hx)]
  · intro hs
    rw [e1, e1, hs]
    simp only [Bool.false_eq_true, if_false]
    rw [field_snoc, field_snoc, if_pos (by decide), if_pos (by decide)]
    exact ⟨rfl, rfl⟩

/-- C19 at a `yield`: the clock has counted the sets and passes before the yielded set,
not the set itself. -/
theorem C19_at_yield (hr : Reach E a s0 abs h s pc) (hp : pc.suspended = true)
    (hE : Keeps E (fun s => s.clock a.id)) {log0 : List TimeScale}
    (h0 : Shows (s0.clock a.id) log0) :
    ∃ ps p y, passYields h = ps ++ [p ++ [y]] ∧
      Shows (s.clock a.id) (log0 ++
        (ps.flatMap fun p => List.replicate p.length consideration_set_execution ++ [pass]) ++
        List.replicate p.length consideration_set_execution) := by
  have := hr.clockAt hE h0
  cases pc with
  | yielded => exact this
  | yieldedEmpty => exact this
  | _ => cases hp

example : Shows (demo.clock demoArgs.id) [] := Shows.new
example : passYields (demoAfter 40).1 = [[[0], [1]], [[0], [1, 2]]] := by decide +kernel
example : (demoAfter 40).2.2 = .returned ∧ (demoAfter 6).2.2.suspended = true := by
  refine ⟨by decide +kernel, by decide +kernel⟩

end GS.Props
