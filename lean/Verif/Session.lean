import Verif.Spec.Session
import Verif.Props.CondTime
import Verif.Absolute
import Verif.Spec.Order
/-!
# The clock during a session
-/

set_option linter.unusedSectionVars false

namespace GS
open Spec Props TimeScale
variable {α κ W : Type _} [DecidableEq α] [DecidableEq κ]
variable {a : RunArgs α κ W} {s0 s s' : Sys α κ W}
variable {abs : Bool} {pc pc' : PC α} {ev : Option (Event α)}

/-! ## One step of a run -/

/-- The clock of the run after a step, given what it showed before. -/
def Ticks (a : RunArgs α κ W) (log : List TimeScale) (r : Sys α κ W × PC α × Option (Event α)) :
    Prop :=
  ∃ l, Shows (r.1.clock a.id) (log ++ l) ∧
    ((r.2.2 = some .stop ∧ a.skip = false ∧ l = [environment_state_update]) ∨
      (¬ (r.2.2 = some .stop ∧ a.skip = false) ∧ ∀ t ∈ l, t.val < environment_state_update.val))

theorem Ticks.none {log : List TimeScale} {p : PC α} {e : Option (Event α)}
    (h : Shows (s.clock a.id) log) (he : e ≠ some .stop ∨ a.skip = true) : Ticks a log (s, p, e) := by
  refine ⟨[], by simpa using h, .inr ⟨fun k => ?_, by simp⟩⟩
  rcases he with he | he
  · exact he k.1
  · rw [he] at k; cases k.2

theorem Ticks.one {log : List TimeScale} {t : TimeScale} {p : PC α} {e : Option (Event α)}
    (h : Shows (s.clock a.id) (log ++ [t])) (ht : t.val < environment_state_update.val)
    (he : e ≠ some .stop) : Ticks a log (s, p, e) :=
  ⟨[t], h, .inr ⟨fun k => he k.1, by simpa using ht⟩⟩

theorem Sys.incrClock_shows {s : Sys α κ W} {i : Option κ} {log : List TimeScale} {t : TimeScale}
    (h : Shows (s.clock i) log) (ht : t ≠ life) :
    ∃ s', s.incrClock i t = .ok s' ∧ Shows (s'.clock i) (log ++ [t]) := by
  obtain ⟨c, h1, h2⟩ := h.incr ht
  refine ⟨s.setClock i c, by unfold Sys.incrClock; rw [h1], ?_⟩
  rw [Sys.clock_setClock]; exact h2

theorem Sys.evalCond_clocks (s : Sys α κ W) (i : Option κ) (c : Cond α κ W) :
    (s.evalCond i c).1.clocks = s.clocks := rfl

theorem Sys.continues_clocks (s : Sys α κ W) (a : RunArgs α κ W) :
    (s.continues a).1.clocks = s.clocks := by
  unfold Sys.continues
  split
  · rename_i s1 e h; have := s.evalCond_clocks a.id a.esu; rw [h] at this; exact this
  · rename_i s1 h; have := s.evalCond_clocks a.id a.esu; rw [h] at this; exact this
  · rename_i s1 h
    have k1 := s.evalCond_clocks a.id a.esu
    rw [h] at k1
    have k2 := s1.evalCond_clocks a.id a.seq
    split <;> rename_i h2 <;> rw [h2] at k2 <;> exact k2.trans k1

theorem Sys.record_clocks (s : Sys α κ W) (i : Option κ) (b : Bool) (x : List α) :
    (s.record i b x).1.clocks = s.clocks := by
  unfold Sys.record
  split
  · rfl
  · dsimp only
    split
    · split <;> rfl
    · rfl

theorem Sys.fire_clocks {s s' : Sys α κ W} {i : Option κ} {n : α} (h : s.fire i n = .ok s') :
    s'.clocks = s.clocks := by
  unfold Sys.fire at h
  repeat' split at h
  all_goals first | cases h; done | (cases h; rfl)

theorem Sys.considerNode_clocks (s : Sys α κ W) (i : Option κ) (n : α) :
    (s.considerNode i n).1.clocks = s.clocks := by
  unfold Sys.considerNode
  split
  · rfl
  · rename_i c _
    have k := s.evalCond_clocks i c
    split
    · rename_i h; rw [h] at k; exact k
    · rename_i h; rw [h] at k; exact k
    · rename_i h
      rw [h] at k
      split
      · exact k
      · rename_i hf; exact (Sys.fire_clocks hf).trans k

theorem Sys.resetTotal_clocks {s s' : Sys α κ W} {t : TimeScale} {i : Option κ}
    (h : s.resetTotal t i = .ok s') : s'.clocks = s.clocks := by
  unfold Sys.resetTotal at h
  split at h
  · cases h
  · cases h; rfl

theorem Shows.same {log : List TimeScale} {i : Option κ} (h : Shows (s.clock i) log)
    (e : s'.clocks = s.clocks) : Shows (s'.clock i) log := by
  have : s'.clock i = s.clock i := by unfold View.clock; rw [e]
  rw [this]; exact h

theorem finish_ticks {log : List TimeScale} (h : Shows (s.clock a.id) log) :
    Ticks a log (s.finish a) := by
  unfold Sys.finish
  by_cases hk : a.skip = true
  · rw [if_pos hk]
    dsimp only
    have k := s.evalCond_clocks a.id a.seq
    split <;> rename_i e <;> rw [e] at k <;> exact Ticks.none (Shows.same h k) (.inr hk)
  · have hk' : a.skip = false := by simpa using hk
    rw [if_neg hk]
    obtain ⟨s1, h1, h2⟩ := Sys.incrClock_shows h (t := environment_state_update) (by simp)
    rw [h1]
    dsimp only
    have k := s1.evalCond_clocks a.id a.seq
    split <;> rename_i e <;> rw [e] at k <;>
      exact ⟨[environment_state_update], Shows.same h2 k, .inl ⟨rfl, hk', rfl⟩⟩

theorem endPass_ticks {log : List TimeScale} {b : Bool} (h : Shows (s.clock a.id) log) :
    Ticks a log (s.endPass a abs b) := by
  unfold Sys.endPass
  split
  · have k := s.record_clocks a.id false []
    split <;> rename_i e <;> rw [e] at k <;> exact Ticks.none (Shows.same h k) (.inl (by simp))
  · obtain ⟨s1, h1, h2⟩ := Sys.incrClock_shows h (t := pass) (by simp)
    rw [h1]
    exact Ticks.one h2 (by decide) (by simp)

theorem choose_ticks {log : List TimeScale} {c : Choice α} (h : Shows (s.clock a.id) log) :
    Ticks a log (s.choose a abs c) := by
  unfold Sys.choose
  split
  · split
    · exact Ticks.none h (.inl (by simp))
    · unfold Sys.endChoice
      dsimp only
      split
      · have k := s.record_clocks a.id abs c.exec
        split <;> rename_i e <;> rw [e] at k <;> exact Ticks.none (Shows.same h k) (.inl (by simp))
      · exact Ticks.none h (.inl (by simp))
  · split
    · exact Ticks.none h (.inl (by simp))
    · rename_i n _ _ _
      have k := s.considerNode_clocks a.id n
      split <;> rename_i e <;> rw [e] at k <;> exact Ticks.none (Shows.same h k) (.inl (by simp))

theorem step_ticks {log : List TimeScale} (h : Shows (s.clock a.id) log) :
    Ticks a log (s.step a abs pc) := by
  have kc := s.continues_clocks a
  cases pc with
  | outer =>
    unfold Sys.step
    rcases e : s.continues a with ⟨s1, x | b⟩ <;> rw [e] at kc
    · exact Ticks.none (Shows.same h kc) (.inl (by simp))
    · cases b
      · exact finish_ticks (Shows.same h kc)
      · dsimp only
        split
        · exact Ticks.none (Shows.same h kc) (.inl (by simp))
        · rename_i hr
          exact Ticks.none (Shows.same h ((Sys.resetTotal_clocks hr).trans kc)) (.inl (by simp))
  | inner idx b =>
    simp only [Sys.step]
    split
    · exact endPass_ticks h
    · rcases e : s.continues a with ⟨s1, x | b'⟩ <;> rw [e] at kc
      · exact Ticks.none (Shows.same h kc) (.inl (by simp))
      · cases b'
        · exact endPass_ticks (Shows.same h kc)
        · exact Ticks.none (Shows.same h kc) (.inl (by simp))
  | choosing c => exact choose_ticks h
  | yielded idx b =>
    unfold Sys.step
    obtain ⟨s1, h1, h2⟩ := Sys.incrClock_shows h (t := consideration_set_execution) (by simp)
    rw [h1]
    exact Ticks.one h2 (by decide) (by simp)
  | yieldedEmpty =>
    unfold Sys.step
    obtain ⟨s1, h1, h2⟩ := Sys.incrClock_shows h (t := consideration_set_execution) (by simp)
    rw [h1]
    obtain ⟨s2, h3, h4⟩ := Sys.incrClock_shows h2 (t := pass) (by simp)
    dsimp only
    rw [h3]
    refine ⟨[consideration_set_execution, pass], by simpa using h4, .inr ⟨by simp, ?_⟩⟩
    intro t ht
    simp at ht
    rcases ht with rfl | rfl <;> decide
  | returned => exact Ticks.none h (.inl (by simp))
  | raised e => exact Ticks.none h (.inl (by simp))

/-! ## Starting a run -/

theorem Frame.clock {j i : Option κ} (h : Frame j s s') (hi : i ≠ j) : s'.clock i = s.clock i := by
  unfold View.clock; rw [h.clocks i hi]

theorem getClock_clock_any (s : Sys α κ W) (j i : Option κ) : (s.getClock j).clock i = s.clock i := by
  by_cases e : i = j
  · subst e; exact Sys.getClock_clock s i
  · exact Frame.clock (Sys.getClock_other s) e

theorem getClock_isSome (s : Sys α κ W) (i : Option κ) :
    ∃ c, Dict.get? (s.getClock i).clocks i = some c := by
  unfold Sys.getClock
  split
  · exact ⟨_, by assumption⟩
  · exact ⟨_, Dict.get?_set_self ..⟩

theorem start_shows {i : Option κ} {log : List TimeScale} {r} (h : Shows (s.clock i) log)
    (hs : s.start a = (s', r)) : Shows (s'.clock i) log := by
  have hv : s.validateRunState.1.toView = s.toView := by
    unfold Sys.validateRunState
    split
    · rfl
    · exact Sys.validateConditions_view _ _
  have hv := congrArg View.clocks hv
  by_cases hi : i = a.id
  · subst hi
    unfold Sys.start at hs
    rcases e1 : s.validateRunState with ⟨s1, _ | e⟩
    · rw [e1] at hs hv
      have c1 : Shows (s1.clock a.id) log := Shows.same h hv
      have c2 : Shows ((s1.getClock a.id).clock a.id) log := by rw [Sys.getClock_clock]; exact c1
      dsimp only at hs
      rcases e2 : (s1.getClock a.id).setupAbsolute a with ⟨s2, e | b⟩
      · rw [e2] at hs
        cases hs
        unfold Sys.setupAbsolute at e2
        dsimp only at e2
        split at e2
        · cases e2
        · split at e2
          · cases e2; exact c2
          · cases e2
      · rw [e2] at hs
        dsimp only at hs
        obtain ⟨ab, ai, ae, hs2⟩ := Sys.setupAbsolute_ok e2
        have c3 : Shows (s2.clock a.id) log := by
          rw [hs2, Sys.clock_setClock]; exact c2
        have hsome : ∃ c, Dict.get? s2.clocks a.id = some c := by
          rw [hs2]; exact ⟨_, Dict.get?_set_self ..⟩
        obtain ⟨c, hc⟩ := hsome
        rcases e3 : s2.initCounts a.id a.base with ⟨s3, _ | e⟩
        · rw [e3] at hs
          have c4 := Shows.same c3 (Sys.clocks_initCounts e3 hc)
          dsimp only at hs
          split at hs
          · cases hs; exact Shows.same c4 rfl
          · rename_i s4 hr
            cases hs
            exact Shows.same c4 (s := s3) (Sys.resetTotal_clocks (s := s3.resetUseable a.id) hr)
        · rw [e3] at hs
          cases hs
          exact Shows.same c3 (Sys.clocks_initCounts e3 hc)
    · rw [e1] at hs hv
      cases hs
      exact Shows.same h hv
  · rw [Frame.clock (Sys.start_other hs) hi]
    exact Shows.same h hv

/-! ## Counting -/

theorem updatesSince_append (i : Option κ) (acts l : List (Act κ)) (h : .ended i ∉ l) :
    updatesSince i (acts ++ l) = updatesSince i acts + l.count (.updated i) := by
  unfold updatesSince
  rw [List.reverse_append, List.takeWhile_append_of_pos, List.count_append, List.count_reverse,
    Nat.add_comm]
  intro x hx
  simp only [List.mem_reverse] at hx
  exact decide_eq_true fun e => h (e ▸ hx)

theorem updatesSince_ended (i : Option κ) (acts : List (Act κ)) :
    updatesSince i (acts ++ [.ended i]) = 0 := by
  unfold updatesSince
  rw [List.reverse_append, List.reverse_singleton, List.singleton_append,
    List.takeWhile_cons_of_neg (by simp)]
  rfl

/-- What the clock of `i` shows, in terms of the record of the session. -/
structure Tally (i : Option κ) (acts : List (Act κ)) (log : List TimeScale) : Prop where
  sequences : log.count environment_sequence = sequencesEnded i acts
  since : elapsed log environment_sequence environment_state_update = updatesSince i acts
  updates : log.count environment_state_update = updatesEnded i acts

theorem Tally.fine {i : Option κ} {acts acts' : List (Act κ)} {log l : List TimeScale}
    (h : Tally i acts log) (hl : ∀ t ∈ l, t.val < environment_state_update.val)
    (ha : .ended i ∉ acts') (hu : .updated i ∉ acts') : Tally i (acts ++ acts') (log ++ l) := by
  have hn : ∀ {t : TimeScale}, environment_state_update.val ≤ t.val → l.count t = 0 := by
    intro t ht
    rw [List.count_eq_zero]
    intro hm
    have := hl t hm
    omega
  refine ⟨?_, ?_, ?_⟩
  · rw [List.count_append, hn (by decide), h.sequences]
    unfold sequencesEnded
    rw [List.count_append, List.count_eq_zero.2 ha]
  · rw [elapsed_append _ _ _ _ fun e he => Nat.lt_trans (hl e he) (by decide), h.since,
      updatesSince_append _ _ _ ha, hn (Nat.le_refl _), List.count_eq_zero.2 hu]
  · rw [List.count_append, hn (Nat.le_refl _), h.updates]
    unfold updatesEnded
    rw [List.count_append, List.count_eq_zero.2 hu]

theorem Tally.update {i : Option κ} {acts : List (Act κ)} {log : List TimeScale}
    (h : Tally i acts log) : Tally i (acts ++ [.updated i]) (log ++ [environment_state_update]) := by
  refine ⟨?_, ?_, ?_⟩
  · rw [List.count_append, h.sequences]
    unfold sequencesEnded
    rw [List.count_append]
    simp
  · rw [elapsed_append _ _ _ _ (by simp [val]), h.since, updatesSince_append _ _ _ (by simp)]
    simp
  · rw [List.count_append, h.updates]
    unfold updatesEnded
    rw [List.count_append]
    simp

theorem Tally.end {i : Option κ} {acts : List (Act κ)} {log : List TimeScale}
    (h : Tally i acts log) : Tally i (acts ++ [.ended i]) (log ++ [environment_sequence]) := by
  refine ⟨?_, ?_, ?_⟩
  · rw [List.count_append, h.sequences]
    unfold sequencesEnded
    rw [List.count_append]
    simp
  · rw [elapsed_snoc, if_neg (by decide), updatesSince_ended]
  · rw [List.count_append, h.updates]
    unfold updatesEnded
    rw [List.count_append]
    simp

theorem Spec.Session.tally {acts : List (Act κ)} (h : Session s0 acts s) (i : Option κ)
    (h0 : s0.clock i = Clock.new) : ∃ log, Shows (s.clock i) log ∧ Tally i acts log := by
  induction h with
  | init => exact ⟨[], by rw [h0]; exact .new, rfl, rfl, rfl⟩
  | start b r _ hs ih =>
    obtain ⟨log, h1, h2⟩ := ih
    exact ⟨log, start_shows h1 hs, h2⟩
  | @step acts s s' b ab p p' ev _ hs ih =>
    obtain ⟨log, h1, h2⟩ := ih
    by_cases hi : i = b.id
    · subst hi
      have hk := step_ticks (abs := ab) (pc := p) h1
      rw [hs] at hk
      obtain ⟨l, h3, ⟨h4, h5, h6⟩ | ⟨h4, h5⟩⟩ := hk
      · refine ⟨_, h3, ?_⟩
        have e : stepActs b ev = [.updated b.id] := by unfold stepActs; exact if_pos ⟨h4, h5⟩
        rw [e, h6]
        exact h2.update
      · have e : stepActs b ev = [] := by unfold stepActs; exact if_neg h4
        rw [e]
        exact ⟨_, h3, h2.fine h5 (by simp) (by simp)⟩
    · refine ⟨log, ?_, ?_⟩
      · rw [Frame.clock (Sys.step_stepR hs).frame hi]; exact h1
      · have := h2.fine (l := []) (acts' := stepActs b ev) (by simp)
          (by unfold stepActs; split <;> simp)
          (by unfold stepActs; split
              · simp; exact hi
              · simp)
        simpa using this
  | clock j _ ih =>
    obtain ⟨log, h1, h2⟩ := ih
    exact ⟨log, by rw [getClock_clock_any]; exact h1, h2⟩
  | @endSequence acts s s' j _ hs ih =>
    obtain ⟨log, h1, h2⟩ := ih
    unfold Sys.endEnvironmentSequence at hs
    by_cases hi : i = j
    · subst hi
      obtain ⟨s1, h3, h4⟩ := Sys.incrClock_shows h1 (t := environment_sequence) (by simp)
      rw [h3] at hs
      cases hs
      exact ⟨_, h4, h2.end⟩
    · obtain ⟨c, _, rfl⟩ := Sys.incrClock_ok hs
      refine ⟨log, by rw [clock_setClock_ne c hi]; exact h1, ?_⟩
      have := h2.fine (l := []) (acts' := [.ended j]) (by simp) (by simpa using hi) (by simp)
      simpa using this
  | other _ he ih =>
    obtain ⟨log, h1, h2⟩ := ih
    exact ⟨log, Shows.same h1 he, h2⟩

/-! ## Runs as parts of a session -/

theorem step_stop (h : s.step a abs pc = (s', pc', ev)) :
    (ev = some .stop → pc'.final = true) ∧ (pc.final = true → s' = s ∧ pc' = pc ∧ ev = none) ∧
    (pc' = .returned → pc.final = false → ev = some .stop) := by
  cases pc with
  | outer =>
    simp only [Sys.step, Sys.finish] at h
    repeat' split at h
    all_goals first
      | cases h; done
      | (simp only [Prod.mk.injEq] at h; obtain ⟨rfl, rfl, rfl⟩ := h; simp [PC.final])
  | inner idx b =>
    simp only [Sys.step, Sys.endPass] at h
    repeat' split at h
    all_goals first
      | cases h; done
      | (simp only [Prod.mk.injEq] at h; obtain ⟨rfl, rfl, rfl⟩ := h; simp [PC.final])
  | choosing c =>
    simp only [Sys.step, Sys.choose, Sys.endChoice] at h
    repeat' split at h
    all_goals first
      | cases h; done
      | (simp only [Prod.mk.injEq] at h; obtain ⟨rfl, rfl, rfl⟩ := h; simp [PC.final])
  | yielded idx b =>
    simp only [Sys.step] at h
    repeat' split at h
    all_goals first
      | cases h; done
      | (simp only [Prod.mk.injEq] at h; obtain ⟨rfl, rfl, rfl⟩ := h; simp [PC.final])
  | yieldedEmpty =>
    simp only [Sys.step] at h
    repeat' split at h
    all_goals first
      | cases h; done
      | (simp only [Prod.mk.injEq] at h; obtain ⟨rfl, rfl, rfl⟩ := h; simp [PC.final])
  | returned =>
    simp only [Sys.step, Prod.mk.injEq] at h; obtain ⟨rfl, rfl, rfl⟩ := h; simp [PC.final]
  | raised e =>
    simp only [Sys.step, Prod.mk.injEq] at h; obtain ⟨rfl, rfl, rfl⟩ := h; simp [PC.final]

theorem Spec.Scripted.session {w : List (List α) → World α κ W} {h : History α κ W}
    {acts : List (Act κ)} {s1 : Sys α κ W} (hs : Session s0 acts s1)
    (hr : Scripted w a s1 abs h s pc) :
    (pc.final = false → Session s0 acts s) ∧
    (pc = .returned → Session s0 (acts ++ if a.skip then [] else [.updated a.id]) s) := by
  induction hr with
  | start h1 => exact ⟨fun _ => hs.start _ _ h1, fun e => by cases e⟩
  | @step h s s' pc pc' ev _ hk ih =>
    have hw : ∀ {acts}, Session s0 acts s → Session s0 acts (resumed w (yields h) s pc) := by
      intro acts k
      unfold resumed
      split
      · exact k.other rfl
      · exact k
    obtain ⟨k1, k2, k3⟩ := step_stop hk
    by_cases hf : pc.final = true
    · obtain ⟨e1, e2, e3⟩ := k2 hf
      rw [e1, e2]
      exact ⟨fun e => hw (ih.1 e), fun e => hw (ih.2 e)⟩
    · have hf : pc.final = false := by simpa using hf
      have k := (hw (ih.1 hf)).step a abs _ _ _ hk
      refine ⟨fun e => ?_, fun e => ?_⟩
      · have : stepActs a ev = [] := by
          unfold stepActs
          rw [if_neg]
          intro e'
          rw [k1 e'.1] at e; cases e
        rw [this, List.append_nil] at k
        exact k
      · have : stepActs a ev = if a.skip then [] else [.updated a.id] := by
          unfold stepActs
          rw [k3 e hf]
          cases a.skip <;> simp
        rw [this] at k
        exact k

theorem Sys.new_clock (g : Graph α) (mode : Mode) (id : Option κ) (unit : Rat) (w : World α κ W)
    (i : Option κ) : (Sys.new g mode id unit w).clock i = Clock.new := by
  unfold View.clock Sys.new
  simp only [Dict.get?]
  split <;> rename_i h
  · revert h; split
    · intro h; cases h; rfl
    · intro h; cases h
  · rfl

end GS
