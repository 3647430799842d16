import Verif.Spec.Cond
import Verif.LifeDefault
import Verif.Props.RunClock
/-!
# C22: time-based conditions
-/

set_option linter.unusedSectionVars false

namespace GS.Props
open Spec TimeScale
variable {α κ W : Type _} [DecidableEq α] [DecidableEq κ]

/-! ## The clock answers with the number of elapsed units -/

theorem elapsed_snoc (log : List TimeScale) (x ts q : TimeScale) :
    elapsed (log ++ [x]) ts q =
      if x.val < ts.val then elapsed log ts q + (if x = q then 1 else 0) else 0 := by
  unfold elapsed
  rw [List.reverse_append, List.reverse_singleton, List.singleton_append, List.takeWhile_cons]
  by_cases h : x.val < ts.val
  · rw [if_pos (by simpa using h), if_pos h, List.count_cons]
    simp
  · rw [if_neg (by simpa using h), if_neg h]; rfl

theorem field_filter (log : List TimeScale) (ts s : TimeScale) (h : ts.val ≤ s.val) :
    field (log.filter fun e => decide (ts.val ≤ e.val)) s = field log s := by
  induction log using snocInd with
  | h0 => rfl
  | h1 l x ih =>
    rw [List.filter_append, field_snoc]
    by_cases hx : ts.val ≤ x.val
    · rw [List.filter_cons_of_pos (by simpa using hx), List.filter_nil, field_snoc, ih]
    · rw [List.filter_cons_of_neg (by simpa using hx), List.filter_nil, List.append_nil, ih,
        if_neg (by omega), if_neg (fun e => by subst e; omega)]

theorem field_not_mem {log : List TimeScale} {s : TimeScale} (h : s ∉ log) : field log s = 0 := by
  unfold field
  rw [List.count_eq_zero]
  intro hm
  exact h (List.mem_reverse.1 (List.takeWhile_prefix _ |>.subset hm))

/-- The fields from `ts` up change exactly when one of these units is incremented. -/
theorem fields_same_iff (pre suf : List TimeScale) (ts : TimeScale) :
    (∀ s, ts.val ≤ s.val → field pre s = field (pre ++ suf) s) ↔ ∀ e ∈ suf, e.val < ts.val := by
  constructor
  · intro h e he
    refine Classical.byContradiction fun hlt => ?_
    have hne : suf.filter (fun e => decide (ts.val ≤ e.val)) ≠ [] := by
      intro hn
      have : e ∈ suf.filter (fun e => decide (ts.val ≤ e.val)) :=
        List.mem_filter.2 ⟨he, by simpa using (by omega : ts.val ≤ e.val)⟩
      rw [hn] at this; cases this
    obtain ⟨s, h1, _⟩ := C20_history_increasing
      (pre.filter fun e => decide (ts.val ≤ e.val)) _ hne
    rw [← List.filter_append] at h1
    by_cases hs : ts.val ≤ s.val
    · rw [field_filter _ _ _ hs, field_filter _ _ _ hs, ← h s hs] at h1; omega
    · rw [field_not_mem (s := s) (log := List.filter _ (pre ++ suf))] at h1
      · omega
      · intro hm
        have := (List.mem_filter.1 hm).2
        simp at this; omega
  · intro h s hs
    induction suf using snocInd with
    | h0 => simp
    | h1 l x ih =>
      rw [← List.append_assoc, field_snoc]
      have hx := h x (by simp)
      rw [if_neg (by omega), if_neg (fun e => by subst e; omega)]
      exact ih fun e he => h e (by simp [he])

theorem during_iff (pre suf : List TimeScale) (ts : TimeScale) :
    during (pre ++ suf) ts (field (pre ++ suf) ts) pre = true ↔ ∀ e ∈ suf, e.val < ts.val := by
  rw [← fields_same_iff pre suf ts]
  unfold during
  rw [Bool.and_eq_true, decide_eq_true_eq, List.all_eq_true]
  constructor
  · rintro ⟨h1, h2⟩ s hs
    by_cases e : s = ts
    · subst e; exact h1
    · have hlt : ts.val < s.val := by
        have : s.val ≠ ts.val := fun h => e (val_inj h)
        omega
      have := h2 s (by cases s <;> simp [TimeScale.all])
      simpa [hlt] using this
  · intro h
    refine ⟨h ts (Nat.le_refl _), fun s _ => ?_⟩
    by_cases hs : ts.val < s.val
    · simp [h s (by omega)]
    · simp [hs]

theorem during_elapsed (log : List TimeScale) (ts q : TimeScale) (hq : q.val < ts.val) :
    countWhen (during log ts (field log ts)) q log = elapsed log ts q := by
  have key : ∀ suf pre : List TimeScale, (∀ e ∈ suf, e.val < ts.val) →
      countWhen (during (pre ++ suf) ts (field (pre ++ suf) ts)) q pre = elapsed pre ts q := by
    intro suf pre
    induction pre using snocInd generalizing suf with
    | h0 => intro _; rfl
    | h1 l x ih =>
      intro hs
      rw [countWhen_snoc, elapsed_snoc]
      have hd := during_iff l (x :: suf) ts
      have e : l ++ [x] ++ suf = l ++ (x :: suf) := by simp
      rw [e]
      by_cases hx : x.val < ts.val
      · have hall : ∀ e ∈ x :: suf, e.val < ts.val := by
          intro e he
          rcases List.mem_cons.1 he with rfl | he
          · exact hx
          · exact hs e he
        rw [ih _ hall, if_pos hx, hd.2 hall]
        simp
      · rw [if_neg hx, if_neg (fun h => by rw [h.1] at hx; omega)]
        have : ∀ pre, pre <+: l →
            during (l ++ x :: suf) ts (field (l ++ x :: suf) ts) pre = false := by
          rintro pre ⟨m, rfl⟩
          rw [Bool.eq_false_iff]
          intro hh
          rw [List.append_assoc] at hh
          exact hx ((during_iff pre (m ++ x :: suf) ts).1 hh x (by simp))
        unfold countWhen
        rw [Nat.add_zero, List.length_eq_zero_iff, List.filter_eq_nil_iff]
        intro p _
        rw [this _ (List.take_prefix p l)]
        simp
  have := key [] log (by simp)
  simpa using this

/-- The units for which the clock can tell how many finer units have elapsed. -/
def Recorded (ts : TimeScale) : Prop :=
  ts = life ∨ ts = environment_sequence ∨ ts = environment_state_update

theorem elapsed_life {log : List TimeScale} (h : NoLife log) (q : TimeScale) :
    elapsed log life q = log.count q := by
  unfold elapsed
  have : log.reverse.takeWhile (fun e => decide (e.val < life.val)) = log.reverse := by
    have gen : ∀ l : List TimeScale, NoLife l →
        l.takeWhile (fun e => decide (e.val < life.val)) = l := by
      intro l
      induction l with
      | nil => intro _; rfl
      | cons x l ih =>
        intro hl
        have hx : x.val < life.val := by
          have := hl x (by simp)
          revert this; cases x <;> simp [val]
        rw [List.takeWhile_cons_of_pos (by simpa using hx), ih fun e he => hl e (by simp [he])]
    exact gen _ fun e he => h e (List.mem_reverse.1 he)
  rw [this, List.count_reverse]

theorem clock_elapsed {c : Clock} {log : List TimeScale} (h : Shows c log) {q ts : TimeScale}
    (hts : Recorded ts) (hq : q.val < ts.val) :
    c.getTotalTimesRelative q ts = .ok (elapsed log ts q) := by
  obtain ⟨hn, c0, h1, h2, h3⟩ := h
  have hc : c.getTotalTimesRelative q ts = c0.getTotalTimesRelative q ts := by
    simp only [Clock.getTotalTimesRelative, Clock.getTimeByTimeScale, Time.get, h2, h3]
  rw [hc]
  rcases hts with rfl | hts
  · rw [elapsed_life hn]
    exact C21_clock_life hn c0 h1 q life (fun e => by subst e; omega) (.inl rfl) none
  · rw [C21_clock_default hn c0 h1 q ts hts hq, during_elapsed log ts q hq]

/-! ## C22 -/

section
variable {v : View α κ W} {id : Option κ} {log : List TimeScale} {st : Store α κ} {o : Nat}

/-- C22, passes: for every clock history, every `n` and every unit coarser than `PASS`,
the conditions on passes hold exactly when the number of passes completed in the current
unit is `= n`, `< n`, `> n`, `≥ n`, or a multiple of `n`. -/
theorem C22_passes (h : Shows (v.clock id) log) {ts : TimeScale} (hts : pass.val < ts.val)
    (n : Int) :
    let k : Int := elapsed log ts pass
    eval v id (.leaf o (.atPass n ts)) st = (.ok (decide (k = n)), st) ∧
    eval v id (.leaf o (.beforePass n ts)) st = (.ok (decide (k < n)), st) ∧
    eval v id (.leaf o (.afterPass n ts)) st = (.ok (decide (k > n)), st) ∧
    eval v id (.leaf o (.afterNPasses n ts)) st = (.ok (decide (k ≥ n)), st) ∧
    (n ≠ 0 → eval v id (.leaf o (.everyNPasses n ts)) st = (.ok (decide (n ∣ k)), st)) := by
  have hr : Recorded ts := by revert hts; cases ts <;> simp [val, Recorded]
  have hc := clock_elapsed h hr hts
  refine ⟨?_, ?_, ?_, ?_, fun hn => ?_⟩ <;> simp only [eval, evalLeaf, relTime, hc]
  rw [if_neg hn]
  congr 2
  exact decide_eq_decide.2 (Int.dvd_iff_fmod_eq_zero).symm

/-- C22, set executions, for every unit coarser than `PASS`.  Missing for the full
property: `time_scale=PASS`, see `C22_cse_in_pass_raises`. -/
theorem C22_cse_partial (h : Shows (v.clock id) log) {ts : TimeScale} (hts : pass.val < ts.val)
    (n : Int) :
    let k : Int := elapsed log ts consideration_set_execution
    eval v id (.leaf o (.atConsiderationSetExecution n ts)) st = (.ok (decide (k = n)), st) ∧
    eval v id (.leaf o (.beforeConsiderationSetExecution n ts)) st = (.ok (decide (k < n)), st) ∧
    eval v id (.leaf o (.afterConsiderationSetExecution n ts)) st = (.ok (decide (k > n)), st) ∧
    eval v id (.leaf o (.afterNConsiderationSetExecutions n ts)) st =
      (.ok (decide (k ≥ n)), st) := by
  have hr : Recorded ts := by revert hts; cases ts <;> simp [val, Recorded]
  have e : consideration_set_execution.val < pass.val := by decide
  have hc := clock_elapsed h hr (Nat.lt_trans e hts)
  refine ⟨?_, ?_, ?_, ?_⟩ <;> simp only [eval, evalLeaf, relTime, hc]

/-- C22 is false for set executions counted within a pass: in every state of the clock
the condition raises `TimeScaleError`, because the clock does not record passes. -/
theorem C22_cse_in_pass_raises (h : Shows (v.clock id) log) (n : Int) :
    eval v id (.leaf o (.atConsiderationSetExecution n pass)) st = (.error .timeScaleError, st) ∧
    eval v id (.leaf o (.beforeConsiderationSetExecution n pass)) st =
      (.error .timeScaleError, st) ∧
    eval v id (.leaf o (.afterConsiderationSetExecution n pass)) st =
      (.error .timeScaleError, st) ∧
    eval v id (.leaf o (.afterNConsiderationSetExecutions n pass)) st =
      (.error .timeScaleError, st) := by
  obtain ⟨hn, c0, h1, h2, h3⟩ := h
  have hc : (v.clock id).getTotalTimesRelative consideration_set_execution pass =
      .error .timeScaleError := by
    have := C21_clock_pass_not_recorded hn c0 h1 (c0.time.at_ pass)
    rw [← this]
    simp only [Clock.getTotalTimesRelative, Clock.getTimeByTimeScale, Time.get, h2, h3]
  refine ⟨?_, ?_, ?_, ?_⟩ <;> simp only [eval, evalLeaf, relTime, hc]

/-- C22, environment state updates, for every coarser unit. -/
theorem C22_environment_state_updates (h : Shows (v.clock id) log) {ts : TimeScale}
    (hts : environment_state_update.val < ts.val) (n : Int) :
    let k : Int := elapsed log ts environment_state_update
    eval v id (.leaf o (.atEnvironmentStateUpdate n ts)) st = (.ok (decide (k = n)), st) ∧
    eval v id (.leaf o (.beforeEnvironmentStateUpdate n ts)) st = (.ok (decide (k < n)), st) ∧
    eval v id (.leaf o (.afterEnvironmentStateUpdate n ts)) st = (.ok (decide (k > n)), st) ∧
    eval v id (.leaf o (.afterNEnvironmentStateUpdates n ts)) st = (.ok (decide (k ≥ n)), st) := by
  have hr : Recorded ts := by revert hts; cases ts <;> simp [val, Recorded]
  have hc := clock_elapsed h hr hts
  refine ⟨?_, ?_, ?_, ?_⟩ <;> simp only [eval, evalLeaf, relTime, hc]

/-- C22, environment sequences: `k` is the number of sequences completed over the life. -/
theorem C22_environment_sequences (h : Shows (v.clock id) log) (n : Int) :
    let k : Int := log.count environment_sequence
    eval v id (.leaf o (.atEnvironmentSequence n)) st = (.ok (decide (k = n)), st) ∧
    eval v id (.leaf o (.afterEnvironmentSequence n)) st = (.ok (decide (k > n)), st) ∧
    eval v id (.leaf o (.afterNEnvironmentSequences n)) st = (.ok (decide (k ≥ n)), st) := by
  have hc : (v.clock id).time.at_ environment_sequence = log.count environment_sequence := by
    obtain ⟨hn, _, h3⟩ := shows_iff.1 h
    rw [h3, field_eq_count]
    intro e he
    have := hn e he
    revert this; cases e <;> simp [val]
  refine ⟨?_, ?_, ?_⟩ <;> simp only [eval, evalLeaf, hc]

/-- C22 with a unit that is not coarser than the counted one: the unit is ignored and
the count is over the whole life of the clock. -/
theorem C22_unit_ignored (h : Shows (v.clock id) log) {ts : TimeScale} (hts : ts.val ≤ pass.val)
    (n : Int) :
    eval v id (.leaf o (.atPass n ts)) st = (.ok (decide ((log.count pass : Int) = n)), st) := by
  obtain ⟨hn, c0, h1, h2, h3⟩ := h
  have hc : (v.clock id).getTotalTimesRelative pass ts = .ok (log.count pass) := by
    rw [← C21_clock_life hn c0 h1 pass ts (by simp) (.inr hts) none]
    simp only [Clock.getTotalTimesRelative, Clock.getTimeByTimeScale, Time.get, h2, h3]
  simp only [eval, evalLeaf, relTime, hc]

end

theorem elapsed_append (l m : List TimeScale) (ts q : TimeScale) (hm : ∀ e ∈ m, e.val < ts.val) :
    elapsed (l ++ m) ts q = elapsed l ts q + m.count q := by
  induction m using snocInd with
  | h0 => simp
  | h1 m x ih =>
    rw [← List.append_assoc, elapsed_snoc, if_pos (hm x (by simp)),
      ih fun e he => hm e (by simp [he]), List.count_append, List.count_singleton]
    simp [Nat.add_assoc]

theorem passTicks_fine (ps : List (List (List α))) (k : Nat) :
    ∀ e ∈ passTicks ps ++ List.replicate k consideration_set_execution,
      e.val < environment_state_update.val := by
  intro e he
  rcases List.mem_append.1 he with he | he
  · obtain ⟨p, _, he⟩ := List.mem_flatMap.1 he
    rcases List.mem_append.1 he with he | he
    · rw [List.eq_of_mem_replicate he]; decide
    · rw [List.mem_singleton.1 he]; decide
  · rw [List.eq_of_mem_replicate he]; decide

theorem passTicks_pass (ps : List (List (List α))) : (passTicks ps).count pass = ps.length := by
  induction ps with
  | nil => rfl
  | cons p ps ih =>
    have : passTicks (p :: ps) =
      List.replicate p.length consideration_set_execution ++ [pass] ++ passTicks ps := by
      simp [passTicks]
    rw [this, List.count_append, List.count_append, ih]
    simp [List.count_replicate]
    omega

theorem passTicks_cse (ps : List (List (List α))) :
    (passTicks ps).count consideration_set_execution = ps.flatten.length := by
  induction ps with
  | nil => rfl
  | cons p ps ih =>
    have : passTicks (p :: ps) =
      List.replicate p.length consideration_set_execution ++ [pass] ++ passTicks ps := by
      simp [passTicks]
    rw [this, List.count_append, List.count_append, ih]
    simp [List.count_replicate]

section
variable {E : Sys α κ W → Sys α κ W → Prop} {a : RunArgs α κ W} {s0 s : Sys α κ W}
variable {abs : Bool} {h : History α κ W} {pc : PC α} {U : Sys α κ W → Sys α κ W → Prop}
variable {log : List (Option κ × Entry α κ W)} {gs : List (Gen α κ W)}

/-- C22 in terms of a run: while nodes are being considered, the history of the clock is
its history `log0` at the beginning of the run and then the ticks of this run.  So the
passes elapsed in the current environment state update are those elapsed when the run
began (none if it began a new one) and the passes of the run before the current one; the
set executions are those and the sets yielded by the run so far; and the environment
state updates in the current sequence are those at the beginning of the run. -/
theorem C22_in_run {c : Choice α} (hr : Reach E a s0 abs h s (.choosing c))
    (hE : Keeps E (fun s => s.clock a.id)) {log0 : List TimeScale}
    (h0 : Shows (s0.clock a.id) log0) :
    ∃ log, Shows (s.clock a.id) log ∧
      elapsed log environment_state_update pass + 1 =
        elapsed log0 environment_state_update pass + (h.countP fun e => decide (e.ev = .passStart)) ∧
      elapsed log environment_state_update consideration_set_execution =
        elapsed log0 environment_state_update consideration_set_execution + (yields h).length ∧
      elapsed log environment_sequence environment_state_update =
        elapsed log0 environment_sequence environment_state_update ∧
      log.count environment_sequence = log0.count environment_sequence := by
  obtain ⟨ps, p, hps, hc⟩ := hr.clockAt hE h0
  obtain ⟨hflat, hlen, _⟩ := hr.passYields_flatten
  refine ⟨_, hc, ?_, ?_, ?_, ?_⟩
  · rw [List.append_assoc, elapsed_append _ _ _ _ (passTicks_fine ps _), List.count_append,
      passTicks_pass, List.count_replicate, List.countP_eq_length_filter, ← hlen, hps]
    simp [Nat.add_assoc]
  · rw [List.append_assoc, elapsed_append _ _ _ _ (passTicks_fine ps _), List.count_append,
      passTicks_cse, List.count_replicate, ← hflat, hps]
    simp
  · rw [List.append_assoc, elapsed_append _ _ _ _ (fun e he =>
      Nat.lt_trans (passTicks_fine ps _ e he) (by decide))]
    rw [List.count_eq_zero.2 (fun hm => absurd (passTicks_fine ps _ _ hm) (by decide))]
    rfl
  · rw [List.append_assoc, List.count_append]
    rw [List.count_eq_zero.2 (fun hm => absurd (passTicks_fine ps p.length _ hm) (by decide))]
    rfl

/-- C22 over the life of a scheduler: whatever runs have been made, completed or
abandoned, and however the user has used the clocks, every clock shows some history, so
the theorems above apply in every reachable state. -/
theorem C22_life {g : Graph α} {mode : Mode} {id : Option κ} {unit : Rat} {w : World α κ W}
    (hl : Life U (Sys.new g mode id unit w) log s gs)
    (hU : ∀ s s', U s s' → ClockUse s s' ∨ s'.clocks = s.clocks) (i : Option κ) :
    ∃ log, Shows (s.clock i) log := by
  suffices Clocks s from this i
  generalize hs0 : Sys.new g mode id unit w = s0 at hl
  induction hl with
  | init =>
    subst hs0
    intro i
    have : (Sys.new g mode id unit w).clock i = Clock.new := by
      unfold View.clock Sys.new
      simp only [Dict.get?]
      split <;> rename_i h
      · revert h; split
        · intro h; cases h; rfl
        · intro h; cases h
      · rfl
    rw [this]; exact ⟨_, .new⟩
  | start _ hs ih => exact ih.start hs
  | startFails _ hs ih => exact ih.start hs
  | step _ _ hs ih => exact ih.step (Sys.step_stepR hs)
  | user _ hu ih =>
    rcases hU _ _ hu with (⟨j, rfl⟩ | ⟨j, hj⟩) | he
    · exact ih.getClock j
    · unfold Sys.endEnvironmentSequence at hj
      exact ih.incr (by simp) hj
    · exact ih.same he
end

/-- Concrete case: a clock in the second pass of the third environment state update
satisfies `AtPass(1)`, `AfterNEnvironmentStateUpdates(2)` and not `BeforePass(1)`. -/
example :
    let log : List TimeScale := [.pass, .environment_state_update, .environment_state_update,
      .consideration_set_execution, .pass, .consideration_set_execution]
    elapsed log environment_state_update pass = 1 ∧
    elapsed log environment_state_update consideration_set_execution = 2 ∧
    elapsed log environment_sequence environment_state_update = 2 ∧
    ∃ c, log.foldlM Clock.incr Clock.new = .ok c ∧ Shows c log :=
  ⟨by decide, by decide, by decide, _, rfl, by decide, _, rfl, rfl, fun _ => rfl⟩

/-- Concrete case for the run: the demo run is choosing nodes in its second pass. -/
example : (demoAfter 19).2.2 = .choosing ⟨0, false, [0], [0], [], true⟩ ∧
    ((demoAfter 19).1.countP fun e => decide (e.ev = .passStart)) = 2 ∧
    Shows (demo.clock demoArgs.id) [] :=
  ⟨by decide +kernel, by decide +kernel, .new⟩

end GS.Props
