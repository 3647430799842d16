import Verif.TimeLemmas2
/-!
# C20, C21: clocks and their histories
-/

set_option linter.unusedSectionVars false

namespace GS.Props
open Spec TimeScale

/-! ## C20 -/

/-- C20, first half: an increment makes the time strictly later, adds one to its unit,
zeroes the finer ones and keeps the coarser ones; the previous time is remembered. -/
theorem C20_increment (c c' : Clock) (ts : TimeScale) (h : c.incr ts = .ok c') :
    Earlier c.time.at_ c'.time.at_ ∧
    c'.time.at_ ts = c.time.at_ ts + 1 ∧
    (∀ s, s.val < ts.val → c'.time.at_ s = 0) ∧
    (∀ s, ts.val < s.val → c'.time.at_ s = c.time.at_ s) ∧
    c'.previous_time = some c.time := by
  unfold Clock.incr at h
  split at h
  · simp at h
  · injection h with h
    subst h
    refine ⟨⟨ts, ?_, ?_⟩, ?_, ?_, ?_, rfl⟩
    · simp [Time.incr_at]
    · intro s hs
      have h1 : ¬ s.val < ts.val := by omega
      have h2 : s ≠ ts := fun e => by subst e; omega
      simp [Time.incr_at, h1, h2]
    · simp [Time.incr_at]
    · intro s hs; simp [Time.incr_at, hs]
    · intro s hs
      have h1 : ¬ s.val < ts.val := by omega
      have h2 : s ≠ ts := fun e => by subst e; omega
      simp [Time.incr_at, h1, h2]

example : ∃ c c', Clock.new.incr .pass = .ok c ∧ c.incr .consideration_set_execution = .ok c' ∧
    c'.time.at_ .pass = 1 ∧ c'.time.at_ .consideration_set_execution = 1 := by
  refine ⟨_, _, rfl, rfl, by decide, by decide⟩

/-- C20, second half: after any history of increments, every field of the current time
is the number of increments of its unit since the last increment of a coarser unit. -/
theorem C20_fields (log : List TimeScale) (h : NoLife log) :
    ∃ c, log.foldlM Clock.incr Clock.new = .ok c ∧ ∀ s, c.time.at_ s = field log s := by
  obtain ⟨p, hp⟩ := Clock.incrs_eq log h
  exact ⟨_, hp, fun s => Time.incrs_at log s⟩

example : NoLife [.consideration_set_execution, .pass, .environment_state_update, .pass] := by
  decide

example : field [.consideration_set_execution, .pass, .environment_state_update, .pass, .pass]
    .pass = 2 := by decide

/-- C20, the rejected unit: `LIFE` cannot be incremented (`KeyError`). -/
theorem C20_life_rejected (log : List TimeScale) (h : NoLife log) (c : Clock)
    (hc : log.foldlM Clock.incr Clock.new = .ok c) : c.incr life = .error .keyError := by
  obtain ⟨p, hp⟩ := Clock.incrs_eq log h
  rw [hp] at hc
  injection hc with hc
  subst hc
  have key : ∀ (k i : Nat) (l : List TimeScale), k ≤ 3 →
      (Tree.ofLog Clock.maxDepth (k + 1) i l).incr Clock.maxDepth life = .error .keyError := by
    intro k
    induction k with
    | zero => intro i l _; rfl
    | succ k ih =>
      intro i l hk
      have hv : life.val = 4 := rfl
      have hb : ∀ tot, Tree.bump (k + 1 + 1) tot life = .error .keyError := by
        intro tot; unfold Tree.bump; rw [if_neg (by omega)]
      rw [Tree.ofLog, Tree.incr]
      simp only [Nat.add_sub_cancel]
      by_cases hm : Clock.maxDepth.val ≤ k + 1
      · rw [if_pos hm, if_neg (by omega), if_pos hm]
        have hne := segs_ne_nil (k + 1) l
        obtain ⟨a, x, hax⟩ : ∃ a x, segs (k + 1) l = a ++ [x] :=
          ⟨_, _, (List.dropLast_concat_getLast hne).symm⟩
        rw [hax, mapIdx_append_singleton]
        have hlast : ∀ (l : List Tree) (t : Tree), t.incr Clock.maxDepth life = .error .keyError →
            Tree.incrLast Clock.maxDepth life (l ++ [t]) = .error .keyError := by
          intro l t ht
          induction l with
          | nil => simp [Tree.incrLast, ht]
          | cons a l ih =>
            cases l with
            | nil => simp [Tree.incrLast, ht]
            | cons b l =>
              simp only [List.cons_append] at ih ⊢
              rw [Tree.incrLast]; simp only [ih]
        rw [hlast _ _ (ih _ _ (by omega))]
      · rw [if_neg hm, hb]
  unfold Clock.incr
  simp only
  rw [key 3 0 log (by omega)]

/-! ## C21 -/

/-- C21 for `TimeHistoryTree.get_total_times_relative` with any depth and any set of
indices: if the indices name a recorded period, the answer is the number of `q`-
increments that happened during that period; otherwise `TimeScaleError`. -/
theorem C21_tree (md : TimeScale) (hmd : md ≠ consideration_set_execution)
    (log : List TimeScale) (hlog : NoLife log)
    (q base : TimeScale) (given : TimeScale → Option Int) (hq : q ≠ life)
    (hbase : IsBase q given base) :
    ∃ t0 t, Tree.new md 4 0 = .ok t0 ∧ log.foldlM (fun t ts => Tree.incr md ts t) t0 = .ok t ∧
      (∀ idx, Resolved md base given log idx →
        t.getTotalTimesRelative q given = .ok (countWhen (inPeriod base idx) q log)) ∧
      ((¬ ∃ idx, Resolved md base given log idx) →
        t.getTotalTimesRelative q given = .error .timeScaleError) := by
  have h1 : 1 ≤ md.val := by revert hmd; cases md <;> simp [val]
  have hb := baseScale_spec q base given hq hbase.1 hbase.2
  have hqb : q.val < base.val := by
    rcases hbase.1 with rfl | h
    · revert hq; cases q <;> simp [val]
    · exact h.2
  exact ⟨_, _, Tree.new_eq_ofLog md h1 3 0, Tree.incrs_ofLog md h1 log hlog,
    Tree.getTotal_ofLog md log hlog q base given hqb hb⟩

/-- The proviso of `C21_tree` is needed: `TimeHistoryTree(time_scale, index,
max_depth=CONSIDERATION_SET_EXECUTION)` raises `ValueError`, whatever the scale. -/
theorem C21_finest_depth (n idx : Nat) :
    Tree.new consideration_set_execution n idx = .error .valueError := by
  induction n generalizing idx with
  | zero => rfl
  | succ n ih =>
    rw [Tree.new, if_pos (by simp [val]), ih]

/-- A coarser query than the tree is rejected. -/
theorem C21_tree_life (t : Tree) (h : t.scale = 4) (given : TimeScale → Option Int) :
    t.getTotalTimesRelative life given = .error .timeScaleError := by
  unfold Tree.getTotalTimesRelative
  rw [if_pos (by rw [h]; decide)]

/-- Concrete case: with `max_depth = PASS`, two passes of which the first had two set
executions; `{PASS: 0}` names a recorded period and the answer is 2. -/
example :
    let log : List TimeScale := [.consideration_set_execution, .consideration_set_execution,
      .pass, .consideration_set_execution]
    let given : TimeScale → Option Int := fun s => if s = .pass then some 0 else none
    NoLife log ∧ IsBase .consideration_set_execution given .pass ∧
    Resolved .pass .pass given log (fun _ => 0) ∧
    countWhen (inPeriod .pass (fun _ => 0)) .consideration_set_execution log = 2 := by
  refine ⟨by decide, ⟨.inr (by decide), ?_⟩, ?_, by decide⟩
  · intro s; cases s <;> decide
  · intro s; cases s <;> simp [val, Chooses] <;> decide

theorem Earlier.trans {f g h : TimeScale → Nat} (a : Earlier f g) (b : Earlier g h) :
    Earlier f h := by
  obtain ⟨s, h1, h2⟩ := a
  obtain ⟨t, h3, h4⟩ := b
  by_cases hlt : s.val < t.val
  · exact ⟨t, by rw [h2 t hlt]; exact h3, fun s' hs' => by rw [h2 s' (by omega), h4 s' hs']⟩
  · by_cases heq : s.val = t.val
    · have := val_inj heq; subst this
      exact ⟨s, by omega, fun s' hs' => by rw [h2 s' hs', h4 s' hs']⟩
    · exact ⟨s, by rw [← h4 s (by omega)]; exact h1,
        fun s' hs' => by rw [h2 s' hs', h4 s' (by omega)]⟩

theorem field_snoc_earlier (log : List TimeScale) (x : TimeScale) :
    Earlier (field log) (field (log ++ [x])) := by
  refine ⟨x, ?_, ?_⟩
  · simp [field_snoc]
  · intro s hs
    have h1 : ¬ s.val < x.val := by omega
    have h2 : s ≠ x := fun e => by subst e; omega
    simp [field_snoc, h1, h2]

/-- C20 for histories: a longer history has a strictly later time. -/
theorem C20_history_increasing (pre suf : List TimeScale) (h : suf ≠ []) :
    Earlier (field pre) (field (pre ++ suf)) := by
  induction suf using snocInd with
  | h0 => exact absurd rfl h
  | h1 l x ih =>
    rw [← List.append_assoc]
    by_cases hl : l = []
    · subst hl; simpa using field_snoc_earlier pre x
    · exact Earlier.trans (ih hl) (field_snoc_earlier _ x)

/-- The number of units in the current enclosing period is the current field. -/
theorem count_current (log : List TimeScale) (s : TimeScale) :
    countWhen (fun pre => TimeScale.all.all fun s' =>
      !decide (s.val < s'.val) || decide (field pre s' = field log s')) s log = field log s := by
  induction log using snocInd with
  | h0 => rfl
  | h1 l x ih =>
    rw [countWhen_snoc, field_snoc]
    by_cases hx : s.val < x.val
    · -- coarser increment: nothing before has the new coarse value
      have hxs : ¬ x = s := fun e => by subst e; omega
      simp only [hx, if_true, hxs, false_and, if_false, Nat.add_zero]
      have : ∀ pre, pre <+: l → (TimeScale.all.all fun s' =>
          !decide (s.val < s'.val) || decide (field pre s' = field (l ++ [x]) s')) = false := by
        intro pre hp
        obtain ⟨suf, rfl⟩ := hp
        have he : Earlier (field pre) (field (pre ++ suf ++ [x])) := by
          rw [List.append_assoc]; exact C20_history_increasing pre _ (by simp)
        by_cases hall : ∀ s', s.val < s'.val → field pre s' = field (pre ++ suf ++ [x]) s'
        · exfalso
          obtain ⟨t, h1, h2⟩ := he
          have hts : ¬ s.val < t.val := fun hh => by have := hall t hh; omega
          -- compare with the time just before x
          have hxl : field (pre ++ suf ++ [x]) x = field (pre ++ suf) x + 1 := by
            rw [field_snoc]; simp
          have hpx := hall x hx
          rw [hxl] at hpx
          have hle : ∃ e, e = pre ++ suf ∧ (e = pre ∨ Earlier (field pre) (field e)) := by
            refine ⟨_, rfl, ?_⟩
            by_cases hs : suf = []
            · left; simp [hs]
            · right; exact C20_history_increasing pre suf hs
          obtain ⟨e, rfl, hle⟩ := hle
          rcases hle with h | ⟨u, h3, h4⟩
          · rw [h] at hpx; omega
          · by_cases hux : u.val < x.val
            · have := h4 x hux; omega
            · by_cases hue : u = x
              · subst hue; omega
              · have hux' : x.val < u.val := by
                  have : u.val ≠ x.val := fun e => hue (val_inj e)
                  omega
                have h5 := hall u (by omega)
                rw [field_snoc, if_neg (by omega), if_neg hue] at h5
                omega
        · rw [List.all_eq_false]
          have : ∃ s', ¬ (s.val < s'.val → field pre s' = field (pre ++ suf ++ [x]) s') :=
            Classical.not_forall.1 hall
          obtain ⟨s', hs'⟩ := this
          refine ⟨s', by cases s' <;> simp [TimeScale.all], ?_⟩
          have h1 : s.val < s'.val := Classical.byContradiction fun h => hs' (fun h' => absurd h' h)
          have h2 : ¬ field pre s' = field (pre ++ suf ++ [x]) s' := fun h => hs' (fun _ => h)
          rw [decide_eq_false h2, decide_eq_true h1]; simp
      unfold countWhen
      rw [List.length_eq_zero_iff, List.filter_eq_nil_iff]
      intro p _
      have := this _ (List.take_prefix p l)
      dsimp only
      rw [this]
      simp
    · have hc : ∀ s', s.val < s'.val → field (l ++ [x]) s' = field l s' := by
        intro s' hs'
        rw [field_snoc, if_neg (by omega), if_neg (fun e => by subst e; omega)]
      have hP : ∀ pre, (TimeScale.all.all fun s' =>
          !decide (s.val < s'.val) || decide (field pre s' = field (l ++ [x]) s')) =
          (TimeScale.all.all fun s' =>
          !decide (s.val < s'.val) || decide (field pre s' = field l s')) := by
        intro pre
        congr 1
        funext s'
        by_cases hs' : s.val < s'.val
        · rw [hc s' hs']
        · simp [hs']
      simp only [hP]
      rw [ih]
      by_cases hxs : s = x
      · subst hxs
        simp
      · have : ¬ x = s := fun e => hxs e.symm
        simp [this, hx, hxs]

/-- Units strictly coarser than `base` agree with the current time, and `base` is in
its `n`-th unit. -/
def during (log : List TimeScale) (base : TimeScale) (n : Nat) (pre : List TimeScale) : Bool :=
  decide (field pre base = n) &&
    TimeScale.all.all fun s => !decide (base.val < s.val) || decide (field pre s = field log s)

theorem field_life {log : List TimeScale} (h : NoLife log) : field log life = 0 := by
  rw [field_eq_count (s := life) (fun e _ => val_le e)]
  exact List.count_eq_zero.2 (fun hm => h _ hm rfl)

theorem enclosing_current {log : List TimeScale} (hlog : NoLife log) (s : TimeScale)
    (idx : TimeScale → Nat) (hidx : ∀ s', s.val < s'.val → s' ≠ life → idx s' = field log s') :
    countWhen (inEnclosing s idx) s log = field log s := by
  refine Eq.trans ?_ (count_current log s)
  apply countWhen_congr
  intro pre hp
  unfold inEnclosing
  rw [Bool.eq_iff_iff]
  simp only [List.all_eq_true]
  refine forall_congr' fun s' => forall_congr' fun _ => ?_
  by_cases h1 : s.val < s'.val
  · by_cases h2 : s' = life
    · subst h2
      rw [field_life hlog, field_life (fun e he => hlog e (hp.subset he))]; simp
    · simp [h1, h2, hidx s' h1 h2]
  · simp [h1]

theorem clock_query {log : List TimeScale} (hlog : NoLife log) (q base : TimeScale)
    (hq : q.val < base.val) (hrec : Clock.maxDepth.val ≤ base.val) (hb : base ≠ life)
    (i : Int) (c : Clock) (hc : log.foldlM Clock.incr Clock.new = .ok c) :
    (∀ n : Nat, n ≤ field log base → ((n : Int) = i ∨ (n : Int) = i + field log base + 1) →
      c.getTotalTimesRelative q base (some i) = .ok (countWhen (during log base n) q log)) ∧
    ((¬ ∃ n : Nat, n ≤ field log base ∧ ((n : Int) = i ∨ (n : Int) = i + field log base + 1)) →
      c.getTotalTimesRelative q base (some i) = .error .timeScaleError) := by
  obtain ⟨p, hp⟩ := Clock.incrs_eq log hlog
  rw [hp] at hc
  injection hc with hc
  subst hc
  have hqne : q ≠ life := fun e => by
    subst e; have := val_le base; have e : TimeScale.life.val = 4 := rfl; omega
  have hbs := baseScale_spec q base (fun s => if s = base then some i else none) hqne
    (.inr ⟨by simp, hq⟩) (fun s hs _ => by
      by_cases e : s = base
      · rw [e]; exact Nat.le_refl _
      · simp [e] at hs)
  have hmain := Tree.getTotal_ofLog Clock.maxDepth log hlog q base _ hq hbs
  unfold Clock.getTotalTimesRelative
  simp only
  constructor
  · intro n hn hi
    have hR : Resolved Clock.maxDepth base (fun s => if s = base then some i else none) log
        (fun s => if s = base then n else field log s) := by
      intro s hs hne
      refine ⟨by omega, ?_⟩
      rw [enclosing_current hlog s _ (fun s' h1 _ => by
        have : s' ≠ base := fun e => by subst e; omega
        simp [this])]
      by_cases e : s = base
      · subst e; simp only [if_true, Chooses]; exact ⟨hn, hi⟩
      · simp [e, Chooses]
    rw [hmain.1 _ hR]
    congr 1
    apply countWhen_congr
    intro pre hpre
    rw [Bool.eq_iff_iff]
    simp only [inPeriod, during, List.all_eq_true, Bool.and_eq_true, decide_eq_true_eq]
    constructor
    · intro h
      refine ⟨?_, ?_⟩
      · have := h base (by cases base <;> simp [TimeScale.all])
        simpa [hb] using this
      · intro s hs
        have := h s hs
        by_cases h1 : base.val < s.val
        · have hsb : s ≠ base := fun e => by subst e; omega
          by_cases hsl : s = life
          · subst hsl
            rw [field_life hlog, field_life (fun e he => hlog e (hpre.subset he))]; simp
          · simpa [h1, hsl, hsb, Nat.le_of_lt h1] using this
        · simp [h1]
    · intro ⟨h1, h2⟩ s hs
      have := h2 s hs
      by_cases hsb : s = base
      · subst hsb; simp [h1]
      · by_cases hle : base.val ≤ s.val
        · have hlt : base.val < s.val := by
            have : base.val ≠ s.val := fun e => hsb (val_inj e).symm
            omega
          simp only [hlt, decide_true, Bool.not_true, Bool.false_or, decide_eq_true_eq] at this
          simp [hsb, this]
        · simp [hle]
  · intro hno
    apply hmain.2
    rintro ⟨idx, hR⟩
    -- the enclosing indices are the current ones
    have hup : ∀ s, base.val < s.val → s ≠ life → idx s = field log s := by
      have step : ∀ s, base.val < s.val → s ≠ life →
          (∀ s', s.val < s'.val → s' ≠ life → idx s' = field log s') → idx s = field log s := by
        intro s h1 h2 hup
        have := (hR s (by omega) h2).2
        rw [enclosing_current hlog s idx hup] at this
        have hsb : s ≠ base := fun e => by subst e; omega
        simpa [hsb, Chooses] using this
      have h3 : ∀ s, s = environment_sequence → base.val < s.val → idx s = field log s := by
        intro s hs h1; subst hs
        exact step _ h1 (by decide) (fun s' hs' hne => by
          exfalso; revert hs' hne; cases s' <;> simp [val])
      intro s h1 h2
      apply step s h1 h2
      intro s' hs' hne
      by_cases e : s' = environment_sequence
      · exact h3 s' e (by omega)
      · exfalso
        have h5 : base.val ≥ 2 := hrec
        have h6 : s'.val ≥ 4 := by omega
        revert h6 hne e
        cases s' <;> simp [val]
    have := (hR base (Nat.le_refl _) hb).2
    rw [enclosing_current hlog base idx (fun s h1 h2 => hup s h1 h2)] at this
    simp only [if_true, Chooses] at this
    exact hno ⟨idx base, this⟩

/-- C21 for a clock and an explicit period: the `n`-th `base` unit of the current
enclosing units, for every recorded unit (`ENVIRONMENT_SEQUENCE`,
`ENVIRONMENT_STATE_UPDATE`) that has begun. -/
theorem C21_clock_counts {log : List TimeScale} (hlog : NoLife log) (c : Clock)
    (hc : log.foldlM Clock.incr Clock.new = .ok c) (q base : TimeScale)
    (hbase : base = environment_sequence ∨ base = environment_state_update)
    (hq : q.val < base.val) (n : Nat) (hn : n ≤ field log base) :
    c.getTotalTimesRelative q base (some (n : Int)) = .ok (countWhen (during log base n) q log) := by
  have h1 : Clock.maxDepth.val ≤ base.val := by rcases hbase with rfl | rfl <;> decide
  have h2 : base ≠ life := by rcases hbase with rfl | rfl <;> decide
  exact (clock_query hlog q base hq h1 h2 n c hc).1 n hn (.inl rfl)

/-- C21: no index means the current unit. -/
theorem C21_clock_default {log : List TimeScale} (hlog : NoLife log) (c : Clock)
    (hc : log.foldlM Clock.incr Clock.new = .ok c) (q base : TimeScale)
    (hbase : base = environment_sequence ∨ base = environment_state_update)
    (hq : q.val < base.val) :
    c.getTotalTimesRelative q base =
      .ok (countWhen (during log base (field log base)) q log) := by
  have h := C21_clock_counts hlog c hc q base hbase hq (field log base) (Nat.le_refl _)
  rw [← h]
  obtain ⟨c', hc', hf⟩ := C20_fields log hlog
  rw [hc] at hc'
  injection hc' with hc'
  subst hc'
  simp only [Clock.getTotalTimesRelative, Clock.getTimeByTimeScale, Time.get, hf]

/-- C21: a negative index counts back from the current unit. -/
theorem C21_clock_negative {log : List TimeScale} (hlog : NoLife log) (c : Clock)
    (hc : log.foldlM Clock.incr Clock.new = .ok c) (q base : TimeScale)
    (hbase : base = environment_sequence ∨ base = environment_state_update)
    (hq : q.val < base.val) (j : Nat) (hj : j ≤ field log base) :
    c.getTotalTimesRelative q base (some (-(j : Int) - 1)) =
      .ok (countWhen (during log base (field log base - j)) q log) := by
  have h1 : Clock.maxDepth.val ≤ base.val := by rcases hbase with rfl | rfl <;> decide
  have h2 : base ≠ life := by rcases hbase with rfl | rfl <;> decide
  exact (clock_query hlog q base hq h1 h2 _ c hc).1 _ (by omega) (.inr (by omega))

/-- C21: a unit that has not begun (or an index before the first) raises
`TimeScaleError`. -/
theorem C21_clock_not_begun {log : List TimeScale} (hlog : NoLife log) (c : Clock)
    (hc : log.foldlM Clock.incr Clock.new = .ok c) (q base : TimeScale)
    (hbase : base = environment_sequence ∨ base = environment_state_update)
    (hq : q.val < base.val) (i : Int)
    (hi : (field log base : Int) < i ∨ i < -(field log base : Int) - 1) :
    c.getTotalTimesRelative q base (some i) = .error .timeScaleError := by
  have h1 : Clock.maxDepth.val ≤ base.val := by rcases hbase with rfl | rfl <;> decide
  have h2 : base ≠ life := by rcases hbase with rfl | rfl <;> decide
  apply (clock_query hlog q base hq h1 h2 i c hc).2
  rintro ⟨n, hn, h | h⟩ <;> omega

/-- C21: passes are not recorded by the default depth, so a `PASS` scope raises
`TimeScaleError`. -/
theorem C21_clock_pass_not_recorded {log : List TimeScale} (hlog : NoLife log) (c : Clock)
    (hc : log.foldlM Clock.incr Clock.new = .ok c) (i : Int) :
    c.getTotalTimesRelative consideration_set_execution pass (some i) = .error .timeScaleError := by
  obtain ⟨p, hp⟩ := Clock.incrs_eq log hlog
  rw [hp] at hc
  injection hc with hc
  subst hc
  have hbs := baseScale_spec consideration_set_execution pass
    (fun s => if s = pass then some i else none) (by decide) (.inr ⟨by simp, by decide⟩)
    (fun s hs _ => by
      by_cases e : s = pass
      · rw [e]; exact Nat.le_refl _
      · simp [e] at hs)
  have hmain := Tree.getTotal_ofLog Clock.maxDepth log hlog _ pass _ (by decide) hbs
  apply hmain.2
  rintro ⟨idx, hR⟩
  have := (hR pass (Nat.le_refl _) (by decide)).1
  revert this; decide

/-- C21: over `LIFE` (whatever the index) the answer is the number of all increments of
the unit; the same answer is given when the scope is not coarser than the query (the
code then ignores the scope). -/
theorem C21_clock_life {log : List TimeScale} (hlog : NoLife log) (c : Clock)
    (hc : log.foldlM Clock.incr Clock.new = .ok c) (q base : TimeScale) (hq : q ≠ life)
    (hbase : base = life ∨ base.val ≤ q.val) (i : Option Int) :
    c.getTotalTimesRelative q base i = .ok (log.count q) := by
  obtain ⟨p, hp⟩ := Clock.incrs_eq log hlog
  rw [hp] at hc
  injection hc with hc
  subst hc
  unfold Clock.getTotalTimesRelative
  have gen : ∀ j : Int, (Tree.ofLog Clock.maxDepth 4 0 log).getTotalTimesRelative q
      (fun s => if s = base then some j else none) = .ok (log.count q) := by
    intro j
    have hbs := baseScale_spec q life
      (fun s => if s = base then some j else none) hq (.inl rfl)
      (fun s hs h1 => by
        by_cases e : s = base
        · subst e
          rcases hbase with rfl | h
          · exact Nat.le_refl _
          · omega
        · simp [e] at hs)
    have hq' : q.val < life.val := by revert hq; cases q <;> simp [val]
    have hmain := Tree.getTotal_ofLog Clock.maxDepth log hlog q life _ hq' hbs
    rw [hmain.1 (fun _ => 0) (fun s hs hne => by exfalso; revert hs hne; cases s <;> simp [val])]
    rw [← countWhen_true]
    refine congrArg Except.ok (countWhen_congr _ _ ?_)
    intro pre _
    simp [inPeriod, TimeScale.all, val]
  exact gen _

/-- Concrete case for the clock theorems: in the second update of the second sequence,
two passes of the first update of that sequence are found. -/
example :
    let log : List TimeScale := [.pass, .environment_sequence, .pass, .pass,
      .environment_state_update, .pass]
    NoLife log ∧ field log .environment_state_update = 1 ∧
    countWhen (during log .environment_state_update 0) .pass log = 2 ∧
    ∃ c, log.foldlM Clock.incr Clock.new = .ok c ∧
      c.getTotalTimesRelative .pass .environment_state_update (some 0) = .ok 2 := by
  refine ⟨by decide, by decide, by decide, _, rfl, by rfl⟩

end GS.Props
