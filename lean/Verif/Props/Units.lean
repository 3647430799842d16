import Verif.UnitsLemmas
/-!
# C67, C68, C69: durations as they are written
-/

set_option linter.unusedSectionVars false

namespace GS.Props
open Spec
variable {reg : Registry} {n n' : DurArg} {unit unit' : UnitArg} {m u : Rat}

/-! ## C67 -/

/-- C67: the duration a condition uses differs from the one that was written by at most
half of the eighth decimal place of the unit it is stored in, which is not larger than the
unit it was written in. -/
theorem C67_close (hw : Written reg n unit m u) (hs : Sorted reg) :
    ∃ q, parseAbsoluteUnit reg (some n) unit = .ok (some q) ∧ q.u ≤ u ∧
      (0 ≤ u → (q.m * q.u - m * u).abs ≤ q.u / (2 * 10 ^ 8)) := by
  refine ⟨_, parse_written hw, ?_⟩
  rcases reduce_cases reg.units ⟨m, u⟩ with ⟨e, _⟩ | ⟨l, v, r, h1, h2, _⟩
  · rw [e]
    refine ⟨Rat.le_refl, fun hu => ?_⟩
    have : m * u - m * u = 0 := by grind
    rw [this]
    show (0 : Rat).abs ≤ u / (2 * 10 ^ 8)
    rw [Rat.div_def]
    exact Rat.mul_nonneg hu (by decide +kernel)
  · have hv : v ∈ reg.units ∧ v ≤ u := by
      have : v ∈ reg.units.filter fun x => x ≤ (⟨m, u⟩ : TimeQty).u := by rw [h1]; simp
      rw [List.mem_filter] at this
      exact ⟨this.1, by simpa using this.2⟩
    obtain ⟨e1, e2, _⟩ := quantityAsInteger_some h2
    have hp := hs.1 v hv.1
    rw [e1, e2]
    show v ≤ u ∧ (0 ≤ u → (round8 (m * u / v) * v - m * u).abs ≤ v / (2 * 10 ^ 8))
    refine ⟨hv.2, fun _ => ?_⟩
    have hr := round8_err (m * u / v)
    have e3 : m * u = m * u / v * v := (Rat.div_mul_cancel (Rat.ne_of_gt hp)).symm
    have e4 : round8 (m * u / v) * v - m * u = (round8 (m * u / v) - m * u / v) * v := by grind
    rw [e4]
    have b1 := Rat.mul_le_mul_of_nonneg_right hr.1 (Rat.le_of_lt hp)
    have b2 := Rat.mul_le_mul_of_nonneg_right hr.2 (Rat.le_of_lt hp)
    unfold Rat.abs
    split <;> grind

/-- C67: a duration whose number has at most eight decimal places is kept exactly, if the
known units below the one it is written in divide that unit (as milliseconds, microseconds
and so on do). -/
theorem C67_exact_partial (hw : Written reg n unit m u) (hs : Sorted reg) (hd : Divided reg u)
    (h8 : Whole (m * 10 ^ 8)) :
    ∃ q, parseAbsoluteUnit reg (some n) unit = .ok (some q) ∧ q.m * q.u = m * u := by
  refine ⟨_, parse_written hw, ?_⟩
  rcases reduce_cases reg.units ⟨m, u⟩ with ⟨e, _⟩ | ⟨l, v, r, h1, h2, _⟩
  · rw [e]
  · have hv : v ∈ reg.units ∧ v ≤ u := by
      have : v ∈ reg.units.filter fun x => x ≤ (⟨m, u⟩ : TimeQty).u := by rw [h1]; simp
      rw [List.mem_filter] at this
      exact ⟨this.1, by simpa using this.2⟩
    obtain ⟨e1, e2, _⟩ := quantityAsInteger_some h2
    have hp := Rat.ne_of_gt (hs.1 v hv.1)
    rw [e1, e2]
    show round8 (m * u / v) * v = m * u
    rw [round8_exact, Rat.div_mul_cancel hp]
    obtain ⟨k, hk⟩ := hd v hv.1 hv.2
    obtain ⟨j, hj⟩ := h8
    refine ⟨j * k, ?_⟩
    have : m * u / v = m * k := by
      rw [hk, ← Rat.mul_assoc]; exact Rat.mul_div_cancel hp
    rw [this, Rat.intCast_mul, ← hj]; grind

/-- C67: if such a duration is a whole number of some known unit, at most the one it is
written in, then it is stored as a whole number of the largest such unit. -/
theorem C67_whole_partial (hw : Written reg n unit m u) (hs : Sorted reg) (hd : Divided reg u)
    (h8 : Whole (m * 10 ^ 8)) (hv : ∃ v ∈ reg.units, v ≤ u ∧ Whole (m * u / v)) :
    ∃ q, parseAbsoluteUnit reg (some n) unit = .ok (some q) ∧ q.m * q.u = m * u ∧ Whole q.m ∧
      q.u ∈ reg.units ∧ q.u ≤ u ∧
      ∀ v ∈ reg.units, v ≤ u → Whole (m * u / v) → v ≤ q.u := by
  have h8' : ∀ v ∈ reg.units, v ≤ u → round8 (m * u / v) = m * u / v := by
    intro v hv hle
    apply round8_exact
    obtain ⟨k, hk⟩ := hd v hv hle
    obtain ⟨j, hj⟩ := h8
    refine ⟨j * k, ?_⟩
    have : m * u / v = m * k := by
      rw [hk, ← Rat.mul_assoc]; exact Rat.mul_div_cancel (Rat.ne_of_gt (hs.1 v hv))
    rw [this, Rat.intCast_mul, ← hj]; grind
  obtain ⟨q, hq, he⟩ := C67_exact_partial hw hs hd h8
  have hq' := hq
  rw [parse_written hw] at hq'
  injection hq' with hq'; injection hq' with hq'
  refine ⟨q, hq, he, ?_⟩
  rcases reduce_cases reg.units ⟨m, u⟩ with ⟨_, hn⟩ | ⟨l, v, r, h1, h2, h3⟩
  · obtain ⟨v, hm, hle, hwh⟩ := hv
    exact absurd (by rw [show (TimeQty.to ⟨m, u⟩ v).m = m * u / v from rfl, h8' v hm hle]; exact hwh)
      (quantityAsInteger_none (hn v hm hle))
  · have hmem : ∀ w, w ∈ l ++ v :: r ↔ w ∈ reg.units ∧ w ≤ u := by
      intro w; rw [← h1, List.mem_filter]; simp
    have hvu := (hmem v).mp (by simp)
    rw [hq'] at h2
    obtain ⟨e1, _, e3⟩ := quantityAsInteger_some h2
    have e1' : q.u = v := e1
    refine ⟨e3, by rw [e1']; exact hvu.1, by rw [e1']; exact hvu.2, ?_⟩
    intro w hw1 hw2 hw3
    rw [e1']
    have hp : (l ++ v :: r).Pairwise fun x y => y ≤ x := by
      rw [← h1]; exact hs.2.filter _
    rcases List.mem_append.mp ((hmem w).mpr ⟨hw1, hw2⟩) with h | h
    · exact absurd (by rw [show (TimeQty.to ⟨m, u⟩ w).m = m * u / w from rfl, h8' w hw1 hw2]; exact hw3)
        (quantityAsInteger_none (h3 w h))
    · rcases List.mem_cons.mp h with rfl | h
      · exact Rat.le_refl
      · rw [List.pairwise_append] at hp
        exact (List.pairwise_cons.mp hp.2.1).1 w h

/-- C67: all ways to write the same number of the same unit mean the same. -/
theorem C67_spellings (hw : Written reg n unit m u) (hw' : Written reg n' unit' m u) :
    parseAbsoluteUnit reg (some n) unit = parseAbsoluteUnit reg (some n') unit' := by
  rw [parse_written hw, parse_written hw']

/-- Seconds, milliseconds, microseconds, nanoseconds and picoseconds, in picoseconds; some
texts. -/
def siRegistry : Registry where
  units := [10 ^ 12, 10 ^ 9, 10 ^ 6, 10 ^ 3, 1]
  parse := fun s => match s with
    | "9ms" => .quantity ⟨9, 10 ^ 9⟩
    | "10ms" => .quantity ⟨10, 10 ^ 9⟩
    | "0.25" => .number (some (1 / 4))
    | _ => .undefined
  named := fun s => match s with
    | "ms" => some (10 ^ 9)
    | "s" => some (10 ^ 12)
    | _ => none

theorem siRegistry_sorted : Sorted siRegistry :=
  ⟨by decide +kernel, by decide +kernel⟩

theorem siRegistry_divided : Divided siRegistry (10 ^ 12) := by
  intro v hv _
  simp only [siRegistry, List.mem_cons, List.not_mem_nil, or_false] at hv
  rcases hv with rfl | rfl | rfl | rfl | rfl
  · exact ⟨1, by decide +kernel⟩
  · exact ⟨10 ^ 3, by decide +kernel⟩
  · exact ⟨10 ^ 6, by decide +kernel⟩
  · exact ⟨10 ^ 9, by decide +kernel⟩
  · exact ⟨10 ^ 12, by decide +kernel⟩

/-- The hypotheses of the theorems hold for "0.25" with the unit "s", which becomes 250
milliseconds. -/
example : Written siRegistry (.text "0.25") (.name "s") (1 / 4) (10 ^ 12) ∧
    Whole (1 / 4 * 10 ^ 8) ∧
    (∃ v ∈ siRegistry.units, v ≤ 10 ^ 12 ∧ Whole (1 / 4 * 10 ^ 12 / v)) ∧
    parseAbsoluteUnit siRegistry (some (.text "0.25")) (.name "s") = .ok (some ⟨250, 10 ^ 9⟩) :=
  ⟨.digits rfl rfl, ⟨25000000, by decide +kernel⟩, ⟨10 ^ 9, by decide +kernel, by decide +kernel, 250, by decide +kernel⟩,
    by decide +kernel⟩

/-- The full claim C67 is false: a picosecond, written as `1e-9` milliseconds, becomes
nothing at all (and `TimeInterval(repeat=...)` of it divides by zero), although
picoseconds are known; written in picoseconds it is kept. -/
theorem C67_vanishes :
    parseAbsoluteUnit siRegistry (some (.num (1 / 10 ^ 9))) (.name "ms") = .ok (some ⟨0, 10 ^ 9⟩) ∧
    parseAbsoluteUnit siRegistry (some (.num 1)) (.unit 1) = .ok (some ⟨1, 1⟩) := by
  decide +kernel

/-! ## C68 -/

/-- C68 for arguments of the same kind, numbers or quantities: `TimeInterval` raises
`ConditionError` because of its arguments `start` and `end` exactly if the duration
written for `start` is larger than that for `end`. -/
theorem C68_order_partial {b e : DurArg} {mb ub me ue : Rat} (rep : Option DurArg)
    (hk : (∃ x y, b = .num x ∧ e = .num y) ∨ (∃ x y, b = .qty x ∧ e = .qty y))
    (hb : Written reg b unit mb ub) (he : Written reg e unit me ue) (hu : 0 < ub)
    (hr : ∀ r, rep = some r → ∃ m u, Written reg r unit m u) :
    newTimeInterval reg rep (some b) (some e) unit = .error .conditionError ↔ me * ue < mb * ub := by
  have hgt : b.gt e = .ok (decide (me * ue < mb * ub)) := by
    rcases hk with ⟨x, y, rfl, rfl⟩ | ⟨x, y, rfl, rfl⟩
    · cases hb with
      | number h1 =>
        cases he with
        | number h2 =>
          have hue : ub = ue := by
            cases unit with
            | unit v => exact Eq.trans (Eq.symm h1) h2
            | name s => exact Option.some.inj ((show reg.named s = some ub from h1).symm.trans h2)
          subst hue
          simp only [DurArg.gt, Except.ok.injEq, decide_eq_decide]
          constructor
          · exact fun h => (Rat.mul_lt_mul_right hu).mpr h
          · exact fun h => (Rat.mul_lt_mul_right hu).mp h
    · cases hb; cases he; rfl
  have hnone : (rep.isNone && (some b).isNone && (some e).isNone) = false := by simp
  have hrep : ∃ q, parseAbsoluteUnit reg rep unit = .ok q := by
    cases rep with
    | none => exact ⟨_, rfl⟩
    | some r => obtain ⟨m, u, h⟩ := hr r rfl; exact ⟨_, parse_written h⟩
  obtain ⟨q, hq⟩ := hrep
  unfold newTimeInterval
  rw [hnone, if_neg (by simp)]
  simp only [startLater, hgt, hq, parse_written hb, parse_written he]
  by_cases h : me * ue < mb * ub
  · simp [h]
  · simp [h]

/-- C68: without any of `repeat`, `start` and `end`, `ConditionError` is raised. -/
theorem C68_nothing (unit : UnitArg) :
    newTimeInterval reg none none none unit = .error .conditionError := rfl

/-- C68: one end may be missing. -/
theorem C68_open (b : DurArg) (hb : Written reg b unit m u) :
    (∃ t, newTimeInterval reg none (some b) none unit = .ok t) ∧
    (∃ t, newTimeInterval reg none none (some b) unit = .ok t) := by
  constructor <;>
    simp [newTimeInterval, startLater, parseAbsoluteUnit, getQuantity_written hb]

/-- The hypotheses hold, for an interval that is accepted and one that is not. -/
example : Written siRegistry (.num 9) (.name "ms") 9 (10 ^ 9) ∧
    Written siRegistry (.num 10) (.name "ms") 10 (10 ^ 9) ∧
    newTimeInterval siRegistry none (some (.num 9)) (some (.num 10)) (.name "ms") =
      .ok ⟨none, some ⟨9, 10 ^ 9⟩, some ⟨10, 10 ^ 9⟩⟩ ∧
    newTimeInterval siRegistry none (some (.num 10)) (some (.num 9)) (.name "ms") =
      .error .conditionError :=
  ⟨.number rfl, .number rfl, by decide +kernel, by decide +kernel⟩

/-- The full claim C68 is false for texts, which are compared letter by letter:
`TimeInterval(start="9ms", end="10ms")` is rejected, and
`TimeInterval(start="10ms", end="9ms")` is accepted. -/
theorem C68_texts :
    Written siRegistry (.text "9ms") (.name "ms") 9 (10 ^ 9) ∧
    Written siRegistry (.text "10ms") (.name "ms") 10 (10 ^ 9) ∧
    newTimeInterval siRegistry none (some (.text "9ms")) (some (.text "10ms")) (.name "ms") =
      .error .conditionError ∧
    newTimeInterval siRegistry none (some (.text "10ms")) (some (.text "9ms")) (.name "ms") =
      .ok ⟨none, some ⟨10, 10 ^ 9⟩, some ⟨9, 10 ^ 9⟩⟩ :=
  ⟨.text rfl, .text rfl, by decide +kernel, by decide +kernel⟩

/-! ## C69 -/

theorem qty_of_time {q : TimeQty} (h1 : Whole q.m) (h2 : ∃ e : Nat, q.u = 10 ^ e) :
    ∃ p : Qty, p.toTime = q := by
  obtain ⟨k, hk⟩ := h1
  obtain ⟨e, he⟩ := h2
  cases q with
  | mk m u => cases hk; cases he; exact ⟨⟨k, e⟩, rfl⟩

theorem qtys_of_times : ∀ (qs : List TimeQty),
    (∀ q ∈ qs, Whole q.m ∧ ∃ e : Nat, q.u = 10 ^ e) → ∃ ps : List Qty, ps.map Qty.toTime = qs
  | [], _ => ⟨[], rfl⟩
  | q :: qs, h => by
    obtain ⟨p, hp⟩ := qty_of_time (h q (by simp)).1 (h q (by simp)).2
    obtain ⟨ps, hps⟩ := qtys_of_times qs fun r hr => h r (by simp [hr])
    exact ⟨p :: ps, by rw [List.map_cons, hp, hps]⟩

/-- C69: if every interval is a whole number of a unit, and the units are powers of ten of
one unit, then the common interval that is computed is the greatest common divisor of the
durations, whatever the units. -/
theorem C69_common_partial (qs : List TimeQty)
    (h : ∀ q ∈ qs, Whole q.m ∧ ∃ e : Nat, q.u = 10 ^ e) :
    GreatestCommon (qs.map TimeQty.val) (commonInterval qs) := by
  obtain ⟨ps, rfl⟩ := qtys_of_times qs h
  rw [commonInterval_pow, List.map_map]
  obtain ⟨h1, h2, h3⟩ := gcdIn_isGcd (Sys.minExp ps) ps (minExp_le ps)
  refine ⟨h1, ?_, ?_⟩
  · intro d hd
    obtain ⟨q, hq, rfl⟩ := List.mem_map.mp hd
    show ∃ k : Int, q.toTime.val = k * _
    rw [Qty.toTime_val]; exact h2 q hq
  · intro c hc
    refine h3 c fun q hq => ?_
    have := hc q.toTime.val (List.mem_map.mpr ⟨q, hq, rfl⟩)
    rw [Qty.toTime_val] at this; exact this

/-- C69: the interval between consideration sets in a run, in terms of the durations: the
greatest common divisor of those that matter, divided by the number of consideration sets
in standard mode. -/
theorem C69_unit {α κ W : Type _} [DecidableEq α] [DecidableEq κ] (s : Sys α κ W)
    (cs : List (Cond α κ W)) (u : Rat) (h : s.absoluteUnit cs = .ok u) :
    let ds := cs.flatMap fun c => c.intervals ++ (if s.mode = .exactTime then c.fixedPoints else [])
    (ds = [] → u = s.defaultUnit) ∧
    (ds ≠ [] → u * (match s.mode with | .standard => (s.queue.length : Rat) | .exactTime => 1) =
      commonInterval (ds.map Qty.toTime)) := by
  intro ds
  unfold Sys.absoluteUnit at h
  refine ⟨fun hd => ?_, fun hd => ?_⟩
  · simp only [ds] at hd
    simp only [hd, if_true] at h
    cases h; rfl
  · simp only [ds] at hd
    simp only [hd, if_false] at h
    rw [commonInterval_pow]
    cases hm : s.mode with
    | standard =>
      simp only [hm] at h
      split at h
      · cases h
      · rename_i hz
        cases h
        have hz' : ((s.queue.length : Nat) : Rat) ≠ 0 := fun e => hz (by exact_mod_cast e)
        simp only [ds, hm]
        have := Rat.div_mul_cancel (a := (Sys.gcdIn (Sys.minExp (cs.flatMap fun c => c.intervals ++ [])) (cs.flatMap fun c => c.intervals ++ []) : Rat)) hz'
        grind
    | exactTime =>
      simp only [hm, if_true] at h
      split at h
      · rename_i hz; exact absurd hz (by decide)
      · cases h
        simp only [ds, hm, if_true]
        grind

/-- Half a second (pint has the prefix `semi-`) is a known unit here. -/
def semiRegistry : Registry :=
  { siRegistry with units := [10 ^ 12, 10 ^ 12 / 2, 10 ^ 9, 10 ^ 6, 10 ^ 3, 1] }

/-- The full claim C69 is false if units are known that are not powers of ten of each
other: 1.5 seconds are stored as three half seconds; together with 1000 milliseconds, their
common interval is computed to be 1000 milliseconds, of which 1.5 seconds is no
multiple. -/
theorem C69_half_seconds :
    ∃ q r, parseAbsoluteUnit semiRegistry (some (.num (3 / 2))) (.name "s") = .ok (some q) ∧
      parseAbsoluteUnit semiRegistry (some (.num 1000)) (.name "ms") = .ok (some r) ∧
      q = ⟨3, 10 ^ 12 / 2⟩ ∧ r = ⟨1000, 10 ^ 9⟩ ∧
      commonInterval [q, r] = 1000 * 10 ^ 9 ∧
      ¬ ∃ k : Int, q.val = k * commonInterval [q, r] := by
  refine ⟨⟨3, 10 ^ 12 / 2⟩, ⟨1000, 10 ^ 9⟩, by decide +kernel, by decide +kernel, rfl, rfl,
    by decide +kernel, ?_⟩
  rintro ⟨k, hk⟩
  have e : commonInterval [⟨3, 10 ^ 12 / 2⟩, ⟨1000, 10 ^ 9⟩] = 1000 * 10 ^ 9 := by decide +kernel
  rw [e] at hk
  have : (k : Rat) = 3 / 2 := by
    have e2 : (⟨3, 10 ^ 12 / 2⟩ : TimeQty).val = 3 / 2 * (1000 * 10 ^ 9) := by decide +kernel
    rw [e2] at hk
    grind
  have hd : ((k : Int) : Rat).den = 1 := Rat.den_intCast _
  rw [this] at hd
  exact absurd hd (by decide +kernel)

/-- The hypotheses of `C69_common_partial` hold for 2 seconds and 500 milliseconds, given
in milliseconds. -/
example : (∀ q ∈ [(⟨2, 10 ^ 3⟩ : TimeQty), ⟨500, 1⟩], Whole q.m ∧ ∃ e : Nat, q.u = 10 ^ e) ∧
    commonInterval [⟨2, 10 ^ 3⟩, ⟨500, 1⟩] = 500 := by
  refine ⟨?_, by decide +kernel⟩
  intro q hq
  rcases List.mem_cons.mp hq with rfl | hq
  · exact ⟨⟨2, rfl⟩, 3, rfl⟩
  · rw [List.mem_singleton] at hq; subst hq; exact ⟨⟨500, rfl⟩, 0, by decide +kernel⟩

end GS.Props
