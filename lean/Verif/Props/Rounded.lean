import Verif.Rounded
import Verif.UnitsLemmas
import Verif.ReferenceRun
import Verif.Props.SameTime
/-!
# C117: the rounding of absolute times
-/

set_option linter.unusedSectionVars false

namespace GS
open Spec Props
variable {α κ W : Type _} [DecidableEq α] [DecidableEq κ]
variable {a : RunArgs α κ W} {abs : Bool} {s s' s0 s1 : Sys α κ W} {pc pc' : PC α}
  {E : Sys α κ W → Sys α κ W → Prop} {h : History α κ W}

theorem decidesPace_congr (hc : s'.conds = s.conds) (hm : s'.mode = s.mode) (q : Qty) :
    DecidesPace s' a q ↔ DecidesPace s a q := by
  unfold DecidesPace; rw [repeatUsed_congr hc, timeUsed_congr hc, hm]

/-- A number with a denominator below 2 * 10 ^ 8 is not rounded to 0. -/
theorem round8_fraction {y : Rat} {L : Nat} {z : Int} (hL : 0 < L) (hL' : L < 2 * 10 ^ 8)
    (hz : (L : Rat) * y = z) : round8 y = 0 ↔ y = 0 := by
  constructor
  · intro h
    have he := round8_err y
    rw [h] at he
    have hp : (0 : Rat) < L := Rat.natCast_pos.mpr hL
    have hl : (L : Rat) < 2 * 10 ^ 8 := by
      have := Rat.natCast_lt_natCast.mpr hL'
      have e : ((2 * 10 ^ 8 : Nat) : Rat) = 2 * 10 ^ 8 := by decide +kernel
      rw [e] at this; exact this
    have h0 : z = 0 := by
      rcases Int.lt_trichotomy z 0 with hz' | hz' | hz'
      · have h1 : (z : Rat) ≤ ((-1 : Int) : Rat) := Rat.intCast_le_intCast.mpr (by omega)
        rw [← hz] at h1
        have h2 : y ≥ -(1 / (2 * 10 ^ 8)) := by grind
        have h3 := Rat.mul_le_mul_of_nonneg_left h2 (Rat.le_of_lt hp)
        have h4 : ((-1 : Int) : Rat) = -1 := rfl
        rw [h4] at h1
        exfalso; grind
      · exact hz'
      · have h1 : ((1 : Int) : Rat) ≤ (z : Rat) := Rat.intCast_le_intCast.mpr (by omega)
        rw [← hz] at h1
        have h2 : y ≤ 1 / (2 * 10 ^ 8) := by grind
        have h3 := Rat.mul_le_mul_of_nonneg_left h2 (Rat.le_of_lt hp)
        have h4 : ((1 : Int) : Rat) = 1 := rfl
        rw [h4] at h1
        exfalso; grind
    rw [h0] at hz
    rcases Rat.mul_eq_zero.mp hz with h | h
    · rw [h] at hp; exact absurd hp (by decide)
    · exact h
  · rintro rfl; decide +kernel

theorem ratMod_unit {x r u : Rat} (hu : u ≠ 0) : ratMod (x / u) (r / u) = ratMod x r / u := by
  unfold ratMod
  by_cases hr : r = 0
  · subst hr; simp [Rat.div_def]; grind
  · have : x / u / (r / u) = x / r := by
      have hru : r / u ≠ 0 := by
        intro e
        apply hr
        have := Rat.div_mul_cancel (a := r) hu
        rw [e] at this; grind
      grind
    rw [this]; grind

/-- The rounding of the remainder. -/
theorem round_remainder {x r u : Rat} {L : Nat} {z : Int} (hu : 0 < u) (hL : 0 < L)
    (hL' : L < 2 * 10 ^ 8) (hx : (L : Rat) * x = z * u) (hr : Multiple r u) :
    round8 (ratMod (x / u) (r / u)) = 0 ↔ ratMod x r = 0 := by
  have hu0 : u ≠ 0 := by grind
  obtain ⟨k, rfl⟩ := hr
  have e : (L : Rat) * ratMod (x / u) (k * u / u) =
      ((z - (L : Int) * (k * (x / u / (k * u / u)).floor) : Int) : Rat) := by
    have e1 : (k : Rat) * u / u = k := Rat.mul_div_cancel hu0
    rw [e1]
    unfold ratMod
    rw [Rat.intCast_sub, Rat.intCast_mul, Rat.intCast_mul]
    have e2 : ((L : Int) : Rat) = (L : Rat) := rfl
    have e3 : (L : Rat) * (x / u) = z := by
      have : (L : Rat) * (x / u) = (L : Rat) * x / u := by grind
      rw [this, hx]; exact Rat.mul_div_cancel hu0
    rw [e2, ← e3]; grind
  rw [round8_fraction hL hL' e, ratMod_unit hu0]
  constructor
  · intro h
    have := Rat.div_mul_cancel (a := ratMod x (k * u)) hu0
    rw [h] at this; grind
  · intro h; rw [h]; simp [Rat.div_def]

theorem layerOffset_form (owner : Option α) (u : Rat) (q : List (List α)) (off : Rat)
    (h : layerOffset owner u q = some off) : ∃ i : Nat, off = i * u := by
  unfold layerOffset at h
  have gen : ∀ (l : List (List α × Nat)) (o : Option Rat), (∀ x, o = some x → ∃ i : Nat, x = i * u) →
      ∀ x, l.foldl (fun off p => match owner with
        | some o => if o ∈ p.1 then some ((p.2 : Rat) * u) else off
        | none => off) o = some x → ∃ i : Nat, x = i * u := by
    intro l
    induction l with
    | nil => intro o ho x hx; exact ho x hx
    | cons p l ih =>
      intro o ho x hx
      refine ih _ ?_ x hx
      intro y hy
      cases owner with
      | none => exact ho y hy
      | some n =>
        simp only at hy
        split at hy
        · cases hy; exact ⟨_, rfl⟩
        · exact ho y hy
  exact gen _ none (by simp) off h

end GS

namespace GS.Props
open Spec
variable {α κ W : Type _} [DecidableEq α] [DecidableEq κ]
variable {a : RunArgs α κ W} {abs : Bool} {s s' s0 s1 : Sys α κ W} {pc pc' : PC α}
  {E : Sys α κ W → Sys α κ W → Prop} {h : History α κ W}

/-- C117: all times that decide the pace of a run are whole numbers of its unit. -/
theorem C117_unit (s : Sys α κ W) (a : RunArgs α κ W) (hd : 0 < s.defaultUnit) :
    0 < s.clockUnit (s.absoluteConds a) ∧
    ∀ q, DecidesPace s a q → Multiple q.val (s.clockUnit (s.absoluteConds a)) := by
  have hmem : ∀ q, DecidesPace s a q → q ∈ (s.absoluteConds a).flatMap (fun c =>
      c.intervals ++ (if s.mode = Mode.exactTime then c.fixedPoints else [])) := by
    rintro q (hq | ⟨hm, hq⟩)
    · obtain ⟨c, hc, hi⟩ := (repeatUsed_iff s a q).mp hq
      exact List.mem_flatMap.mpr ⟨c, hc, List.mem_append_left _ hi⟩
    · obtain ⟨c, hc, hi⟩ := (timeUsed_iff s a q).mp hq
      exact List.mem_flatMap.mpr ⟨c, hc, List.mem_append_right _ (by rw [if_pos hm]; exact hi)⟩
  unfold Sys.clockUnit
  simp only []
  generalize (s.absoluteConds a).flatMap (fun c =>
      c.intervals ++ (if s.mode = Mode.exactTime then c.fixedPoints else [])) = qs at hmem ⊢
  split
  · rename_i e
    exact ⟨hd, fun q hq => by have := hmem q hq; rw [e] at this; cases this⟩
  · exact ⟨Rat.pow_pos (by decide), fun q hq => ⟨_, qty_split q (minExp_le _ q (hmem q hq))⟩⟩

/-- C117: in exact-time mode a run whose clock shows a whole number of the unit, as it does
when there was no run before, starts at a whole number of it. -/
theorem C117_exact_mode (hs1 : s0.start a = (s1, .ok true)) (hm : s0.mode = .exactTime) {u : Rat}
    (hall : ∀ q, DecidesPace s1 a q → Multiple q.val u)
    (h0 : Multiple (s0.clock a.id).time.absolute u) :
    Multiple (s1.clock a.id).time.absolute u := by
  rcases (start_time hs1).2 with h | h | ⟨q, hq, h⟩
  · rw [h]; exact h0
  · rw [h]; exact ⟨0, by simp⟩
  · rw [h]; exact hall q (.inr ⟨by rw [(Sys.start_ok hs1).mode]; exact hm, hq⟩)

/-- C117: if the time at which a run starts is a whole number of its unit, it is not
rounded. -/
theorem C117_start_partial {t u : Rat} (hu : 0 < u) (ht : Multiple t u) : startRounded t u = t := by
  have hu0 : u ≠ 0 := by grind
  obtain ⟨k, rfl⟩ := ht
  have e : (⟨(k : Rat) * u, 1⟩ : TimeQty).to u = ⟨k, u⟩ := by
    unfold TimeQty.to TimeQty.val
    simp only [Rat.mul_one]
    rw [Rat.mul_div_cancel hu0]
  have e8 : round8 (k : Rat) = k := round8_exact ⟨k * 10 ^ 8, by
    rw [Rat.intCast_mul]; rfl⟩
  unfold startRounded quantityAsInteger
  rw [e]
  simp only [e8, Rat.den_intCast, Rat.num_intCast, if_true]
  rfl

/-- C117: a time that is rounded changes by at most a 200-millionth of the unit. -/
theorem C117_start_error (t : Rat) {u : Rat} (hu : 0 < u) :
    t - u / (2 * 10 ^ 8) ≤ startRounded t u ∧ startRounded t u ≤ t + u / (2 * 10 ^ 8) := by
  have hu0 : u ≠ 0 := by grind
  unfold startRounded
  cases hq : quantityAsInteger ((⟨t, 1⟩ : TimeQty).to u) with
  | none => constructor <;> grind
  | some q =>
    obtain ⟨h1, h2, _⟩ := quantityAsInteger_some hq
    have e1 : ((⟨t, 1⟩ : TimeQty).to u).m = t / u := by unfold TimeQty.to TimeQty.val; simp
    have e2 : ((⟨t, 1⟩ : TimeQty).to u).u = u := rfl
    rw [e1] at h2
    rw [e2] at h1
    show t - u / (2 * 10 ^ 8) ≤ q.m * q.u ∧ q.m * q.u ≤ t + u / (2 * 10 ^ 8)
    rw [h1, h2]
    have he := round8_err (t / u)
    have e3 : t / u * u = t := Rat.div_mul_cancel hu0
    have l1 := Rat.mul_le_mul_of_nonneg_right he.1 (Rat.le_of_lt hu)
    have l2 := Rat.mul_le_mul_of_nonneg_right he.2 (Rat.le_of_lt hu)
    constructor <;> grind

/-- C117: in a run that starts at a whole number of the unit `u`, of which all times that
decide the pace are multiples, in a scheduler with fewer than 200 million consideration
sets: wherever a `TimeInterval(repeat=r)` is evaluated, with whatever start and end, the
rounding to eight places makes no difference.  Missing for the full property: runs that start
at other times (`C117_lost` shows that rounding matters then), and floats. -/
theorem C117_repeat_partial (hr : Reach E a s0 true h s pc) (hE : Keeps E fun s => s.clock a.id)
    (hC : Keeps E fun s => s.conds) (hM : Keeps E fun s => s.mode)
    (hp : ∀ e, pc ≠ .raised e) (hs : pc.suspended = false) (hs1 : s0.start a = (s1, .ok true))
    {u : Rat} (hu : 0 < u) (hall : ∀ q, DecidesPace s a q → Multiple q.val u)
    (hT : Multiple (s1.clock a.id).time.absolute u)
    (hL : s0.mode = .standard → s0.queue.length < 2 * 10 ^ 8)
    {r : Qty} (hrep : RepeatUsed s a r) (owner : Option α) (st fi : Option Qty) (si ei : Bool)
    (hst : s.toView.inExactTimeMode = true → ∀ b, st = some b → Multiple b.val u) :
    timeIntervalRounded u s.toView a.id owner (some r) st fi si ei =
      timeIntervalFunc s.toView a.id owner (some r) st fi si ei := by
  obtain ⟨t1, t2⟩ := hr.timeAt hE hs1 hp hs
  rw [if_pos rfl] at t2
  have hm1 : s.mode = s1.mode := by
    rw [(Sys.start_ok hs1).mode]
    exact hr.keep (fun s => s.mode) hM (fun s s' f => f.mode) (fun s h => h.mode)
  have hc1 := hr.keepConds hC hs1
  have hall1 : ∀ q, DecidesPace s1 a q → Multiple q.val u :=
    fun q hq => hall q ((decidesPace_congr hc1 hm1 q).mpr hq)
  rcases start_interval hs1 with ⟨hn, _⟩ | ⟨_, hparts, hg⟩
  · exact absurd ⟨r, (decidesPace_congr hc1 hm1 r).mp (.inl hrep)⟩ hn
  have hpl : parts s1 < 2 * 10 ^ 8 := by
    unfold parts
    cases hm : s1.mode with
    | exactTime => show 1 < _; decide
    | standard =>
      show s1.queue.length < _
      rw [(Sys.start_ok hs1).queue]
      exact hL (by rw [← (Sys.start_ok hs1).mode]; exact hm)
  have hp0 : 0 < parts s1 := Nat.pos_of_ne_zero hparts
  obtain ⟨g, hG⟩ := hg.2.2 u hall1
  obtain ⟨k, hk⟩ := hT
  have key : ∀ off : Rat, (∃ z : Int, (parts s1 : Rat) * off = z * u) →
      ∃ z : Int, (parts s1 : Rat) * ((s.clock a.id).time.absolute - off) = z * u := by
    rintro off ⟨z, hz⟩
    refine ⟨(parts s1 : Int) * k + ((yields h).length : Int) * g - z, ?_⟩
    rw [Rat.intCast_sub, Rat.intCast_add, Rat.intCast_mul, Rat.intCast_mul, t2, hk]
    have e1 : (((parts s1 : Nat) : Int) : Rat) = ((parts s1 : Nat) : Rat) := rfl
    have e2 : (((yields h).length : Int) : Rat) = ((yields h).length : Rat) := rfl
    rw [e1, e2]
    grind
  have hrep1 : ∀ off : Rat, (∃ z : Int, (parts s1 : Rat) * off = z * u) →
      repeatRounded u (s.clock a.id).time.absolute (some off) (some r) =
        repeatOk (s.clock a.id).time.absolute (some off) (some r) := by
    intro off ho
    obtain ⟨z, hz⟩ := key off ho
    unfold repeatRounded repeatOk
    simp only
    split
    · rfl
    · congr 1
      rw [decide_eq_decide]
      exact round_remainder hu hp0 hpl hz (hall r (.inl hrep))
  have hlay : ∀ off, layerOffset owner (s.clock a.id).time.absolute_interval s.queue = some off →
      ∃ z : Int, (parts s1 : Rat) * off = z * u := by
    intro off ho
    obtain ⟨i, rfl⟩ := layerOffset_form _ _ _ _ ho
    refine ⟨(i : Int) * g, ?_⟩
    rw [Rat.intCast_mul, t1]
    have e1 : ((i : Int) : Rat) = (i : Rat) := rfl
    rw [e1]
    grind
  have hoff : ∀ o : Option Rat, (∀ off, o = some off → ∃ z : Int, (parts s1 : Rat) * off = z * u) →
      repeatRounded u (s.clock a.id).time.absolute o (some r) =
        repeatOk (s.clock a.id).time.absolute o (some r) := by
    intro o ho
    cases o with
    | none => rfl
    | some off => exact hrep1 off (ho off rfl)
  unfold timeIntervalRounded timeIntervalFunc
  cases st with
  | none =>
    simp only
    rw [hoff _ hlay]
    cases repeatOk (s.clock a.id).time.absolute
      (layerOffset owner (s.clock a.id).time.absolute_interval s.queue) (some r) <;> rfl
  | some b =>
    have hb : ∀ off, (if s.toView.inExactTimeMode = true then some b.val
        else layerOffset owner (s.clock a.id).time.absolute_interval s.queue) = some off →
        ∃ z : Int, (parts s1 : Rat) * off = z * u := by
      intro off ho
      split at ho
      · rename_i hex
        cases ho
        obtain ⟨j, hj⟩ := hst hex b rfl
        refine ⟨(parts s1 : Int) * j, ?_⟩
        rw [hj, Rat.intCast_mul]
        have e1 : (((parts s1 : Nat) : Int) : Rat) = ((parts s1 : Nat) : Rat) := rfl
        rw [e1]; grind
      · exact hlay off ho
    simp only
    rw [hoff _ hb]
    cases repeatOk (s.clock a.id).time.absolute (if s.toView.inExactTimeMode = true then some b.val
      else layerOffset owner (s.clock a.id).time.absolute_interval s.queue) (some r) <;> rfl

/-! ## An example -/

/-- `0 -> 1 -> 2`, all with `TimeInterval(repeat='1 ms', start='0 ms')`: the interval between
consideration sets is a third of a millisecond. -/
def everyMs : Sys Nat Nat Unit :=
  ((((Sys.new [(1, [0]), (2, [1])] .standard none (10 ^ 9) demoWorld).alloc 3).addBasic 0
    (.leaf 0 (.timeInterval (some ⟨1, 9⟩) (some ⟨0, 9⟩) none true true))).addBasic 1
    (.leaf 1 (.timeInterval (some ⟨1, 9⟩) (some ⟨0, 9⟩) none true true))).addBasic 2
    (.leaf 2 (.timeInterval (some ⟨1, 9⟩) (some ⟨0, 9⟩) none true true))

/-- Until `TimeTermination('3 ms')`. -/
def untilThreeMs : RunArgs Nat Nat Unit :=
  { id := none, esu := .leaf 10 (.timeTermination ⟨3, 9⟩ true), seq := .leaf 11 .never }

theorem everyMs_starts : (everyMs.start untilThreeMs).2 = .ok true := by decide +kernel

theorem everyMs_conds (k : Nat) :
    (runAfter everyMs untilThreeMs k).2.1.conds =
      [(0, .leaf 0 (.timeInterval (some ⟨1, 9⟩) (some ⟨0, 9⟩) none true true)),
       (1, .leaf 1 (.timeInterval (some ⟨1, 9⟩) (some ⟨0, 9⟩) none true true)),
       (2, .leaf 2 (.timeInterval (some ⟨1, 9⟩) (some ⟨0, 9⟩) none true true))] := by
  obtain ⟨s1, hs1⟩ := (run_reach everyMs_starts NoStep k).started
  rw [(run_reach everyMs_starts NoStep k).keepConds (noStep_keeps _) hs1]
  have : s1 = (everyMs.start untilThreeMs).1 := by rw [hs1]
  rw [this]; rfl

theorem everyMs_mode (k : Nat) : (runAfter everyMs untilThreeMs k).2.1.mode = .standard :=
  (run_reach everyMs_starts NoStep k).keep (fun s => s.mode) (noStep_keeps _)
    (fun s s' f => f.mode) (fun s h => h.mode)

theorem everyMs_pace (k : Nat) (q : Qty)
    (hq : DecidesPace (runAfter everyMs untilThreeMs k).2.1 untilThreeMs q) : q = ⟨1, 9⟩ := by
  rcases hq with ⟨c, hc, hq⟩ | ⟨hm, _⟩
  · unfold InForce at hc
    rw [everyMs_conds] at hc
    rcases hc with ⟨n, hn⟩ | rfl | rfl | hc
    · simp only [List.mem_cons, List.not_mem_nil, or_false, Prod.mk.injEq] at hn
      rcases hn with ⟨_, rfl⟩ | ⟨_, rfl⟩ | ⟨_, rfl⟩ <;> cases hq <;> rfl
    · cases hq
    · cases hq
    · cases hc
  · rw [everyMs_mode] at hm; cases hm

/-- At every point of the run between two calls, the condition of every node has the same
value with the rounding as without. -/
example (k n : Nat) (hp : ∀ e, (runAfter everyMs untilThreeMs k).2.2 ≠ .raised e)
    (hs : (runAfter everyMs untilThreeMs k).2.2.suspended = false) :
    timeIntervalRounded (10 ^ 9) (runAfter everyMs untilThreeMs k).2.1.toView none (some n)
      (some ⟨1, 9⟩) (some ⟨0, 9⟩) none true true =
    timeIntervalFunc (runAfter everyMs untilThreeMs k).2.1.toView none (some n)
      (some ⟨1, 9⟩) (some ⟨0, 9⟩) none true true :=
  C117_repeat_partial (run_reach everyMs_starts NoStep k) (noStep_keeps _) (noStep_keeps _)
    (noStep_keeps _) hp hs (s1 := (everyMs.start untilThreeMs).1)
    (by rw [← everyMs_starts]) (by decide +kernel)
    (fun q hq => ⟨1, by rw [everyMs_pace k q hq]; decide +kernel⟩)
    ⟨0, by decide +kernel⟩ (fun _ => by decide +kernel)
    ⟨.leaf 0 (.timeInterval (some ⟨1, 9⟩) (some ⟨0, 9⟩) none true true),
      .inl ⟨0, by rw [everyMs_conds]; simp⟩, by constructor⟩
    _ _ _ _ _ (fun _ b hb => by cases hb; exact ⟨0, by decide +kernel⟩)

/-- In this run the nodes execute every millisecond, each a third of a millisecond after the
one before it. -/
example : (timedSets none (runAfter everyMs untilThreeMs 200).1).take 6 =
    [(0, [0], 0), (1, [1], 1000000000 / 3), (2, [2], 2000000000 / 3), (0, [0], 1000000000),
     (1, [1], 4000000000 / 3), (2, [2], 5000000000 / 3)] := by
  decide +kernel

/-! ## The bounds are sharp -/

/-- A difference of a 200-millionth of the unit is rounded away. -/
example : round8 (1 / (2 * 10 ^ 8)) = 0 := by decide +kernel

/-- One node, with `TimeInterval(repeat='1 ms', start='1 ps')`. -/
def lateByAPicosecond : Sys Nat Nat Unit :=
  ((Sys.new [(0, [])] .standard none (10 ^ 9) demoWorld).alloc 1).addBasic 0
    (.leaf 0 (.timeInterval (some ⟨1, 9⟩) (some ⟨1, 0⟩) none true true))

theorem lateByAPicosecond_starts : (lateByAPicosecond.start untilThreeMs).2 = .ok true := by
  decide +kernel

/-- C117 is false of the code without the hypothesis on the start: by exact times the run of
`TimeInterval(repeat='1 ms', start='1 ps')` starts at 1 ps and the node executes every
millisecond.  The code rounds the start to 0 ms, and at no whole number of milliseconds is the
condition satisfied: the node never executes. -/
theorem C117_lost :
    timedSets none (runAfter lateByAPicosecond untilThreeMs 100).1 =
      [(0, [0], 1), (0, [0], 1000000001), (0, [0], 2000000001)] ∧
    (lateByAPicosecond.start untilThreeMs).1.clockUnit
      ((lateByAPicosecond.start untilThreeMs).1.absoluteConds untilThreeMs) = 10 ^ 9 ∧
    ((lateByAPicosecond.start untilThreeMs).1.clock none).time.absolute = 1 ∧
    startRounded 1 (10 ^ 9) = 0 ∧
    ∀ (v : View Nat Nat Unit) (k : Nat), v.queue = [[0]] →
      (v.clock none).time.absolute = startRounded 1 (10 ^ 9) + k * 10 ^ 9 →
      timeIntervalRounded (10 ^ 9) v none (some 0) (some ⟨1, 9⟩) (some ⟨1, 0⟩) none true true =
        .ok false := by
  have hst : startRounded 1 (10 ^ 9) = 0 := by decide +kernel
  refine ⟨by decide +kernel, by decide +kernel, by decide +kernel, hst, ?_⟩
  intro v k hq ht
  have hx : v.inExactTimeMode = true := by
    unfold View.inExactTimeMode; rw [hq]; simp
  have e1 : (⟨1, 9⟩ : Qty).val = 10 ^ 9 := by decide +kernel
  have e0 : (⟨1, 0⟩ : Qty).val = 1 := by decide +kernel
  have hmod : ratMod (((k : Rat) * 10 ^ 9 - 1) / 10 ^ 9) (10 ^ 9 / 10 ^ 9) = 1 - 1 / 10 ^ 9 := by
    have e2 : ((10 : Rat) ^ 9 / 10 ^ 9) = 1 := by decide +kernel
    have e3 : ((k : Rat) * 10 ^ 9 - 1) / 10 ^ 9 = ((k - 1 : Int) : Rat) + (1 - 1 / 10 ^ 9) := by
      rw [Rat.intCast_sub]
      have : ((k : Int) : Rat) = (k : Rat) := rfl
      rw [this]
      have : ((1 : Int) : Rat) = 1 := rfl
      rw [this]; grind
    have e4 : (((k : Rat) * 10 ^ 9 - 1) / 10 ^ 9).floor = (k - 1 : Int) := by
      rw [e3]
      apply Int.le_antisymm
      · have : (((k - 1 : Int) : Rat) + (1 - 1 / 10 ^ 9)).floor < (k - 1 : Int) + 1 := by
          rw [Rat.floor_lt_iff, Rat.intCast_add]
          have : ((1 : Int) : Rat) = 1 := rfl
          rw [this]; grind
        omega
      · rw [Rat.le_floor_iff]; grind
    unfold ratMod
    have e5 : ∀ x : Rat, x / 1 = x := by intro x; grind
    rw [e2, e5, e4, e3]; grind
  rw [hst, Rat.zero_add] at ht
  have hr : repeatRounded (10 ^ 9) (v.clock none).time.absolute (some 1) (some ⟨1, 9⟩) = .ok false := by
    unfold repeatRounded
    simp only
    rw [ht, e1, if_neg (by decide +kernel), hmod]
    have : decide (round8 (1 - 1 / 10 ^ 9) = 0) = false := by decide +kernel
    rw [this]
  unfold timeIntervalRounded
  simp only [hx, if_true, e0, hr]
  rfl

end GS.Props
