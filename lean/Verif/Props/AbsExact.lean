import Verif.AbsRepeatRun
import Verif.Props.Absolute
/-!
# C50: exact-time mode reaches every specified time
-/

set_option linter.unusedSectionVars false

namespace GS
open Spec Props
variable {α κ W : Type _} [DecidableEq α] [DecidableEq κ]
variable {a : RunArgs α κ W} {abs : Bool} {s s' s0 s1 : Sys α κ W} {pc pc' : PC α}
  {ev : Option (Event α)} {E : Sys α κ W → Sys α κ W → Prop} {h : History α κ W}

/-- A sequence of equidistant times that starts at a multiple of the distance hits every
multiple of the distance in its range. -/
theorem hits_of_multiple {β : Type _} {ys : List β} {tm : β → Rat} {T u t : Rat} (hu : 0 ≤ u)
    (hk : ∀ (k : Nat) y, ys[k]? = some y → tm y = T + k * u) (hT : Multiple T u) (ht : Multiple t u)
    (h1 : T ≤ t) {y : β} (hy : y ∈ ys) (h2 : t ≤ tm y) : ∃ y' ∈ ys, tm y' = t := by
  obtain ⟨k, hyk⟩ := List.getElem?_of_mem hy
  have hky := hk k y hyk
  obtain ⟨z, hz⟩ := ht.sub hT
  by_cases hu0 : u = 0
  · subst hu0
    refine ⟨y, hy, ?_⟩
    rw [hky]
    rw [hky] at h2
    grind
  · have hpos : 0 < u := by grind
    have hz0 : 0 ≤ z := by
      have h3 : 0 ≤ (z : Rat) * u := by rw [← hz]; grind
      rcases Int.lt_or_le z 0 with hlt | hle
      · have : (z : Rat) ≤ -1 := by
          have := Rat.intCast_le_intCast (a := z) (b := -1) |>.mpr (by omega)
          simpa using this
        have := Rat.mul_le_mul_of_nonneg_right this hu
        grind
      · exact hle
    obtain ⟨m, rfl⟩ : ∃ m : Nat, z = m := ⟨z.toNat, by omega⟩
    have hmk : m ≤ k := by
      rcases Nat.lt_or_ge k m with hlt | hle
      · have h4 : ((k + 1 : Nat) : Rat) ≤ (m : Rat) := Rat.natCast_le_natCast.mpr hlt
        have h5 := Rat.mul_le_mul_of_nonneg_right h4 hu
        have h6 : ((m : Int) : Rat) = (m : Rat) := rfl
        rw [h6] at hz
        rw [Rat.natCast_add] at h5
        have h7 : ((1 : Nat) : Rat) = 1 := rfl
        rw [h7] at h5
        rw [hky] at h2
        grind
      · exact hle
    have hlen : m < ys.length := by
      have := (List.getElem?_eq_some_iff.mp hyk).1
      omega
    refine ⟨ys[m], List.getElem_mem hlen, ?_⟩
    rw [hk m _ (List.getElem?_eq_getElem hlen)]
    have h6 : ((m : Int) : Rat) = (m : Rat) := rfl
    rw [h6] at hz
    grind

/-- Not later than any time mentioned that has not passed. -/
theorem start_before (h : s0.start a = (s, .ok true)) {q : Qty} (hq : TimeUsed s a q)
    (hc : (s0.clock a.id).time.absolute ≤ q.val) : (s.clock a.id).time.absolute ≤ q.val := by
  rcases Sys.start_abs h with ⟨h, _⟩ | ⟨_, _, u, hu, hcl⟩
  · cases h
  · have e : (s.clock a.id).time.absolute =
        Sys.advanceTo (s0.clock a.id).time.absolute (s.absoluteConds a) := by rw [hcl]
    obtain ⟨c, hm, hp⟩ := (timeUsed_iff s a q).mp hq
    have h1 := advanceTo_le (cur := (s0.clock a.id).time.absolute) hm
    have h2 := firstPoint_le hp
    rw [e]
    grind

theorem exactUnit (hs1 : s0.start a = (s1, .ok true)) (hm : s1.mode = .exactTime)
    {q : Qty} (hq : Determines s1 a q) :
    0 ≤ (s1.clock a.id).time.absolute_interval ∧
    IsGcd (Determines s1 a) (s1.clock a.id).time.absolute_interval := by
  rcases start_interval hs1 with ⟨hn, _⟩ | ⟨_, _, hg⟩
  · exact absurd ⟨q, hq⟩ hn
  · have : parts s1 = 1 := by unfold parts; rw [hm]
    rw [this] at hg
    have e : ((1 : Nat) : Rat) * (s1.clock a.id).time.absolute_interval =
        (s1.clock a.id).time.absolute_interval := by
      have : ((1 : Nat) : Rat) = 1 := rfl
      rw [this]; grind
    rw [e] at hg
    exact ⟨hg.1, hg⟩

end GS

namespace GS.Props
open Spec
variable {α κ W : Type _} [DecidableEq α] [DecidableEq κ]
variable {a : RunArgs α κ W} {abs : Bool} {s s' s0 s1 : Sys α κ W} {pc pc' : PC α}
  {ev : Option (Event α)} {E : Sys α κ W → Sys α κ W → Prop} {h : History α κ W}

/-- C50: in exact-time mode, a time `q` that is used inclusively as a start, end or
termination time and has not passed when the run starts is the time of some consideration
set execution, if the run has one at that time or later. -/
theorem C50_times (hr : Reach E a s0 true h s pc) (hE : Keeps E fun s => s.clock a.id)
    (hC : Keeps E fun s => s.conds) (hp : ∀ e, pc ≠ .raised e) (hm : s0.mode = .exactTime)
    (hs : Multiple (s0.clock a.id).time.absolute (s.clock a.id).time.absolute_interval)
    {q : Qty} (hq : TimeUsed s a q) (h0 : (s0.clock a.id).time.absolute ≤ q.val)
    {y : Nat × List α × Rat} (hy : y ∈ timedSets a.id h) (hl : q.val ≤ y.2.2) :
    ∃ y' ∈ timedSets a.id h, y'.2.2 = q.val := by
  obtain ⟨s1, hs1⟩ := hr.started
  obtain ⟨hk, _, hat⟩ := hr.absTimes hE hs1
  rw [(hat hp).interval] at hs
  have hm1 : s1.mode = .exactTime := by rw [(Sys.start_ok hs1).mode, hm]
  rw [timeUsed_congr (hr.keepConds hC hs1)] at hq
  have hd : ∀ {q}, TimeUsed s1 a q → Determines s1 a q := fun h => .inr ⟨hm1, h⟩
  obtain ⟨hu, hg⟩ := exactUnit hs1 hm1 (hd hq)
  have hT : Multiple (s1.clock a.id).time.absolute (s1.clock a.id).time.absolute_interval := by
    rcases (start_time hs1).2 with e | e | ⟨q', hq', e⟩
    · rw [e]; exact hs
    · rw [e]; exact .zero _
    · rw [e]; exact hg.2.1 _ (hd hq')
  exact hits_of_multiple hu hk hT (hg.2.1 _ (hd hq)) (start_before hs1 hq h0) hy hl

/-- C50: in exact-time mode, every multiple of a repeat interval used in the run, from the
first consideration set execution to the last one, is the time of some consideration set
execution. -/
theorem C50_multiples (hr : Reach E a s0 true h s pc) (hE : Keeps E fun s => s.clock a.id)
    (hC : Keeps E fun s => s.conds) (hp : ∀ e, pc ≠ .raised e) (hm : s0.mode = .exactTime)
    (hs : Multiple (s0.clock a.id).time.absolute (s.clock a.id).time.absolute_interval)
    {q : Qty} (hq : RepeatUsed s a q) {t : Rat} (ht : Multiple t q.val)
    {y0 y : Nat × List α × Rat} (hy0 : (timedSets a.id h)[0]? = some y0) (h0 : y0.2.2 ≤ t)
    (hy : y ∈ timedSets a.id h) (hl : t ≤ y.2.2) :
    ∃ y' ∈ timedSets a.id h, y'.2.2 = t := by
  obtain ⟨s1, hs1⟩ := hr.started
  obtain ⟨hk, _, hat⟩ := hr.absTimes hE hs1
  rw [(hat hp).interval] at hs
  have hm1 : s1.mode = .exactTime := by rw [(Sys.start_ok hs1).mode, hm]
  rw [repeatUsed_congr (hr.keepConds hC hs1)] at hq
  obtain ⟨hu, hg⟩ := exactUnit hs1 hm1 (.inl hq)
  have hT : Multiple (s1.clock a.id).time.absolute (s1.clock a.id).time.absolute_interval := by
    rcases (start_time hs1).2 with e | e | ⟨q', hq', e⟩
    · rw [e]; exact hs
    · rw [e]; exact .zero _
    · rw [e]; exact hg.2.1 _ (.inr ⟨hm1, hq'⟩)
  have e0 := hk 0 y0 hy0
  have : (s1.clock a.id).time.absolute ≤ t := by
    have h0' : ((0 : Nat) : Rat) = 0 := rfl
    rw [h0'] at e0
    grind
  exact hits_of_multiple hu hk hT (ht.trans (hg.2.1 _ (.inl hq))) this hy hl

/-- A scheduler in exact-time mode with the graph `0 -> 1`: node 0 has the condition
`TimeInterval(repeat=4)`, node 1 `TimeInterval(start=6)`. -/
def exact : Sys Nat Nat Unit :=
  (((Sys.new [(1, [0])] .exactTime none 1 demoWorld).alloc 2).addBasic 0
    (.leaf 0 (.timeInterval (some ⟨4, 0⟩) none none true true))).addBasic 1
    (.leaf 1 (.timeInterval none (some ⟨6, 0⟩) none true true))

example : timedSets none (runAfter exact untilTwelve 60).1 =
    [(0, [0], 0), (0, [], 2), (0, [0], 4), (0, [1], 6), (0, [0, 1], 8), (0, [1], 10)] := by
  decide +kernel

/-- The hypotheses hold in the example. -/
example : Reach (fun s s' => s' = s) untilTwelve exact true (runAfter exact untilTwelve 60).1
      (runAfter exact untilTwelve 60).2.1 (runAfter exact untilTwelve 60).2.2 ∧
    exact.mode = .exactTime ∧ (exact.clock none).time.absolute = 0 ∧
    TimeUsed exact untilTwelve ⟨6, 0⟩ ∧ RepeatUsed exact untilTwelve ⟨4, 0⟩ :=
  ⟨run_reach (by decide +kernel) _ _, rfl, by decide +kernel,
    ⟨_, .inl ⟨1, by exact List.mem_cons_of_mem _ List.mem_cons_self⟩, .start⟩,
    ⟨_, .inl ⟨0, List.mem_cons_self⟩, .leaf⟩⟩

/-- The same scheduler, but node 1 has `TimeInterval(repeat=4, start=6, start_inclusive=False)`. -/
def exclusive : Sys Nat Nat Unit :=
  (((Sys.new [(1, [0])] .exactTime none 1 demoWorld).alloc 2).addBasic 0
    (.leaf 0 (.timeInterval (some ⟨4, 0⟩) none none true true))).addBasic 1
    (.leaf 1 (.timeInterval (some ⟨4, 0⟩) (some ⟨6, 0⟩) none false true))

/-- C50 does not extend to exclusive start times: no consideration set execution is at
time 6 or at a distance from it that is a multiple of the repeat interval, and the node
never executes.  (Proved for the run up to time 12, in which the node was due at 10.) -/
theorem C50_exclusive : Reach (fun s s' => s' = s) untilTwelve exclusive true
      (runAfter exclusive untilTwelve 60).1 (runAfter exclusive untilTwelve 60).2.1
      (runAfter exclusive untilTwelve 60).2.2 ∧
    timedSets none (runAfter exclusive untilTwelve 60).1 = [(0, [0], 0), (0, [0], 4), (0, [0], 8)] := by
  exact ⟨run_reach (by decide +kernel) _ _, by decide +kernel⟩

end GS.Props
