import Verif.ByPass
import Verif.Props.GoesFirst
/-!
# C128: conditions on the numbers of passes and runs select exactly those passes
-/

set_option linter.unusedSectionVars false

namespace GS.Props
open Spec
variable {α κ W : Type _} [DecidableEq α] [DecidableEq κ]
variable {s0 s t : Sys α κ W} {w : List (List α) → World α κ W} {a : RunArgs α κ W}
variable {h : History α κ W} {runs : List (List (List (List α)))} {abs : Bool} {n : α}
variable {c : Cond α κ W}

theorem rule_due (hn : Dict.get? s0.conds n = some c) (hc : PassCond c) (e : Around α κ W) (p : Past α) :
    rule s0 e n p = true ↔ dueIn p.runs.length p.before.length c := by
  have k := holds_due e (some n) p c hc
  unfold rule
  rw [hn]
  cases hc <;> exact k

/-- **C128.** Whenever a pass is over, a node with such a condition was called at most once in each
pass so far, and only in passes that its condition names, whatever ends the run, whatever the other
nodes do and whatever runs were completed before. -/
theorem C128_only (hd : DescribedNodes s0) (hu : Unused s0 a.id) (hr' : CompleteRuns a.id s0 runs s)
    (hE : DescribedEnd a) (hq : s0.queue.flatten.Nodup) (hr : Scripted w a s abs h t .outer)
    (hn : n ∈ s0.queue.flatten) (hc : Dict.get? s0.conds n = some c) (hp : PassCond c) :
    ∀ i P, (passYields h)[i]? = some P →
      P.flatten.count n ≤ 1 ∧ (n ∈ P.flatten → dueIn runs.length i c) := by
  have hl := hr'.like hd
  have htell := C81_tells s w a (fun i j n hi hj => places_of_nodup hq i j n
    (by rw [← hl.queue]; exact hi) (by rw [← hl.queue]; exact hj))
  have key := C81_passes hd hu hr' hE htell hr
  obtain ⟨_, _, _, k⟩ := reference_times (abs := abs) (T := stop a (aroundOf s w a))
    (R := rule s0 (aroundOf s w a)) runs hq (fun B => dueIn runs.length B.length c)
    (fun p e _ _ => by rw [rule_due hc hp, e]) hn (passes h)
  rw [key] at k
  intro i P hP
  obtain ⟨g1, g2, _⟩ := k i P hP
  rw [List.length_take, Nat.min_eq_left (Nat.le_of_lt (List.getElem?_eq_some_iff.1 hP).1)] at g2
  exact ⟨g1, g2⟩

theorem passes_of_returned (hd : DescribedNodes s0) (hu : Unused s0 a.id)
    (hr' : CompleteRuns a.id s0 runs s) {N : Nat} (hE : AfterPasses N a) {e : Around α κ W}
    (htell : Tells s w a e) (hr : Scripted w a s abs h t .returned) :
    (passYields h).length = N ∧
    reference abs (rule s0 e) (stop a e) s0.queue (passes h) ⟨runs, [], [], []⟩ =
      ⟨runs, passYields h, [], []⟩ := by
  obtain ⟨k1, k2⟩ := C81_returned hd hu hr' hE.described htell hr
  have key := k2 _ (Nat.le_refl _)
  rw [hE.stop] at k1
  have hge : N ≤ (passYields h).length := by simpa using k1
  have hle : ∀ M, (reference abs (rule s0 e) (stop a e) s0.queue M
      ⟨runs, [], [], []⟩).before.length ≤ N := by
    intro M
    induction M with
    | zero => simp [reference]
    | succ M ih =>
      rw [reference_succ]
      split
      · exact ih
      · rename_i hs
        rw [hE.stop] at hs
        simp only [decide_eq_true_eq] at hs
        simp only [closePass, List.length_append, List.length_singleton, (passFrom_frame _ _).2.1]
        omega
  have := hle (passes h)
  rw [key] at this
  exact ⟨Nat.le_antisymm this hge, key⟩

/-- **C128.** In a run that ends after `N` passes there are `N` passes, and the node is called exactly
once in each pass its condition names, and in no other. -/
theorem C128_exactly (hd : DescribedNodes s0) (hu : Unused s0 a.id) (hr' : CompleteRuns a.id s0 runs s)
    {N : Nat} (hE : AfterPasses N a) (hq : s0.queue.flatten.Nodup)
    (hr : Scripted w a s abs h t .returned)
    (hn : n ∈ s0.queue.flatten) (hc : Dict.get? s0.conds n = some c) (hp : PassCond c) :
    (passYields h).length = N ∧ ∀ i P, (passYields h)[i]? = some P →
      P.flatten.count n ≤ 1 ∧ (n ∈ P.flatten ↔ dueIn runs.length i c) := by
  have hl := hr'.like hd
  have htell := C81_tells s w a (fun i j n hi hj => places_of_nodup hq i j n
    (by rw [← hl.queue]; exact hi) (by rw [← hl.queue]; exact hj))
  obtain ⟨hlen, key⟩ := passes_of_returned hd hu hr' hE htell hr
  refine ⟨hlen, fun i P hP => ?_⟩
  obtain ⟨_, _, _, k⟩ := reference_times (abs := abs) (T := stop a (aroundOf s w a))
    (R := rule s0 (aroundOf s w a)) runs hq (fun B => dueIn runs.length B.length c)
    (fun p e _ _ => by rw [rule_due hc hp, e]) hn (passes h)
  rw [key] at k
  obtain ⟨g1, g2, g3⟩ := k i P hP
  have hi : i < N := hlen ▸ (List.getElem?_eq_some_iff.1 hP).1
  rw [List.length_take, Nat.min_eq_left (Nat.le_of_lt (List.getElem?_eq_some_iff.1 hP).1)] at g2 g3
  refine ⟨g1, g2, fun hD => ?_⟩
  have := g3 (fun p _ e => by rw [hE.stop, e]; simpa using hi) hD
  exact List.count_pos_iff.1 (by omega)

/-- **C128.** With `NWhen` of such a condition and `m` the node is called in the first `m` of the passes
the condition names, counted over all runs. -/
theorem C128_limited (hd : DescribedNodes s0) (hu : Unused s0 a.id) (hr' : CompleteRuns a.id s0 runs s)
    {N : Nat} (hE : AfterPasses N a) (hq : s0.queue.flatten.Nodup)
    (hr : Scripted w a s abs h t .returned) {o : OId} {m : Int}
    (hn : n ∈ s0.queue.flatten) (hc : Dict.get? s0.conds n = some (.nwhen o c m)) (hp : PassCond c) :
    (passYields h).length = N ∧ ∀ i P, (passYields h)[i]? = some P →
      P.flatten.count n ≤ 1 ∧ (n ∈ P.flatten ↔ dueIn runs.length i c ∧
        ((runs.flatten.flatten.flatten.count n + ((passYields h).take i).flatten.flatten.count n : Nat) :
          Int) < m) := by
  have hl := hr'.like hd
  have htell := C81_tells s w a (fun i j n hi hj => places_of_nodup hq i j n
    (by rw [← hl.queue]; exact hi) (by rw [← hl.queue]; exact hj))
  obtain ⟨hlen, key⟩ := passes_of_returned hd hu hr' hE htell hr
  refine ⟨hlen, fun i P hP => ?_⟩
  obtain ⟨_, _, _, k⟩ := reference_times (abs := abs) (T := stop a (aroundOf s w a))
    (R := rule s0 (aroundOf s w a)) runs hq (fun B => dueIn runs.length B.length c ∧
      ((runs.flatten.flatten.flatten.count n + B.flatten.flatten.count n : Nat) : Int) < m)
    (fun p e h1 h2 => by
      have hk := holds_due (aroundOf s w a) (some n) p c hp
      have hcalls : p.calls .life n = runs.flatten.flatten.flatten.count n + p.before.flatten.flatten.count n := by
        show ((p.runs.flatten.flatten ++ p.inRun).flatten ++ p.next).count n = _
        rw [List.count_append, List.count_eq_zero_of_not_mem h2, List.flatten_append, List.count_append, e,
          Past.inRun, List.flatten_append, List.count_append, List.count_eq_zero_of_not_mem h1]
        rfl
      unfold rule
      rw [hc]
      simp only [Bool.and_eq_true, decide_eq_true_eq, hk, hcalls, e]
      exact And.comm) hn (passes h)
  rw [key] at k
  obtain ⟨g1, g2, g3⟩ := k i P hP
  have hi : i < N := hlen ▸ (List.getElem?_eq_some_iff.1 hP).1
  rw [List.length_take, Nat.min_eq_left (Nat.le_of_lt (List.getElem?_eq_some_iff.1 hP).1)] at g2 g3
  refine ⟨g1, g2, fun hD => ?_⟩
  have := g3 (fun p _ e => by rw [hE.stop, e]; simpa using hi) hD
  exact List.count_pos_iff.1 (by omega)

/-! ## A concrete case -/

/-- Node 0: from the third pass on, but not in the fifth; node 1: every third pass, but not in the
first run; node 2, which receives from both, has no condition. -/
def passSys : Sys Nat Nat Unit :=
  (((Sys.new [(2, [0, 1])] .standard none 0 demoWorld).alloc 7).addBasic 0
    (.all 0 [.leaf 1 (.afterNPasses 2 .environment_state_update),
      .not 2 (.leaf 3 (.atPass 4 .environment_state_update))])).addBasic 1
    (.all 4 [.leaf 5 (.everyNPasses 3 .environment_state_update),
      .leaf 6 (.afterNEnvironmentStateUpdates 1 .environment_sequence)])

def sixPasses : RunArgs Nat Nat Unit :=
  { id := none, esu := .leaf 20 (.afterNPasses 6 .environment_state_update), seq := .leaf 23 .never }

def passFirst := scriptAfter constWorld sixPasses passSys 200
def passSecond := scriptAfter constWorld sixPasses passFirst.2.1 200

theorem passFirst_run : passYields passFirst.1 = [[[]], [[]], [[0]], [[0]], [[]], [[0]]] ∧
    passFirst.2.2 = .returned := by decide +kernel

theorem passSecond_run : passYields passSecond.1 =
    [[[1]], [[]], [[0], [2]], [[0, 1], [2]], [[]], [[0]]] ∧ passSecond.2.2 = .returned := by
  decide +kernel

theorem pass_described : DescribedNodes passSys := by
  intro n hn
  have : n = 0 ∨ n = 1 ∨ n = 2 := by
    have e : passSys.queue.flatten = [0, 1, 2] := by decide +kernel
    rw [e] at hn; simpa using hn
  rcases this with rfl | rfl | rfl
  · refine ⟨by decide +kernel, .inl ⟨_, rfl, .all ?_⟩⟩
    intro c hc
    rcases List.mem_cons.1 hc with rfl | hc
    · exact .leaf (by show 1 < 2; decide) (fun e => e.elim)
    · rw [List.mem_singleton] at hc
      subst hc
      exact .not (.leaf (by show 1 < 2; decide) (fun e => e.elim))
  · refine ⟨by decide +kernel, .inl ⟨_, rfl, .all ?_⟩⟩
    intro c hc
    rcases List.mem_cons.1 hc with rfl | hc
    · exact .leaf (by show 1 < 2; decide) (fun e => e.elim)
    · rw [List.mem_singleton] at hc
      subst hc
      exact .leaf (by show 2 < 3; decide) (fun e => e.elim)
  · exact ⟨by decide +kernel, .inr (.inr ⟨by rfl, [0, 1], by decide +kernel, by decide +kernel⟩)⟩

theorem pass_end : AfterPasses 6 sixPasses := ⟨rfl, rfl⟩

/-- The hypotheses of `C128_exactly` hold for the second run of this scheduler and its node 1. -/
example : DescribedNodes passSys ∧ Unused passSys sixPasses.id ∧
    CompleteRuns sixPasses.id passSys [passYields passFirst.1] passFirst.2.1 ∧
    AfterPasses 6 sixPasses ∧ passSys.queue.flatten.Nodup ∧
    Scripted constWorld sixPasses passFirst.2.1 false passSecond.1 passSecond.2.1 .returned ∧
    1 ∈ passSys.queue.flatten ∧
    ∃ c, Dict.get? passSys.conds 1 = some c ∧ PassCond c ∧ dueIn 1 3 c ∧ ¬ dueIn 1 4 c ∧ ¬ dueIn 0 3 c := by
  have k1 := scriptAfter_scripted (w := constWorld) (a := sixPasses) (s0 := passSys) (abs := false)
    (by decide +kernel) 200
  have k2 := scriptAfter_scripted (w := constWorld) (a := sixPasses) (s0 := passFirst.2.1) (abs := false)
    (by decide +kernel) 200
  have e1 : (scriptAfter constWorld sixPasses passSys 200).2.2 = .returned := passFirst_run.2
  have e2 : (scriptAfter constWorld sixPasses passFirst.2.1 200).2.2 = .returned := passSecond_run.2
  rw [e1] at k1
  rw [e2] at k2
  refine ⟨pass_described, ⟨by rfl, by rfl, .new, noNWhen_sat (by decide +kernel)⟩,
    .run .nil rfl rfl pass_end.described.apart k1, pass_end, by decide +kernel, k2, by decide +kernel,
    _, rfl, .all ?_, ?_, ?_, ?_⟩
  · intro c hc
    rcases List.mem_cons.1 hc with rfl | hc
    · exact .leaf rfl
    · rw [List.mem_singleton] at hc
      subst hc
      exact .leaf rfl
  · exact ⟨⟨1, by decide⟩, (by show (1 : Int) ≤ 1; decide), trivial⟩
  · rintro ⟨⟨k, hk⟩, _⟩
    have hk : (4 : Int) = 3 * k := hk
    omega
  · rintro ⟨_, h, _⟩
    have h : (1 : Int) ≤ 0 := h
    omega

/-- The condition of node 0 in the scheduler of `refLimited`. -/
example : ∃ o c m, Dict.get? refLimited.conds 0 = some (.nwhen o c m) ∧ PassCond c ∧ m = 2 ∧
    0 ∈ refLimited.queue.flatten ∧ refLimited.queue.flatten.Nodup ∧ AfterPasses 6 refLimitedArgs ∧
    DescribedNodes refLimited ∧
    Scripted refUser refLimitedArgs refLimited false refLimitedRun.1 refLimitedRun.2.1 .returned := by
  have k1 := scriptAfter_scripted (w := refUser) (a := refLimitedArgs) (s0 := refLimited)
    (abs := false) (by decide +kernel) 200
  have e1 : (scriptAfter refUser refLimitedArgs refLimited 200).2.2 = .returned := refLimited_run.2
  rw [e1] at k1
  exact ⟨_, _, _, rfl, .leaf rfl, rfl, by decide +kernel, by decide +kernel, ⟨rfl, rfl⟩,
    refLimited_described, k1⟩

end GS.Props
