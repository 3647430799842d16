import Verif.AllAlike
import Verif.Props.RateChain
/-!
# C134: passes that are all alike
-/

set_option linter.unusedSectionVars false

namespace GS.Props
open Spec
variable {α κ W : Type _} [DecidableEq α] [DecidableEq κ]
variable {s0 s s' t t' : Sys α κ W} {w w' : List (List α) → World α κ W}
variable {a a' : RunArgs α κ W} {h h' : History α κ W}
variable {runs runs' : List (List (List (List α)))} {abs : Bool}

/-- **C134.** If the conditions of the nodes look at the current pass only, all passes are alike: any
passes of any two runs, whatever ran before them, yield the same sets. -/
theorem C134_all_alike (hd : DescribedNodes s0) (hl : PassOnlyNodes s0) (hq : s0.queue.flatten.Nodup)
    (hu : Unused s0 a.id) (hu' : Unused s0 a'.id) {N M : Nat} (hE : AfterPasses N a)
    (hE' : AfterPasses M a') (hc : CompleteRuns a.id s0 runs s) (hr : Scripted w a s abs h t .returned)
    (hc' : CompleteRuns a'.id s0 runs' s') (hr' : Scripted w' a' s' abs h' t' .returned) :
    ∀ P ∈ passYields h, ∀ P' ∈ passYields h', P = P' := by
  let e : Around α κ W := ⟨s0.nodes, fun _ => 0, false, fun _ _ => false, fun _ _ _ _ _ => 0,
    fun _ _ => false, fun _ => 0, 0⟩
  have one : ∀ {s t : Sys α κ W} {w : List (List α) → World α κ W} {a : RunArgs α κ W}
      {h : History α κ W} {runs : List (List (List (List α)))} {N : Nat}, Unused s0 a.id →
      AfterPasses N a → CompleteRuns a.id s0 runs s → Scripted w a s abs h t .returned →
      ∀ P ∈ passYields h, (closePass abs (passFrom abs (rule s0 e) (fun _ => false) s0.queue
        ⟨[], [], [], []⟩)).before = [P] := by
    intro s t w a h runs N hu hE hc hr
    have tells : Tells s w a (aroundOf s w a) := C81_tells _ w a (fun i j n hi hj =>
      places_of_nodup hq i j n (by rw [← (hc.like hd).queue]; exact hi)
        (by rw [← (hc.like hd).queue]; exact hj))
    obtain ⟨_, k1⟩ := passes_of_returned hd hu hc hE tells hr
    have n1 : (aroundOf s w a).nodes = s0.nodes := (hc.like hd).nodes
    have k := (reference_alike (abs := abs) (q := s0.queue) (R := rule s0 e)
      (R' := rule s0 (aroundOf s w a)) (T := stop a (aroundOf s w a)) runs
      (fun l hl' n hn p p' hp => hp.rule hl n1 (List.mem_flatten.2 ⟨l, hl', hn⟩))
      (fun p => hE.stop _ p) (passes h)).2.2
    rw [k1] at k
    exact k
  intro P hP P' hP'
  have h1 := one hu hE hc hr P hP
  rw [one hu' hE' hc' hr' P' hP'] at h1
  exact (List.cons.inj h1).1.symm

/-- **C134.** With the default termination conditions a run of such a scheduler that returns has at most
one pass. -/
theorem C134_once (hd : DescribedNodes s0) (hl : PassOnlyNodes s0) (hq : s0.queue.flatten.Nodup)
    (hu : Unused s0 a.id) (ha : DefaultTermination a) (hc : CompleteRuns a.id s0 runs s)
    (hr : Scripted w a s abs h t .returned) : (passYields h).length ≤ 1 := by
  obtain ⟨o, o', e1, e2⟩ := ha
  have hE : DescribedEnd a := fun st => by
    rw [e1, e2]
    exact ⟨.leaf (.inl (by decide)) fun e => e.elim, .leaf trivial fun e => e.elim⟩
  have tells : Tells s w a (aroundOf s w a) := C81_tells _ w a (fun i j n hi hj =>
    places_of_nodup hq i j n (by rw [← (hc.like hd).queue]; exact hi)
      (by rw [← (hc.like hd).queue]; exact hj))
  obtain ⟨k0, k1⟩ := C81_returned hd hu hc hE tells hr
  have k := (reference_once (abs := abs) (q := s0.queue) (R := rule s0 (aroundOf s w a))
    (R' := rule s0 (aroundOf s w a)) (T := stop a (aroundOf s w a)) (nodes := (aroundOf s w a).nodes) runs
    (fun l hl' n hn p p' hp => hp.rule hl rfl (List.mem_flatten.2 ⟨l, hl', hn⟩))
    (fun p => by
      unfold stop
      rw [e1, e2]
      simp [holds, holdsLeaf]) (passes h)).2.2.2.1
  rw [k1 _ (Nat.le_refl _)] at k
  rcases k with k | k
  · exact k
  · rw [k0] at k; cases k

/-! ## A concrete case -/

/-- `0 → 1 → 3` and `2 → 3`: node 0 has `Never`, node 1 has `BeforeNCalls(0, 1)`, node 2 has no condition
and node 3 has `Any(AfterNCalls(0, 1), All(AtNCalls(1, 1), AllHaveRun(2)))`, all within the pass. -/
def alikeSys : Sys Nat Nat Unit :=
  ((((Sys.new [(1, [0]), (3, [1, 2])] .standard none 0 demoWorld).alloc 9).addBasic 0 (.leaf 0 .never)).addBasic 1
    (.leaf 1 (.beforeNCalls 0 1 .pass))).addBasic 3
    (.any 2 [.leaf 3 (.afterNCalls 0 1 .pass), .all 4 [.leaf 5 (.atNCalls 1 1 .pass),
      .leaf 6 (.allHaveRun [2] .pass)]])

def alikeFirst := scriptAfter constWorld sixPasses alikeSys 300
def alikeSecond := scriptAfter constWorld tenPasses alikeFirst.2.1 400

theorem alikeFirst_run : passYields alikeFirst.1 = List.replicate 6 [[2], [1], [3]] ∧
    alikeFirst.2.2 = .returned := by
  decide +kernel

theorem alikeSecond_run : passYields alikeSecond.1 = List.replicate 10 [[2], [1], [3]] ∧
    alikeSecond.2.2 = .returned := by
  decide +kernel

theorem alike_nodes {n : Nat} (hn : n ∈ alikeSys.queue.flatten) : n = 0 ∨ n = 2 ∨ n = 1 ∨ n = 3 := by
  have e : alikeSys.queue.flatten = [0, 2, 1, 3] := by decide +kernel
  rw [e] at hn; simpa using hn

theorem alike_described : DescribedNodes alikeSys := by
  intro n hn
  rcases alike_nodes hn with rfl | rfl | rfl | rfl
  · exact ⟨by decide +kernel, .inl ⟨_, rfl, .leaf trivial (fun e => e.elim)⟩⟩
  · exact ⟨by decide +kernel, .inr (.inr ⟨by rfl, [], by decide +kernel, by decide +kernel⟩)⟩
  · exact ⟨by decide +kernel, .inl ⟨_, rfl, .leaf (.inr ⟨rfl, rfl⟩) (fun e => e.elim)⟩⟩
  · refine ⟨by decide +kernel, .inl ⟨_, rfl, .any ?_⟩⟩
    intro c hc
    rcases List.mem_cons.1 hc with rfl | hc
    · exact .leaf (.inr ⟨rfl, rfl⟩) (fun e => e.elim)
    · rw [List.mem_singleton] at hc
      subst hc
      refine .all fun c hc => ?_
      rcases List.mem_cons.1 hc with rfl | hc
      · exact .leaf (.inr ⟨rfl, rfl⟩) (fun e => e.elim)
      · rw [List.mem_singleton] at hc
        subst hc
        exact .leaf (.inr ⟨rfl, rfl⟩) (fun e => e.elim)

theorem alike_passOnly : PassOnlyNodes alikeSys := by
  intro n hn
  rcases alike_nodes hn with rfl | rfl | rfl | rfl
  · exact .inl ⟨_, rfl, .leaf trivial⟩
  · exact .inr ⟨by rfl, by decide +kernel⟩
  · exact .inl ⟨_, rfl, .leaf rfl⟩
  · refine .inl ⟨_, rfl, .any ?_⟩
    intro c hc
    rcases List.mem_cons.1 hc with rfl | hc
    · exact .leaf rfl
    · rw [List.mem_singleton] at hc
      subst hc
      refine .all fun c hc => ?_
      rcases List.mem_cons.1 hc with rfl | hc
      · exact .leaf rfl
      · rw [List.mem_singleton] at hc
        subst hc
        exact .leaf rfl

/-- The hypotheses of `C134_all_alike` hold for two runs of this scheduler. -/
example : DescribedNodes alikeSys ∧ PassOnlyNodes alikeSys ∧ alikeSys.queue.flatten.Nodup ∧
    Unused alikeSys none ∧ AfterPasses 6 sixPasses ∧ AfterPasses 10 tenPasses ∧
    Scripted constWorld sixPasses alikeSys false alikeFirst.1 alikeFirst.2.1 .returned ∧
    CompleteRuns none alikeSys [passYields alikeFirst.1] alikeFirst.2.1 ∧
    Scripted constWorld tenPasses alikeFirst.2.1 false alikeSecond.1 alikeSecond.2.1 .returned := by
  have k1 := scriptAfter_scripted (w := constWorld) (a := sixPasses) (s0 := alikeSys) (abs := false)
    (by decide +kernel) 300
  have k2 := scriptAfter_scripted (w := constWorld) (a := tenPasses) (s0 := alikeFirst.2.1) (abs := false)
    (by decide +kernel) 400
  have e1 : (scriptAfter constWorld sixPasses alikeSys 300).2.2 = .returned := alikeFirst_run.2
  have e2 : (scriptAfter constWorld tenPasses alikeFirst.2.1 400).2.2 = .returned := alikeSecond_run.2
  rw [e1] at k1
  rw [e2] at k2
  exact ⟨alike_described, alike_passOnly, by decide +kernel,
    ⟨by rfl, by rfl, .new, noNWhen_sat (by decide +kernel)⟩, pass_end, ⟨rfl, rfl⟩, k1,
    .run .nil rfl rfl pass_end.described.apart k1, k2⟩

/-- `0 → 1`: node 1 has `AtNCalls(0, 1)` within the pass. -/
def onceSys : Sys Nat Nat Unit :=
  ((Sys.new [(1, [0])] .standard none 0 demoWorld).alloc 5).addBasic 1 (.leaf 0 (.atNCalls 0 1 .pass))

/-- A run with the default termination condition. -/
def onceAll : RunArgs Nat Nat Unit :=
  { id := none, esu := .leaf 20 (.allHaveRun [] .environment_state_update), seq := .leaf 23 .never }

/-- The hypotheses of `C134_once` hold for this scheduler. -/
example : DescribedNodes onceSys ∧ PassOnlyNodes onceSys ∧ onceSys.queue.flatten.Nodup ∧
    Unused onceSys onceAll.id ∧ DefaultTermination onceAll ∧ ∃ h t,
    Scripted constWorld onceAll onceSys false h t .returned ∧ passYields h = [[[0], [1]]] := by
  have k1 := scriptAfter_scripted (w := constWorld) (a := onceAll) (s0 := onceSys) (abs := false)
    (by decide +kernel) 100
  have e1 : (scriptAfter constWorld onceAll onceSys 100).2.2 = .returned := by decide +kernel
  rw [e1] at k1
  have nodes : ∀ n ∈ onceSys.queue.flatten, n = 0 ∨ n = 1 := by
    have e : onceSys.queue.flatten = [0, 1] := by decide +kernel
    rw [e]; simp
  refine ⟨fun n hn => ?_, fun n hn => ?_, by decide +kernel,
    ⟨by rfl, by rfl, .new, noNWhen_sat (by decide +kernel)⟩, ⟨20, 23, rfl, rfl⟩, _, _, k1, by decide +kernel⟩
  · rcases nodes n hn with rfl | rfl
    · exact ⟨by decide +kernel, .inr (.inr ⟨by rfl, [], by decide +kernel, by decide +kernel⟩)⟩
    · exact ⟨by decide +kernel, .inl ⟨_, rfl, .leaf (.inr ⟨rfl, rfl⟩) (fun e => e.elim)⟩⟩
  · rcases nodes n hn with rfl | rfl
    · exact .inr ⟨by rfl, by decide +kernel⟩
    · exact .inl ⟨_, rfl, .leaf rfl⟩

end GS.Props
