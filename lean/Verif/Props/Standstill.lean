import Verif.Standstill
import Verif.Props.RateChain
/-!
# C132: a pass in which nothing executes
-/

set_option linter.unusedSectionVars false

namespace GS.Props
open Spec
variable {α κ W : Type _} [DecidableEq α] [DecidableEq κ]
variable {s0 s t : Sys α κ W} {w : List (List α) → World α κ W} {a : RunArgs α κ W}
variable {h : History α κ W} {runs : List (List (List (List α)))} {abs : Bool}

theorem stop_same {p p' : Past α} {e : Around α κ W} {Q : Leaf α κ W → Prop}
    (hQ : ∀ k, Q k → holdsLeaf e none p' k = holdsLeaf e none p k) (h1 : MadeOf Q a.esu)
    (h2 : MadeOf Q a.seq) : stop a e p' = stop a e p := by
  unfold stop
  rw [holds_same hQ _ h1, holds_same hQ _ h2]

/-- **C132.** If the conditions of the nodes change only when nodes execute, and the run ends by numbers
of calls or passes, then after a pass in which nothing executes nothing executes any more. -/
theorem C132_standstill (hd : DescribedNodes s0) (hu : Unused s0 a.id) (hr' : CompleteRuns a.id s0 runs s)
    (hE : DescribedEnd a) (hq : s0.queue.flatten.Nodup) (hc : CallsNodes s0)
    (h1 : MadeOf CallsOrPassesLeaf a.esu) (h2 : MadeOf CallsOrPassesLeaf a.seq) {pc : PC α}
    (hpc : pc = .outer ∨ pc = .returned) (hr : Scripted w a s abs h t pc) :
    ∀ B P C, passYields h = B ++ P :: C → Idle P → ∀ P' ∈ C, Idle P' := by
  have hl := hr'.like hd
  have htell := C81_tells s w a (fun i j n hi hj => places_of_nodup hq i j n
    (by rw [← hl.queue]; exact hi) (by rw [← hl.queue]; exact hj))
  have key : reference abs (rule s0 (aroundOf s w a)) (stop a (aroundOf s w a)) s0.queue (passes h)
      ⟨runs, [], [], []⟩ = ⟨runs, passYields h, [], []⟩ := by
    rcases hpc with rfl | rfl
    · exact C81_passes hd hu hr' hE htell hr
    · exact (C81_returned hd hu hr' hE htell hr).2 _ (Nat.le_refl _)
  obtain ⟨_, _, k⟩ := reference_standstill (q := s0.queue) (R := rule s0 (aroundOf s w a))
    (T := stop a (aroundOf s w a)) (abs := abs) runs
    (fun l hl n hn p p' hp => hp.rule hc _ (List.mem_flatten.2 ⟨l, hl, hn⟩))
    (fun p p' hp hlen => stop_same (fun k hk => hp.leafPasses hlen _ _ hk) h1 h2) (passes h)
  rw [key] at k
  exact k

/-- **C132.** If also the termination conditions look at nothing but calls, as the default one, then a
run with a pass in which nothing executes does not return. -/
theorem C132_no_return (hd : DescribedNodes s0) (hu : Unused s0 a.id) (hr' : CompleteRuns a.id s0 runs s)
    (hE : DescribedEnd a) (hq : s0.queue.flatten.Nodup) (hc : CallsNodes s0)
    (h1 : MadeOf CallsLeaf a.esu) (h2 : MadeOf CallsLeaf a.seq) (hr : Scripted w a s abs h t .returned) :
    ∀ P ∈ passYields h, ¬ Idle P := by
  have hl := hr'.like hd
  have htell := C81_tells s w a (fun i j n hi hj => places_of_nodup hq i j n
    (by rw [← hl.queue]; exact hi) (by rw [← hl.queue]; exact hj))
  obtain ⟨hs, key⟩ := C81_returned hd hu hr' hE htell hr
  have hT : ∀ p p' : Past α, SameCalls p p' → stop a (aroundOf s w a) p' = stop a (aroundOf s w a) p :=
    fun p p' hp => stop_same (fun k hk => hp.leaf _ _ hk) h1 h2
  obtain ⟨_, k, _⟩ := reference_standstill (q := s0.queue) (R := rule s0 (aroundOf s w a))
    (T := stop a (aroundOf s w a)) (abs := abs) runs
    (fun l hl n hn p p' hp => hp.rule hc _ (List.mem_flatten.2 ⟨l, hl, hn⟩))
    (fun p p' hp _ => hT p p' hp) (passes h)
  rw [key _ (Nat.le_refl _)] at k
  intro P hP hi
  have := (k ⟨P, hP, hi⟩).2 hT
  rw [hs] at this
  cases this

/-! ## A concrete case -/

/-- Nodes 0 and 1 in one set; node 0 has `BeforeNCalls(1, 2)`, node 1 has
`All(AfterNCalls(0, 2), Not(AtNCalls(1, 3)))`. -/
def haltSys : Sys Nat Nat Unit :=
  (((Sys.new [(0, []), (1, [])] .standard none 0 demoWorld).alloc 9).addBasic 0
    (.leaf 0 (.beforeNCalls 1 2 .environment_state_update))).addBasic 1
    (.all 1 [.leaf 2 (.afterNCalls 0 2 .environment_state_update),
      .not 3 (.leaf 4 (.atNCalls 1 3 .environment_state_update))])

def haltRun := scriptAfter constWorld tenPasses haltSys 200

theorem haltRun_run : passYields haltRun.1 =
    [[[0]], [[0, 1]], [[0, 1]], [[1]], [[]], [[]], [[]], [[]], [[]], [[]]] ∧ haltRun.2.2 = .returned := by
  decide +kernel

theorem halt_nodes {n : Nat} (hn : n ∈ haltSys.queue.flatten) : n = 0 ∨ n = 1 := by
  have e : haltSys.queue.flatten = [0, 1] := by decide +kernel
  rw [e] at hn; simpa using hn

theorem halt_described : DescribedNodes haltSys := by
  intro n hn
  rcases halt_nodes hn with rfl | rfl
  · exact ⟨by decide +kernel, .inl ⟨_, rfl, .leaf (.inl (by decide)) (fun e => e.elim)⟩⟩
  · refine ⟨by decide +kernel, .inl ⟨_, rfl, .all ?_⟩⟩
    intro c hc
    rcases List.mem_cons.1 hc with rfl | hc
    · exact .leaf (.inl (by decide)) (fun e => e.elim)
    · rw [List.mem_singleton] at hc
      subst hc
      exact .not (.leaf (.inl (by decide)) (fun e => e.elim))

theorem halt_calls : CallsNodes haltSys := by
  intro n hn
  rcases halt_nodes hn with rfl | rfl
  · exact .inl ⟨_, rfl, .leaf trivial⟩
  · refine .inl ⟨_, rfl, .all ?_⟩
    intro c hc
    rcases List.mem_cons.1 hc with rfl | hc
    · exact .leaf trivial
    · rw [List.mem_singleton] at hc
      subst hc
      exact .not (.leaf trivial)

/-- The hypotheses of `C132_standstill` hold for this scheduler. -/
example : DescribedNodes haltSys ∧ Unused haltSys tenPasses.id ∧ DescribedEnd tenPasses ∧
    haltSys.queue.flatten.Nodup ∧ CallsNodes haltSys ∧ MadeOf CallsOrPassesLeaf tenPasses.esu ∧
    MadeOf CallsOrPassesLeaf tenPasses.seq ∧
    Scripted constWorld tenPasses haltSys false haltRun.1 haltRun.2.1 .returned := by
  have k1 := scriptAfter_scripted (w := constWorld) (a := tenPasses) (s0 := haltSys)
    (abs := false) (by decide +kernel) 200
  have e1 : (scriptAfter constWorld tenPasses haltSys 200).2.2 = .returned := haltRun_run.2
  rw [e1] at k1
  have hE : AfterPasses 10 tenPasses := ⟨rfl, rfl⟩
  exact ⟨halt_described, ⟨by rfl, by rfl, .new, fun _ _ _ _ _ => by rfl⟩, hE.described, by decide +kernel,
    halt_calls, .leaf trivial, .leaf trivial, k1⟩

/-- A run with the default termination condition. -/
def haltAll : RunArgs Nat Nat Unit :=
  { id := none, esu := .leaf 20 (.allHaveRun [] .environment_state_update), seq := .leaf 23 .never }

/-- The hypotheses of `C132_no_return` hold for it. -/
example : DescribedEnd haltAll ∧ Unused haltSys haltAll.id ∧ MadeOf CallsLeaf haltAll.esu ∧
    MadeOf CallsLeaf haltAll.seq ∧ ∃ h t, Scripted constWorld haltAll haltSys false h t .returned ∧
    passYields h = [[[0]], [[0, 1]]] := by
  have k1 := scriptAfter_scripted (w := constWorld) (a := haltAll) (s0 := haltSys)
    (abs := false) (by decide +kernel) 100
  have e1 : (scriptAfter constWorld haltAll haltSys 100).2.2 = .returned := by decide +kernel
  rw [e1] at k1
  exact ⟨fun st => ⟨.leaf (.inl (by decide)) fun e => e.elim, .leaf trivial fun e => e.elim⟩,
    ⟨by rfl, by rfl, .new, fun _ _ _ _ _ => by rfl⟩, .leaf trivial, .leaf trivial, _, _, k1,
    by decide +kernel⟩

end GS.Props
