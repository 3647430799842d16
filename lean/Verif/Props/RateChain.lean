import Verif.RateChain
import Verif.Props.AsOne
/-!
# C130: along a chain of nodes that wait for calls of each other the numbers multiply
-/

set_option linter.unusedSectionVars false

namespace GS.Props
open Spec
variable {α κ W : Type _} [DecidableEq α] [DecidableEq κ]
variable {s0 s t : Sys α κ W} {w : List (List α) → World α κ W} {a : RunArgs α κ W}
variable {h : History α κ W} {runs : List (List (List (List α)))} {abs : Bool} {pc : PC α}
variable {n d e : α} {k : Nat} {l1 l2 : List (List α)}

theorem C130_one (hd : DescribedNodes s0) (hu : Unused s0 a.id) (hr' : CompleteRuns a.id s0 runs s)
    (hE : DescribedEnd a) (hq : s0.queue.flatten.Nodup) (hr : Scripted w a s abs h t pc)
    (hc : WaitsForCalls s0 n d k) (hy : yields h = l1 ++ l2) :
    k * setsWith n l1 ≤ setsWith d l1 := by
  have hl := hr'.like hd
  have htell := C81_tells s w a (fun i j n hi hj => places_of_nodup hq i j n
    (by rw [← hl.queue]; exact hi) (by rw [← hl.queue]; exact hj))
  have hp := C81_prefix hd hu hr' hE htell hr (Nat.le_refl _)
  obtain ⟨_, _, key⟩ := reference_enough (abs := abs) (T := stop a (aroundOf s w a)) hc.1
    (fun p => rule_needs hc (aroundOf s w a) p) runs s0.queue (passes h)
  have hx : l1.flatten <+: (reference abs (rule s0 (aroundOf s w a)) (stop a (aroundOf s w a)) s0.queue
      (passes h) ⟨runs, [], [], []⟩).before.flatten.flatten := by
    obtain ⟨z, hz⟩ := hp
    rw [← hz, hy, List.append_assoc, List.flatten_append]
    exact List.prefix_append _ _
  have := key _ hx
  have hnd : ∀ x ∈ l1, x.Nodup := fun x hx => hr.reach.yields_nodup x (by rw [hy]; simp [hx])
  rw [count_flatten_sets hnd, count_flatten_sets hnd] at this
  omega

/-- **C130.** If there is a chain of nodes from `n` to `e`, each of which waits for calls of the next,
then at every moment of a run `e` has executed in this run at least as often as `n`, times the product
of the numbers of the chain. -/
theorem C130_chain (hd : DescribedNodes s0) (hu : Unused s0 a.id) (hr' : CompleteRuns a.id s0 runs s)
    (hE : DescribedEnd a) (hq : s0.queue.flatten.Nodup) (hr : Scripted w a s abs h t pc)
    (hc : ChainOfCalls s0 n e k) (hy : yields h = l1 ++ l2) :
    k * setsWith n l1 ≤ setsWith e l1 := by
  induction hc with
  | one hc => exact C130_one hd hu hr' hE hq hr hc hy
  | @more n d e j k hc _ ih =>
    have h1 := C130_one hd hu hr' hE hq hr hc hy
    calc j * k * setsWith n l1 = k * (j * setsWith n l1) := by
          rw [Nat.mul_comm j k, Nat.mul_assoc]
      _ ≤ k * setsWith d l1 := Nat.mul_le_mul_left _ h1
      _ ≤ setsWith e l1 := ih

/-- **C130.** As long as a node has not executed, the nodes that wait for it, for nodes that wait for
it, and so on, do not execute. -/
theorem C130_starved (hd : DescribedNodes s0) (hu : Unused s0 a.id) (hr' : CompleteRuns a.id s0 runs s)
    (hE : DescribedEnd a) (hq : s0.queue.flatten.Nodup) (hr : Scripted w a s abs h t pc)
    (hc : ChainOfCalls s0 n e k) (hk : 1 ≤ k) (hy : yields h = l1 ++ l2) (he : ∀ x ∈ l1, e ∉ x) :
    ∀ x ∈ l1, n ∉ x := by
  have h1 := C130_chain hd hu hr' hE hq hr hc hy
  have h2 : setsWith e l1 = 0 := List.countP_eq_zero.2 fun x hx => by simpa using he x hx
  rw [h2] at h1
  have h3 : setsWith n l1 = 0 := by
    have := Nat.mul_le_mul_right (setsWith n l1) hk
    omega
  intro x hx hn
  exact absurd (by simpa using hn) (List.countP_eq_zero.1 h3 x hx)

/-! ## A concrete case -/

/-- `0 → 1 → 2 → 3`: node 1 has `All(EveryNCalls(0, 2), Not(AtPass(1)))`, node 2 has
`NWhen(EveryNCalls(1, 3), 5)`, node 3 has no condition. -/
def chainSys : Sys Nat Nat Unit :=
  (((Sys.new [(1, [0]), (2, [1]), (3, [2])] .standard none 0 demoWorld).alloc 7).addBasic 1
    (.all 0 [.leaf 1 (.everyNCalls 0 2), .not 2 (.leaf 3 (.atPass 1 .environment_state_update))])).addBasic 2
    (.nwhen 4 (.leaf 5 (.everyNCalls 1 3)) 5)

def tenPasses : RunArgs Nat Nat Unit :=
  { id := none, esu := .leaf 20 (.afterNPasses 10 .environment_state_update), seq := .leaf 23 .never }

def chainRun := scriptAfter constWorld tenPasses chainSys 200

theorem chainRun_run : passYields chainRun.1 =
    [[[0]], [[0]], [[0], [1]], [[0]], [[0], [1]], [[0]], [[0], [1], [2], [3]], [[0]], [[0], [1]], [[0]]] ∧ chainRun.2.2 = .returned := by
  decide +kernel

theorem chain_waits : ChainOfCalls chainSys 3 0 6 :=
  .more (d := 2) (j := 1) (k := 6) ⟨by decide, .inr ⟨by rfl, rfl, [2], by decide +kernel, by decide⟩⟩
    (.more (d := 1) (j := 3) (k := 2) ⟨by decide, .inl ⟨_, rfl, .nwhen .every⟩⟩
      (.one ⟨by decide, .inl ⟨_, rfl, .all List.mem_cons_self .every⟩⟩))

theorem chain_described : DescribedNodes chainSys := by
  intro n hn
  have : n = 0 ∨ n = 1 ∨ n = 2 ∨ n = 3 := by
    have e : chainSys.queue.flatten = [0, 1, 2, 3] := by decide +kernel
    rw [e] at hn; simpa using hn
  rcases this with rfl | rfl | rfl | rfl
  · exact ⟨by decide +kernel, .inr (.inr ⟨by rfl, [], by decide +kernel, by decide +kernel⟩)⟩
  · refine ⟨by decide +kernel, .inl ⟨_, rfl, .all ?_⟩⟩
    intro c hc
    rcases List.mem_cons.1 hc with rfl | hc
    · exact .leaf rfl fun _ => ⟨by decide +kernel, by decide +kernel⟩
    · rw [List.mem_singleton] at hc
      subst hc
      exact .not (.leaf (by show 1 < 2; decide) (fun e => e.elim))
  · refine ⟨by decide +kernel, .inr (.inl ⟨_, _, _, rfl, .leaf rfl fun _ =>
      ⟨by decide +kernel, by decide +kernel⟩, by decide +kernel, fun m c' k' h => ?_⟩)⟩
    have := Dict.mem_of_get? h
    rcases List.mem_cons.1 this with h | h
    · cases h
    · rcases List.mem_cons.1 h with h | h
      · cases h; rfl
      · cases h
  · exact ⟨by decide +kernel, .inr (.inr ⟨by rfl, [2], by decide +kernel, by decide +kernel⟩)⟩

/-- The hypotheses of `C130_chain` hold for this scheduler and its nodes 3 and 0, in whose run node 0
executes seven times before node 3 does. -/
example : DescribedNodes chainSys ∧ Unused chainSys tenPasses.id ∧ DescribedEnd tenPasses ∧
    chainSys.queue.flatten.Nodup ∧
    Scripted constWorld tenPasses chainSys false chainRun.1 chainRun.2.1 .returned ∧
    ChainOfCalls chainSys 3 0 6 ∧ setsWith 3 (yields chainRun.1) = 1 ∧
    setsWith 0 (yields chainRun.1) = 10 := by
  have k1 := scriptAfter_scripted (w := constWorld) (a := tenPasses) (s0 := chainSys)
    (abs := false) (by decide +kernel) 200
  have e1 : (scriptAfter constWorld tenPasses chainSys 200).2.2 = .returned := chainRun_run.2
  rw [e1] at k1
  exact ⟨chain_described, ⟨by rfl, by rfl, .new, fun _ _ _ _ _ => by rfl⟩,
    fun st => ⟨.leaf (by show 1 < 2; decide) fun e => e.elim, .leaf trivial fun e => e.elim⟩,
    by decide +kernel, k1, chain_waits, by decide +kernel, by decide +kernel⟩

end GS.Props
