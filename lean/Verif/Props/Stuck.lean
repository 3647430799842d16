import Verif.StuckLive
/-!
# C99: a run waits for ever exactly if nodes wait for each other in a circle
-/

set_option linter.unusedSectionVars false

namespace GS.Props
open Spec
variable {α κ W : Type _} [DecidableEq α] [DecidableEq κ]
variable {E : Sys α κ W → Sys α κ W → Prop} {a : RunArgs α κ W} {s0 s1 s : Sys α κ W}
variable {abs : Bool} {h : History α κ W} {pc : PC α}

/-- C99: nodes that wait for each other in a circle never execute, whatever the termination
conditions and however long the run goes on. -/
theorem C99_never (hE : LeavesBooks E a.id) (hH : Healthy s0) (hW : OnlyWaiting s0) {K : List α}
    (hK : Stuck s0 K) (hr : Reach E a s0 abs h s pc) :
    ∀ n ∈ K, n ∉ selections h ∧ ∀ set ∈ yields h, n ∉ set := by
  intro n hn
  have h1 := stuck_never hE hH hW hK hr n hn
  refine ⟨h1, fun set hs hns => h1 ?_⟩
  obtain ⟨r, _, h2⟩ := hr.pending
  rw [h2]
  exact List.mem_append.2 (.inl (List.mem_flatten.2 ⟨set, hs, hns⟩))

/-- C99: with the default termination conditions a run of a scheduler some of whose nodes
wait for each other in a circle never returns. -/
theorem C99_no_return (ha : DefaultTermination a) (hE : LeavesBooks E a.id) (hH : Healthy s0)
    (hW : OnlyWaiting s0) {K : List α} (hK : Stuck s0 K) {n : α} (hn : n ∈ K) (hs : n ∈ s0.nodes) :
    ¬ Reach E a s0 abs h s .returned := by
  intro hr
  obtain ⟨set, h1, h2⟩ := C15_all_have_run ha hr hE.total hE.nodes n hs
  exact (C99_never hE hH hW hK hr n hn).2 set h1 h2

/-- C99: with the default termination conditions every node that belongs to no circle keeps
executing: there is a number `M` of passes such that it is selected at least once in any more
than `M` successive passes. -/
theorem C99_others (ha : DefaultTermination a) (hE : LeavesBooks E a.id) (hH : Healthy s0)
    (hW : OnlyWaiting s0) {n : α} (hn : n ∈ s0.nodes)
    (hno : ∀ K, (∀ m ∈ K, m ∈ s0.nodes) → Stuck s0 K → n ∉ K) :
    ∃ M, ∀ g1 g2 s pc, Reach E a s0 abs (g1 ++ g2) s pc → M < passes g2 → n ∈ selections g2 := by
  by_cases hs : ∃ s1, s0.start a = (s1, .ok abs)
  · obtain ⟨s1, hs1⟩ := hs
    obtain ⟨K, h1, h2, h3⟩ := regular_or_stuck ha hE hH hW hs1
    exact h3 n hn (hno K h1 h2)
  · exact ⟨0, fun g1 g2 s pc hr _ => absurd hr.started hs⟩

/-- C99: if no nodes wait for each other in a circle, a run with the default termination
conditions, left alone, returns. -/
theorem C99_returns (ha : DefaultTermination a) (hH : Healthy s0) (hW : OnlyWaiting s0)
    (hs1 : s0.start a = (s1, .ok false))
    (hno : ∀ K, K ≠ [] → (∀ n ∈ K, n ∈ s0.nodes) → ¬ Stuck s0 K) :
    ∃ k h s, exec s0 a k = some (false, h, s, .returned) := by
  have hE : LeavesBooks (fun _ _ => False : Sys α κ W → Sys α κ W → Prop) a.id :=
    ⟨fun _ _ h => h.elim, fun _ _ h => h.elim, fun _ _ h => h.elim, fun _ _ h => h.elim,
      fun _ _ h => h.elim, fun _ _ h => h.elim, fun _ _ h => h.elim, fun _ _ h => h.elim,
      fun _ _ h => h.elim⟩
  obtain ⟨B, hB⟩ := passes_bounded ha hE hH hW hs1 hno
  obtain ⟨k, h, s, pc, h1, h2⟩ := bounded_ends hs1 (B * (s0.queue.length + 1)) (by
    intro j h s pc hj
    have hr : Reach (fun _ _ => False) a s0 false h s pc := steps_reach (.start hs1) hj
    have hle := hB h s pc hr
    have hy := hr.yieldsAt fun _ _ h => h.elim
    have hfin : (yields h).length ≤ passes h * (s0.queue.length + 1) := by
      cases pc with
      | inner i ch =>
        obtain ⟨k', hk, _, e2⟩ := hr.considered_range fun _ _ h => h.elim
        cases hk; simp only [YieldsAt] at hy; omega
      | choosing c =>
        obtain ⟨k', hk, _, e2⟩ := hr.considered_range fun _ _ h => h.elim
        cases hk; simp only [YieldsAt] at hy; omega
      | yielded i ch =>
        obtain ⟨k', hk, _, e2⟩ := hr.considered_range fun _ _ h => h.elim
        cases hk; simp only [YieldsAt] at hy; omega
      | _ => exact hy
    exact Nat.le_trans hfin (Nat.mul_le_mul_right _ hle))
  have hr : Reach (fun _ _ => False) a s0 false h s pc := steps_reach (.start hs1) h1
  have hsafe := waiting_safe ha hE hH hW hr
  have hpc : pc = .returned := by
    cases pc with
    | returned => rfl
    | raised e => exact absurd rfl (hsafe e)
    | _ => cases h2
  subst hpc
  exact ⟨k, h, s, by unfold exec; rw [hs1]; simp [h1]⟩

/-- C99: a run with the default termination conditions, left alone, returns exactly if no
nodes wait for each other in a circle. -/
theorem C99_iff (ha : DefaultTermination a) (hH : Healthy s0) (hW : OnlyWaiting s0)
    (hs1 : s0.start a = (s1, .ok false)) :
    (∃ k h s, exec s0 a k = some (false, h, s, .returned)) ↔
      ¬ ∃ K, K ≠ [] ∧ (∀ n ∈ K, n ∈ s0.nodes) ∧ Stuck s0 K := by
  constructor
  · rintro ⟨k, h, s, hk⟩ ⟨K, h1, h2, h3⟩
    have hE : LeavesBooks (fun _ _ => False : Sys α κ W → Sys α κ W → Prop) a.id :=
      ⟨fun _ _ h => h.elim, fun _ _ h => h.elim, fun _ _ h => h.elim, fun _ _ h => h.elim,
        fun _ _ h => h.elim, fun _ _ h => h.elim, fun _ _ h => h.elim, fun _ _ h => h.elim,
        fun _ _ h => h.elim⟩
    have hr := exec_reach (E := fun _ _ => False) hk
    obtain ⟨n, hn⟩ := List.exists_mem_of_ne_nil K h1
    exact C99_no_return ha hE hH hW h3 hn (h2 n hn) hr
  · intro hno
    exact C99_returns ha hH hW hs1 fun K h1 h2 h3 => hno ⟨K, h1, h2, h3⟩

/-- Nodes 0, 1 and 2 without edges; node 0 has `AfterNCalls(1, 1)`, node 1 has
`AfterNCalls(0, 1)`, node 2 no condition. -/
def circle : Sys Nat Nat Unit :=
  (((Sys.new [(0, []), (1, []), (2, [])] .standard none 1 demoWorld).alloc 2).addBasic 0
    (.leaf 0 (.afterNCalls 1 1 .environment_state_update))).addBasic 1
    (.leaf 1 (.afterNCalls 0 1 .environment_state_update))

/-- The same with `Any(AfterNCalls(1, 1), AfterPass(2))` for node 0. -/
def noCircle : Sys Nat Nat Unit :=
  (((Sys.new [(0, []), (1, []), (2, [])] .standard none 1 demoWorld).alloc 4).addBasic 0
    (.any 0 [.leaf 1 (.afterNCalls 1 1 .environment_state_update),
      .leaf 2 (.afterPass 2 .environment_state_update)])).addBasic 1
    (.leaf 3 (.afterNCalls 0 1 .environment_state_update))

theorem threeNodes_healthy : Healthy (Sys.new [(0, []), (1, []), (2, [])] .standard none 1
    demoWorld : Sys Nat Nat Unit) :=
  C90_new (κ := Nat) (W := Unit) [(0, []), (1, []), (2, [])] (by decide)
    (by
      rcases toposort_spec ([(0, []), (1, []), (2, [])] : Graph Nat) (by decide) with
        ⟨_, _, _, _, _, h⟩ | ⟨h, _⟩
      · exact h
      · exact absurd h (by decide)) .standard none 1 demoWorld

theorem circle_healthy : Healthy circle :=
  have h := threeNodes_healthy
  ⟨h.placed, h.known, h.senders, h.acyclic, h.synced, h.clock⟩

theorem noCircle_healthy : Healthy noCircle :=
  have h := threeNodes_healthy
  ⟨h.placed, h.known, h.senders, h.acyclic, h.synced, h.clock⟩

theorem circle_waiting : OnlyWaiting circle := by
  intro n _ c hc
  have hcs : circle.conds = [(0, .leaf 0 (.afterNCalls 1 1 .environment_state_update)),
      (1, .leaf 1 (.afterNCalls 0 1 .environment_state_update))] := rfl
  rw [hcs] at hc
  simp only [Dict.get?] at hc
  split at hc
  · cases hc; exact ⟨rfl, show 1 ∈ circle.nodes by decide⟩
  · split at hc
    · cases hc; exact ⟨rfl, show 0 ∈ circle.nodes by decide⟩
    · cases hc

theorem noCircle_conds : noCircle.conds =
    [(0, .any 0 [.leaf 1 (.afterNCalls 1 1 .environment_state_update),
        .leaf 2 (.afterPass 2 .environment_state_update)]),
      (1, .leaf 3 (.afterNCalls 0 1 .environment_state_update))] := rfl

theorem noCircle_waiting : OnlyWaiting noCircle := by
  intro n _ c hc
  rw [noCircle_conds] at hc
  simp only [Dict.get?] at hc
  split at hc
  · cases hc; exact ⟨⟨rfl, show 1 ∈ noCircle.nodes by decide⟩, rfl, trivial⟩
  · split at hc
    · cases hc; exact ⟨rfl, show 0 ∈ noCircle.nodes by decide⟩
    · cases hc

/-- Nodes 0 and 1 of `circle` wait for each other. -/
theorem circle_stuck : Stuck circle [0, 1] := by
  intro n hn
  rcases hn with _ | ⟨_, _ | ⟨_, hn⟩⟩
  · rintro (⟨c, h1, h2⟩ | ⟨h1, _⟩)
    · cases h1; exact h2 (by decide) (by decide)
    · cases h1
  · rintro (⟨c, h1, h2⟩ | ⟨h1, _⟩)
    · cases h1; exact h2 (by decide) (by decide)
    · cases h1
  · cases hn

/-- In `noCircle` nobody waits in vain: 0 will execute because the time comes, hence 1, and 2
waits for nothing. -/
theorem noCircle_free : ¬ ∃ K, K ≠ [] ∧ (∀ n ∈ K, n ∈ noCircle.nodes) ∧ Stuck noCircle K := by
  rintro ⟨K, h1, h2, h3⟩
  have n0 : 0 ∉ K := fun h => h3 0 h (.inl ⟨_, rfl, .inr (.inl trivial)⟩)
  have n1 : 1 ∉ K := fun h => h3 1 h (.inl ⟨_, rfl, fun _ => n0⟩)
  have n2 : 2 ∉ K := fun h => h3 2 h (.inr ⟨rfl, [], rfl, by simp⟩)
  obtain ⟨n, hn⟩ := List.exists_mem_of_ne_nil K h1
  have : ∀ x ∈ noCircle.nodes, x = 0 ∨ x = 1 ∨ x = 2 := by decide
  rcases this n (h2 n hn) with rfl | rfl | rfl
  · exact n0 hn
  · exact n1 hn
  · exact n2 hn

/-- Concrete case of C99: only 2 executes, for ever. -/
example : DefaultTermination demoArgs ∧ (circle.start demoArgs).2 = .ok false ∧
    (∃ K, K ≠ [] ∧ (∀ n ∈ K, n ∈ circle.nodes) ∧ Stuck circle K) ∧
    yields (runAfter circle demoArgs 60).1 = [[2], [2], [2], [2], [2]] :=
  ⟨⟨10, 11, rfl, rfl⟩, by decide +kernel, ⟨[0, 1], by decide, by decide, circle_stuck⟩,
    by decide +kernel⟩

/-- Concrete case of C99: after three passes 0 executes, hence 1, and the run
returns. -/
example : DefaultTermination demoArgs ∧ (noCircle.start demoArgs).2 = .ok false ∧
    (¬ ∃ K, K ≠ [] ∧ (∀ n ∈ K, n ∈ noCircle.nodes) ∧ Stuck noCircle K) ∧
    yields (runAfter noCircle demoArgs 90).1 = [[2], [2], [2], [0, 1, 2]] ∧
    (runAfter noCircle demoArgs 90).2.2 = .returned :=
  ⟨⟨10, 11, rfl, rfl⟩, by decide +kernel, noCircle_free, by decide +kernel, by decide +kernel⟩

end GS.Props
