import Verif.LoosenCond
import Verif.Props.Part
/-!
# C103: conditions that are easier to satisfy
-/

set_option linter.unusedSectionVars false

namespace GS.Props
open Spec
variable {α κ W : Type _} [DecidableEq α] [DecidableEq κ]
variable {a a' : RunArgs α κ W} {s0 s t0 t : Sys α κ W} {w0 : World α κ W}
variable {h h' : History α κ W} {pc pc' : PC α} {n n' : Nat}

/-- C103, when the runs have begun: see `C103_loosened`. -/
theorem C103_begun (hid : a'.id = a.id) (hl : Loosens a.id (s0.start a).1 (t0.start a').1)
    (h0 : s0.world = w0) (h0' : t0.world = w0)
    (hr : Unended (fun _ => w0) a s0 false n h s pc) (hr' : Unended (fun _ => w0) a' t0 false n' h' t pc')
    {j : Nat} (hj : j ≤ (completed h pc).length) (hj' : j ≤ (completed h' pc').length) (x : α) :
    executions x ((completed h pc).take j) ≤ executions x ((completed h' pc').take j) := by
  obtain ⟨ys, s1, g⟩ := hr.placed.earlier hj
  obtain ⟨ys', t1, g'⟩ := hr'.placed.earlier hj'
  rw [completed_take hj] at g
  rw [completed_take hj'] at g'
  have e := unended_start hr
  have e' := unended_start hr'
  have hs : ∀ sa ta, s0.start a = (sa, .ok false) → t0.start a' = (ta, .ok false) → Loosens a.id sa ta := by
    intro sa ta h1 h2
    rw [h1, h2] at hl; exact hl
  have L := hs _ _ e e'
  have hq := Once.of L.once
  rw [(Sys.start_ok e).queue] at hq
  obtain ⟨_, _, f, u, _, _, b3, b4, b5, _⟩ := g.books hq
  obtain ⟨_, _, f', u', _, _, b3', b4', b5', _⟩ := g'.books (by
    have := L.queue
    rw [(Sys.start_ok e).queue, (Sys.start_ok e').queue] at this
    rw [this]; exact hq)
  have b3' := b3'.total
  rw [hid] at b3'
  have := ((Pos.ahead hid h0 h0' hs j).1 g g').2 f f' b3.total b3' x
  rw [b4, b4'] at this
  unfold executions
  rw [b5, b5']
  exact this

/-- C103: two schedulers have the same graph and the same queue, in which each node is at one
place.  Each node has no condition in both and at most one sender; or a condition that
is easier to satisfy in the second scheduler; or `EveryNCalls(d, k)` in the first and
`EveryNCalls(d, k')` with `k' ≤ k` in the second.  The outside world is the same and does not change,
no termination condition is satisfied so far.  Then after any number of passes completed in both runs, every
node has been executed at least as often by the second scheduler. -/
theorem C103_loosened (hid : a'.id = a.id) (hl : LoosensGiven a.id s0 t0)
    (h0 : s0.world = w0)
    (hr : Unended (fun _ => w0) a s0 false n h s pc) (hr' : Unended (fun _ => w0) a' t0 false n' h' t pc')
    {j : Nat} (hj : j ≤ (completed h pc).length) (hj' : j ≤ (completed h' pc').length) (x : α) :
    executions x ((completed h pc).take j) ≤ executions x ((completed h' pc').take j) :=
  have e := unended_start hr
  have e' := unended_start hr'
  C103_begun hid (by have := hl.start hid e e'; rwa [congrArg Prod.fst e, congrArg Prod.fst e'])
    h0 (hl.ahead.world.trans h0) hr hr' hj hj' x

/-- C103, which conditions are easier to satisfy: those that ask for less. -/
theorem C103_looser {id : Option κ} {c c' : Cond α κ W} (hc : Looser c c') : Eases id c c' := hc.eases

/-! ## A concrete case -/

/-- Graph `0 -> 1 -> 2`, `1 -> 3`.  With `loose`, node `0` runs always instead of in every second
pass, node `1` has `EveryNCalls(0, 2)` instead of `EveryNCalls(0, 3)`, node `2` has
`AfterNCalls(1, 1)` instead of `All(AfterNCalls(1, 2), AtPass(5))`.  Node `3` has no condition. -/
def easing (loose : Bool) : Sys Nat Nat Unit :=
  let s := (Sys.new [(1, [0]), (2, [1]), (3, [1])] .standard none 1 demoWorld).alloc 5
  let s := s.addBasic 0 (.leaf 0 (if loose then .always else .everyNPasses 2 .environment_state_update))
  let s := s.addBasic 1 (.leaf 1 (.everyNCalls 0 (if loose then 2 else 3)))
  s.addBasic 2 (if loose then .leaf 2 (.afterNCalls 1 1 .environment_state_update)
    else .all 2 [.leaf 3 (.afterNCalls 1 2 .environment_state_update),
      .leaf 4 (.afterPass 5 .environment_state_update)])

theorem easing_queue : (easing false).queue = [[0], [1], [2, 3]] := by decide +kernel

theorem once_of_flatten {q : List (List Nat)} (hq : q.flatten.Nodup) (i j : Nat) (l l' : List Nat) (n : Nat)
    (hi : q[i]? = some l) (hj : q[j]? = some l') (h1 : n ∈ l) (h2 : n ∈ l') : i = j := by
  obtain ⟨ki, rfl⟩ := List.getElem?_eq_some_iff.1 hi
  obtain ⟨kj, rfl⟩ := List.getElem?_eq_some_iff.1 hj
  have hp := (List.pairwise_flatten.1 hq).2
  rcases Nat.lt_trichotomy i j with h | h | h
  · exact absurd rfl (List.pairwise_iff_getElem.1 hp i j ki kj h n h1 n h2)
  · exact h
  · exact absurd rfl (List.pairwise_iff_getElem.1 hp j i kj ki h n h2 n h1)

theorem easing_loosens : LoosensGiven none (easing false) (easing true) := by
  refine ⟨by decide +kernel, by decide +kernel, ?_, ⟨by decide +kernel, rfl, ?_, ?_⟩, ?_⟩
  · exact once_of_flatten (by decide +kernel)
  · exact ⟨_, _, rfl, rfl, fun _ _ _ => Nat.le_refl _⟩
  · exact ⟨[], [], Shows.new, Shows.new, rfl⟩
  · intro n hn
    rw [easing_queue] at hn
    have : n = 0 ∨ n = 1 ∨ n = 2 ∨ n = 3 := by simpa using hn
    rcases this with rfl | rfl | rfl | rfl
    · exact .inr ⟨_, _, rfl, rfl, .inl (Looser.always _ _).eases, (by rintro o rfl; decide +kernel),
        (by rintro o rfl; decide +kernel)⟩
    · refine .inr ⟨_, _, rfl, rfl, .inr ⟨1, 0, 3, 1, 2, rfl, rfl, by decide, by decide, rfl, rfl,
        by decide, ?_⟩, (by rintro o rfl; decide +kernel), (by rintro o rfl; decide +kernel)⟩
      rw [easing_queue]; decide
    · refine .inr ⟨_, _, rfl, rfl, .inl (Looser.drop (c := .leaf 3 (.afterNCalls 1 2 .environment_state_update))
        (by simp) (.leaf _ _ _ _ (.afterNCalls (by decide) (by decide)))).eases, ?_,
        (by rintro o rfl; decide +kernel)⟩
      rintro o (rfl | rfl | rfl | h)
      · decide +kernel
      · decide +kernel
      · decide +kernel
      · exact h.elim
    · refine .inl ⟨by decide +kernel, rfl, rfl, .inr ⟨1, by decide +kernel, by decide, ?_⟩⟩
      rw [easing_queue]; decide

/-- The hypotheses of `C103_loosened` hold, and six passes of the two runs differ. -/
example : LoosensGiven none (easing false) (easing true) ∧
    (∀ l k, Unended (fun _ => demoWorld) endless (easing l) false k
      (scriptAfter (fun _ => demoWorld) endless (easing l) k).1
      (scriptAfter (fun _ => demoWorld) endless (easing l) k).2.1
      (scriptAfter (fun _ => demoWorld) endless (easing l) k).2.2) ∧
    (completed (scriptAfter (fun _ => demoWorld) endless (easing false) 120).1
      (scriptAfter (fun _ => demoWorld) endless (easing false) 120).2.2).take 6 =
      [[[0]], [[]], [[0]], [[]], [[0], [1], [3]], [[]]] ∧
    (completed (scriptAfter (fun _ => demoWorld) endless (easing true) 120).1
      (scriptAfter (fun _ => demoWorld) endless (easing true) 120).2.2).take 6 =
      [[[0]], [[0], [1], [2, 3]], [[0], [2]], [[0], [1], [2, 3]], [[0], [2]], [[0], [1], [2, 3]]] :=
  ⟨easing_loosens, fun l k => scriptAfter_unended (by cases l <;> decide +kernel) endless_unsatisfied k,
    by decide +kernel, by decide +kernel⟩

/-! ## Two senders -/

/-- Graph `0 -> 1 -> 3 <- 2`.  Node `0` runs in passes 1, 2, 4 and 5, with `loose` also in pass 0;
node `1` has `EveryNCalls(0, 2)`, node `2` runs in passes 4 and 5, node `3` has no condition. -/
def joining (loose : Bool) : Sys Nat Nat Unit :=
  let at_ : Nat → Int → Cond Nat Nat Unit := fun o n => .leaf o (.atPass n .environment_state_update)
  let early := [at_ 1 1, at_ 2 2, at_ 3 4, at_ 4 5]
  let s := (Sys.new [(1, [0]), (2, []), (3, [1, 2])] .standard none 1 demoWorld).alloc 10
  let s := s.addBasic 0 (.any 0 (if loose then early ++ [at_ 5 0] else early))
  let s := s.addBasic 1 (.leaf 6 (.everyNCalls 0 2))
  s.addBasic 2 (.any 7 [at_ 8 4, at_ 9 5])

/-- C103 fails for a node with two senders and no condition, which runs when
both have run since: node `0` runs once more and node `1` earlier, all other conditions
are the same, but then both calls of node `1` fall together for node `3`, which runs less often. -/
theorem C103_two_senders : ∃ c c' : Cond Nat Nat Unit,
    Dict.get? (joining false).conds 0 = some c ∧ Dict.get? (joining true).conds 0 = some c' ∧ Looser c c' ∧
    (∀ n, n ≠ 0 → Dict.get? (joining true).conds n = Dict.get? (joining false).conds n) ∧
    (joining true).graph = (joining false).graph ∧ (joining true).queue = (joining false).queue ∧
    ∃ (k k' : Nat) (h h' : History Nat Nat Unit) (s t : Sys Nat Nat Unit) (pc pc' : PC Nat),
      Unended (fun _ => demoWorld) endless (joining false) false k h s pc ∧
      Unended (fun _ => demoWorld) endless (joining true) false k' h' t pc' ∧
      6 ≤ (completed h pc).length ∧ 6 ≤ (completed h' pc').length ∧
      executions 3 ((completed h pc).take 6) = 2 ∧ executions 3 ((completed h' pc').take 6) = 1 := by
  refine ⟨_, _, rfl, rfl, ?_, ?_, by decide +kernel, by decide +kernel, 160, 160, _, _, _, _, _, _,
    scriptAfter_unended (by decide +kernel) endless_unsatisfied 160,
    scriptAfter_unended (by decide +kernel) endless_unsatisfied 160, by decide +kernel, by decide +kernel,
    by decide +kernel, by decide +kernel⟩
  · refine .any _ _ _ _ (fun c => c) (fun c hc => ?_) (fun c hc => ?_)
    · exact List.mem_append.2 (.inl hc)
    · have : c ∈ ([.leaf 1 (.atPass 1 .environment_state_update), .leaf 2 (.atPass 2 .environment_state_update),
        .leaf 3 (.atPass 4 .environment_state_update), .leaf 4 (.atPass 5 .environment_state_update)] : List (Cond Nat Nat Unit)) := hc
      simp only [List.mem_cons, List.not_mem_nil, or_false] at this
      rcases this with rfl | rfl | rfl | rfl <;> exact .leaf _ _ _ _ (.atPass (by decide))
  · intro n hn
    match n, hn with
    | 1, _ => rfl
    | 2, _ => rfl
    | n + 3, _ => rfl

end GS.Props
