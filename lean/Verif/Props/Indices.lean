import Verif.Props.Structural
import Verif.Props.Graph
/-!
# C56: `consideration_queue_indices` in both modes and with structural conditions
-/

set_option linter.unusedSectionVars false

namespace GS
open Spec
variable {α : Type _} [DecidableEq α]

theorem queueIndices_chain (g : Graph α) (hg : Dict.WF g) (hc : ¬ HasCycle g) (n : α) (i : Nat) :
    Dict.get? (queueIndices (queueOf g)) n = some i ↔ ChainTo g i n ∧ ¬ ChainTo g (i + 1) n := by
  rcases toposort_spec g hg with ⟨ls, h1, _, h3, _⟩ | ⟨_, h⟩
  · have e : queueOf g = ls := by unfold queueOf; rw [h1]
    rw [e]
    obtain ⟨_, k2, k3⟩ := queueIndices_fold ls 0 [] n
    have hu : ∀ i j, At ls i n → At ls j n → j = i := by
      intro i j hi hj
      have a1 := (h3 i n).1 hi
      have a2 := (h3 j n).1 hj
      exact (chain_max_unique a1.1 a1.2 a2.1 a2.2).symm
    have hfw : ∀ i, At ls i n → Dict.get? (queueIndices ls) n = some i := by
      intro i hi
      have := k2 i hi (fun j hj => hu i j hi hj)
      rw [Nat.zero_add] at this
      exact this
    rw [← h3]
    refine ⟨fun h => ?_, hfw i⟩
    by_cases hx : ∃ j, At ls j n
    · obtain ⟨j, hj⟩ := hx
      have := hfw j hj
      rw [h] at this
      cases this; exact hj
    · have : Dict.get? (queueIndices ls) n = none := k3 (fun i hi => hx ⟨i, hi⟩)
      rw [h] at this; cases this
  · exact absurd h hc

end GS

namespace GS.Props
open GS Spec
variable {α κ W : Type _} [DecidableEq α] [DecidableEq κ]

/-- C56.  In both modes, after any sequence of additions, removals and reads in which nothing
raised, `consideration_queue_indices` maps every node of the current graph `G` (if it is
acyclic) to the length of the longest chain of senders before it, and has no other keys; so
every sender has a smaller number than its receivers.  In exact-time mode the consideration
queue itself is a single set. -/
theorem C56_any_mode (mode : Mode) (base : Graph α) (st : Store α κ)
    (ow : OId → Option α) (ops : List (SchedOp α κ W)) (s : Stack α κ W)
    (hq : Quiet (Stack.new mode base st ow) ops s) (h1 : OneOwner (ops.flatMap SchedOp.adds))
    {G : Graph α} (hG : s.readGraph.2 = .ok G) (hw : Dict.WF G) (hc : ¬ HasCycle G) :
    ∃ d, s.readIndices.2 = .ok d ∧
      (∀ n i, Dict.get? d n = some i ↔ ChainTo G i n ∧ ¬ ChainTo G (i + 1) n) ∧
      (∀ n, Dict.get? d n = none ↔ ¬ IsNode G n) ∧
      (∀ a b i j, Edge G a b → a ≠ b → Dict.get? d a = some i → Dict.get? d b = some j → i < j) ∧
      (mode = .standard → ∃ q, s.readQueue.2 = .ok q ∧
        ∀ n i, Dict.get? d n = some i ↔ At q i n) ∧
      (mode = .exactTime → s.readQueue.2 = .ok [Dict.keys G]) := by
  obtain ⟨g1, g2, g3⟩ := C32_composition_partial mode base st ow ops s hq h1
  rw [hG] at g1
  rw [← g1] at g2 g3
  have key := queueIndices_chain G hw hc
  obtain ⟨ls, t1, _, t3, t4, _⟩ : ∃ ls, toposort G = .ok ls ∧ (∀ l ∈ ls, l ≠ [] ∧ l.Nodup) ∧
      (∀ i n, At ls i n ↔ ChainTo G i n ∧ ¬ ChainTo G (i + 1) n) ∧
      (∀ n, ¬ ChainTo G ls.length n) ∧ ¬ HasCycle G := by
    rcases toposort_spec G hw with h | ⟨_, h⟩
    · exact h
    · exact absurd h hc
  refine ⟨_, g3, key, ?_, ?_, ?_, ?_⟩
  · intro n
    constructor
    · intro h hn
      obtain ⟨i, _, hi⟩ := chain_max _ hn (t4 n)
      rw [(key n i).2 hi] at h; cases h
    · intro hn
      cases hx : Dict.get? (queueIndices (queueOf G)) n with
      | none => rfl
      | some i => exact absurd (chain_isNode ((key n i).1 hx).1) hn
  · intro a b i j he hne hi hj
    have a1 := (key a i).1 hi
    have a2 := (key b j).1 hj
    have hch : ChainTo G (i + 1) b := ⟨a, ⟨he, hne⟩, a1.1⟩
    apply Nat.lt_of_not_le
    intro hle
    exact a2.2 (chain_mono hch (by omega))
  · rintro rfl
    refine ⟨queueOf G, g2, fun n i => ?_⟩
    have e : queueOf G = ls := by unfold queueOf; rw [t1]
    rw [key, e, t3]
  · rintro rfl; exact g2

/-- The operations of the example of C32 on a scheduler in exact-time mode. -/
def exactStack : Stack Nat Nat Unit := Stack.new .exactTime threeNodes noOwners (fun _ => none)

example := C56_any_mode .exactTime threeNodes noOwners (fun _ => none) someOps
  (afterOps exactStack someOps) (quiet_of _ _ (by decide)) someOps_oneOwner
  (G := [(0, []), (1, [0]), (2, [1])]) (by decide) (by decide)
  (by
    rcases toposort_spec ([(0, []), (1, [0]), (2, [1])] : Graph Nat) (by decide) with
      ⟨_, _, _, _, _, h⟩ | ⟨h, _⟩
    · exact h
    · exact absurd h (by decide))

example : (afterOps exactStack someOps).readIndices.2 = .ok [(0, 0), (1, 1), (2, 2)] ∧
    (afterOps exactStack someOps).readQueue.2 = .ok [[0, 1, 2]] := by decide

end GS.Props
