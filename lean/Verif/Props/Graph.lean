import Verif.GraphLemmas2
/-!
# C01-C03, C05, C56: the consideration queue

`g` is the dependency dict given to `Scheduler(graph)`; `queueOf (baseGraph g)` is
`Scheduler(graph).consideration_queue` (in standard mode).
-/

set_option linter.unusedSectionVars false

namespace GS.Props
open Spec
variable {α : Type _} [DecidableEq α]

/-- A diamond with a sender-only node and a self-edge, used as concrete case. -/
def diamond : Graph Nat := [(3, [1, 2]), (1, [0]), (2, [0, 2]), (4, [])]

theorem diamond_wf : Dict.WF diamond := by decide

theorem queue_ok (g : Graph α) (hg : Dict.WF g) (hc : ¬ HasCycle g) :
    toposort (baseGraph g) = .ok (queueOf (baseGraph g)) ∧
    (∀ l ∈ queueOf (baseGraph g), l ≠ [] ∧ l.Nodup) ∧
    (∀ i n, At (queueOf (baseGraph g)) i n ↔ ChainTo g i n ∧ ¬ ChainTo g (i + 1) n) ∧
    (∀ n, ¬ ChainTo g (queueOf (baseGraph g)).length n) := by
  have hs := baseGraph_same g hg
  rcases toposort_spec (baseGraph g) (baseGraph_wf g) with ⟨ls, h1, h2, h3, h4, _⟩ | ⟨_, h⟩
  · have e : queueOf (baseGraph g) = ls := by unfold queueOf; rw [h1]
    rw [e]
    refine ⟨h1, h2, ?_, ?_⟩
    · intro i n; rw [h3, hs.chain, hs.chain]
    · intro n; rw [← hs.chain]; exact h4 n
  · exact absurd (hs.cycle.1 h) hc

theorem mem_flatten_at (q : List (List α)) (n : α) : n ∈ q.flatten ↔ ∃ i, At q i n := by
  rw [List.mem_flatten]
  constructor
  · rintro ⟨l, hl, hn⟩
    obtain ⟨i, hi, he⟩ := List.getElem_of_mem hl
    exact ⟨i, l, by rw [List.getElem?_eq_getElem hi, he], hn⟩
  · rintro ⟨i, l, hl, hn⟩; exact ⟨l, List.mem_of_getElem? hl, hn⟩

/-- C01: the consideration sets are non-empty, contain every node of the graph (keys
and sender-only nodes) exactly once and nothing else. -/
theorem C01_partition (g : Graph α) (hg : Dict.WF g) (hc : ¬ HasCycle g) :
    (∀ l ∈ queueOf (baseGraph g), l ≠ []) ∧
    (queueOf (baseGraph g)).flatten.Nodup ∧
    ∀ n, n ∈ (queueOf (baseGraph g)).flatten ↔ IsNode g n := by
  obtain ⟨_, h2, h3, h4⟩ := queue_ok g hg hc
  refine ⟨fun l hl => (h2 l hl).1, ?_, ?_⟩
  · unfold List.Nodup
    rw [List.pairwise_flatten]
    refine ⟨fun l hl => (h2 l hl).2, ?_⟩
    rw [List.pairwise_iff_getElem]
    intro i j hi hj hij
    intro n hn m hm
    rintro rfl
    have a1 := (h3 i n).1 ⟨_, List.getElem?_eq_getElem hi, hn⟩
    have a2 := (h3 j n).1 ⟨_, List.getElem?_eq_getElem hj, hm⟩
    have := chain_max_unique a1.1 a1.2 a2.1 a2.2
    omega
  · intro n
    rw [mem_flatten_at]
    constructor
    · rintro ⟨i, hi⟩; exact chain_isNode ((h3 i n).1 hi).1
    · intro hn
      obtain ⟨i, _, h⟩ := chain_max _ hn (h4 n)
      exact ⟨i, (h3 i n).2 h⟩

example : Dict.WF diamond ∧ ¬ HasCycle diamond ∧
    queueOf (baseGraph diamond) = [[0, 4], [1, 2], [3]] := by
  refine ⟨by decide, ?_, by decide⟩
  rintro ⟨n, hn⟩
  rcases toposort_spec diamond diamond_wf with ⟨_, _, _, _, _, h⟩ | ⟨h, _⟩
  · exact h ⟨n, hn⟩
  · exact absurd h (by decide)

/-- C02: the sender of an edge between different nodes is in a strictly earlier set. -/
theorem C02_senders_first (g : Graph α) (hg : Dict.WF g) (hc : ¬ HasCycle g) (s r : α)
    (he : Edge g s r) (hne : s ≠ r) (i j : Nat)
    (hi : At (queueOf (baseGraph g)) i s) (hj : At (queueOf (baseGraph g)) j r) : i < j := by
  obtain ⟨_, _, h3, _⟩ := queue_ok g hg hc
  have a1 := (h3 i s).1 hi
  have a2 := (h3 j r).1 hj
  have hch : ChainTo g (i + 1) r := ⟨s, ⟨he, hne⟩, a1.1⟩
  apply Nat.lt_of_not_le
  intro hle
  exact a2.2 (chain_mono hch (by omega))

/-- C02, second part: no two nodes of one set are joined by an edge. -/
theorem C02_no_edge_inside (g : Graph α) (hg : Dict.WF g) (hc : ¬ HasCycle g) (l : List α)
    (hl : l ∈ queueOf (baseGraph g)) (s r : α) (hs : s ∈ l) (hr : r ∈ l) (hne : s ≠ r) :
    ¬ Edge g s r := by
  intro he
  obtain ⟨i, hi, hil⟩ := List.getElem_of_mem hl
  have h1 : At (queueOf (baseGraph g)) i s := ⟨l, by rw [List.getElem?_eq_getElem hi, hil], hs⟩
  have h2 : At (queueOf (baseGraph g)) i r := ⟨l, by rw [List.getElem?_eq_getElem hi, hil], hr⟩
  exact Nat.lt_irrefl _ (C02_senders_first g hg hc s r he hne i i h1 h2)

example : Edge diamond 1 3 ∧ At (queueOf (baseGraph diamond)) 1 1 ∧
    At (queueOf (baseGraph diamond)) 2 3 := by
  refine ⟨⟨(3, [1, 2]), by decide, rfl, by decide⟩, ⟨[1, 2], by decide, by decide⟩,
    ⟨[3], by decide, by decide⟩⟩

/-- C03: a node's position is the length of the longest chain of senders leading to
it. -/
theorem C03_longest_chain (g : Graph α) (hg : Dict.WF g) (hc : ¬ HasCycle g) (i : Nat) (n : α) :
    At (queueOf (baseGraph g)) i n ↔ ChainTo g i n ∧ ∀ k, i < k → ¬ ChainTo g k n := by
  obtain ⟨_, _, h3, _⟩ := queue_ok g hg hc
  rw [h3]
  constructor
  · rintro ⟨h1, h2⟩; exact ⟨h1, fun k hk hck => h2 (chain_mono hck hk)⟩
  · rintro ⟨h1, h2⟩; exact ⟨h1, h2 _ (Nat.lt_succ_self i)⟩

/-- C03, as stated in the list: position 0 means no senders (other than itself), and a
node at position `k+1` has a sender at position `k`. -/
theorem C03_positions (g : Graph α) (hg : Dict.WF g) (hc : ¬ HasCycle g) (n : α) :
    (At (queueOf (baseGraph g)) 0 n ↔ IsNode g n ∧ ∀ s, Edge g s n → s = n) ∧
    ∀ k, At (queueOf (baseGraph g)) (k + 1) n →
      ∃ s, Edge g s n ∧ s ≠ n ∧ At (queueOf (baseGraph g)) k s := by
  obtain ⟨_, _, h3, _⟩ := queue_ok g hg hc
  constructor
  · rw [h3]
    constructor
    · rintro ⟨h1, h2⟩
      refine ⟨h1, fun s hs => Classical.byContradiction fun hne => ?_⟩
      have hp : ProperEdge g s n := ⟨hs, hne⟩
      exact h2 ⟨s, hp, (properEdge_isNode hp).1⟩
    · rintro ⟨h1, h2⟩
      refine ⟨h1, ?_⟩
      rintro ⟨s, hs, _⟩
      exact hs.2 (h2 s hs.1)
  · intro k hk
    obtain ⟨⟨s, hs, hcs⟩, h2⟩ := (h3 _ n).1 hk
    exact ⟨s, hs.1, hs.2, (h3 k s).2 ⟨hcs, fun hcs' => h2 ⟨s, hs, hcs'⟩⟩⟩

example : ChainTo diamond 2 3 ∧ ∀ k, 2 < k → ¬ ChainTo diamond k 3 := by
  have h : At (queueOf (baseGraph diamond)) 2 3 := ⟨[3], by decide, by decide⟩
  have hc : ¬ HasCycle diamond := by
    intro hn
    rcases toposort_spec diamond diamond_wf with ⟨_, _, _, _, _, h⟩ | ⟨h, _⟩
    · exact h hn
    · exact absurd h (by decide)
  exact (C03_longest_chain diamond diamond_wf hc 2 3).1 h

/-- C05: two presentations of the same graph give the same sets in the same order. -/
theorem C05_presentation (g h : Graph α) (hg : Dict.WF g) (hh : Dict.WF h)
    (he : SameGraph g h) (hc : ¬ HasCycle g) :
    SameQueue (queueOf (baseGraph g)) (queueOf (baseGraph h)) := by
  have hc' : ¬ HasCycle h := fun x => hc (he.cycle.2 x)
  obtain ⟨_, a2, a3, a4⟩ := queue_ok g hg hc
  obtain ⟨_, b2, b3, b4⟩ := queue_ok h hh hc'
  have hat : ∀ i n, At (queueOf (baseGraph g)) i n ↔ At (queueOf (baseGraph h)) i n := by
    intro i n; rw [a3, b3, he.chain, he.chain]
  refine ⟨?_, hat⟩
  have le : ∀ p q : List (List α), (∀ l ∈ p, l ≠ []) → (∀ i n, At p i n → At q i n) →
      p.length ≤ q.length := by
    intro p q hp hpq
    by_cases h0 : p.length = 0
    · omega
    · have hlast : p.length - 1 < p.length := by omega
      obtain ⟨n, hn⟩ := List.exists_mem_of_ne_nil _ (hp _ (List.getElem_mem hlast))
      obtain ⟨l, hl, _⟩ := hpq _ n ⟨_, List.getElem?_eq_getElem hlast, hn⟩
      have := (List.getElem?_eq_some_iff.1 hl).1
      omega
  exact Nat.le_antisymm (le _ _ (fun l hl => (a2 l hl).1) fun i n => (hat i n).1)
    (le _ _ (fun l hl => (b2 l hl).1) fun i n => (hat i n).2)

example : SameGraph ([(1, [0]), (2, [1, 0])] : Graph Nat) [(2, [0, 1]), (0, []), (1, [0])] := by
  have key : ∀ n s : Nat, (IsNode ([(1, [0]), (2, [1, 0])] : Graph Nat) n ↔
      IsNode [(2, [0, 1]), (0, []), (1, [0])] n) := by
    intro n s; simp [IsNode]; omega
  refine ⟨fun n => key n 0, ?_⟩
  intro s r; simp [Edge]; omega

/-- C56: `consideration_queue_indices` maps every node to the position of the set that
contains it, and has no other keys. -/
theorem C56_indices (g : Graph α) (hg : Dict.WF g) (hc : ¬ HasCycle g) (n : α) :
    (∀ i, At (queueOf (baseGraph g)) i n ↔
      Dict.get? (queueIndices (queueOf (baseGraph g))) n = some i) ∧
    (Dict.get? (queueIndices (queueOf (baseGraph g))) n = none ↔ ¬ IsNode g n) := by
  obtain ⟨_, _, h3, h4⟩ := queue_ok g hg hc
  obtain ⟨k1, k2, k3⟩ := queueIndices_fold (queueOf (baseGraph g)) 0 [] n
  have hu : ∀ i j, At (queueOf (baseGraph g)) i n → At (queueOf (baseGraph g)) j n → j = i := by
    intro i j hi hj
    have a1 := (h3 i n).1 hi
    have a2 := (h3 j n).1 hj
    exact (chain_max_unique a1.1 a1.2 a2.1 a2.2).symm
  have hfw : ∀ i, At (queueOf (baseGraph g)) i n →
      Dict.get? (queueIndices (queueOf (baseGraph g))) n = some i := by
    intro i hi
    have := k2 i hi (fun j hj => hu i j hi hj)
    rw [Nat.zero_add] at this
    exact this
  refine ⟨fun i => ⟨hfw i, ?_⟩, ?_⟩
  · intro h
    by_cases hx : ∃ j, At (queueOf (baseGraph g)) j n
    · obtain ⟨j, hj⟩ := hx
      have := hfw j hj
      rw [h] at this
      injection this with this
      subst this; exact hj
    · have : Dict.get? (queueIndices (queueOf (baseGraph g))) n = none :=
        k3 (fun i hi => hx ⟨i, hi⟩)
      rw [h] at this; simp at this
  · constructor
    · intro h hn
      obtain ⟨i, _, hi⟩ := chain_max _ hn (h4 n)
      exact k1 i ((h3 i n).2 hi) h
    · intro hn
      exact k3 (fun i hi => hn (chain_isNode ((h3 i n).1 hi).1))

example : Dict.get? (queueIndices (queueOf (baseGraph diamond))) 3 = some 2 := by decide

end GS.Props
