import Verif.UtilLemmas
/-!
# C46, C47: the graph functions of utilities.py
-/

set_option linter.unusedSectionVars false

namespace GS.Spec
variable {α : Type _}

/-- The dependencies a user wrote for a node, as a set. -/
def Writes : Deps α → α → Prop
  | .iter l, x => x ∈ l
  | .single y, x => x = y

end GS.Spec

namespace GS.Props
open Spec Relation
variable {α : Type _} [DecidableEq α]

/-- C46: `get_receivers(g)` has an entry for exactly the nodes of `g`, and the entry of
`s` is the set of the nodes that list `s` as a sender. -/
theorem C46_receivers (g : Graph α) (s : α) :
    (IsNode g s → ∃ l, Dict.get? (getReceivers g) s = some l ∧ ∀ r, r ∈ l ↔ Edge g s r) ∧
    (¬ IsNode g s → Dict.get? (getReceivers g) s = none) := by
  have hk := keys_getReceivers g s
  have hm := mem_getReceivers g s
  constructor
  · intro h
    have := Dict.get?_isSome.mpr (hk.mpr h)
    unfold Dict.getD at hm
    cases he : Dict.get? (getReceivers g) s with
    | none => rw [he] at this; cases this
    | some l => rw [he] at hm; exact ⟨l, rfl, hm⟩
  · intro h
    exact Dict.get?_eq_none.mpr fun hc => h (hk.mp hc)

/-- C46: the networkx graph has the same nodes, and `r` is a successor of `s` exactly if
`s` is a sender of `r`. -/
theorem C46_to_networkx (g : Graph α) (hg : Dict.WF g) :
    (∀ n, n ∈ Dict.keys (toNx g) ↔ IsNode g n) ∧
    ∀ s r, (∃ l, Dict.get? (toNx g) s = some l ∧ r ∈ l) ↔ Edge g s r := by
  refine ⟨keys_toNx g, fun s r => ?_⟩
  rw [← mem_toNx hg s r]
  unfold Dict.getD
  cases h : Dict.get? (toNx g) s <;> simp

/-- C46: converting to networkx and back gives the same graph, with an entry for every
node; without `add_missing` the edges are still the same. -/
theorem C46_round_trip (g : Graph α) (hg : Dict.WF g) :
    SameGraph (fromNx true (toNx g)) g ∧ (∀ n, n ∈ Dict.keys (fromNx true (toNx g)) ↔ IsNode g n) ∧
    ∀ s r, Edge (fromNx false (toNx g)) s r ↔ Edge g s r := by
  obtain ⟨h1, h2, h3⟩ := fromNx_spec true (nxOk_toNx hg)
  have hk : ∀ n, n ∈ Dict.keys (fromNx true (toNx g)) ↔ IsNode g n := by
    intro n
    rw [h3, keys_toNx]
    constructor
    · rintro (⟨s, hs⟩ | ⟨_, h⟩)
      · obtain ⟨p, hp, e, _⟩ := (mem_toNx hg s n).mp hs
        exact .inl ⟨p, hp, e⟩
      · exact h
    · exact fun h => .inr ⟨rfl, h⟩
  have he : ∀ s r, Edge (fromNx true (toNx g)) s r ↔ Edge g s r := fun s r => by
    rw [h2, mem_toNx hg]
  refine ⟨⟨fun n => ?_, he⟩, hk, fun s r => ?_⟩
  · constructor
    · rintro (h | ⟨p, hp, hn⟩)
      · exact (hk n).mp ((key_iff _ _).mpr h)
      · obtain ⟨q, hq, _, hn'⟩ := (he n p.1).mp ⟨p, hp, rfl, hn⟩
        exact .inr ⟨q, hq, hn'⟩
    · intro h
      exact .inl ((key_iff _ _).mp ((hk n).mpr h))
  · rw [(fromNx_spec false (nxOk_toNx hg)).2.1, mem_toNx hg]

/-- C46: `clone_graph` keeps the keys and gives every node exactly the
dependencies written for it. -/
theorem C46_clone (g : Dict α (Deps α)) (hg : Dict.WF g) (n : α) :
    (∀ d, Dict.get? g n = some d →
      ∃ l, Dict.get? (cloneRaw g) n = some l ∧ l.Nodup ∧ ∀ x, x ∈ l ↔ Writes d x) ∧
    (Dict.get? g n = none → Dict.get? (cloneRaw g) n = none) := by
  have h := get?_cloneRaw_fold g [] n hg
  constructor
  · intro d hd
    rw [hd] at h
    refine ⟨_, h, ?_, fun x => ?_⟩
    · cases d with
      | iter l => exact nodup_eraseDups' l
      | single y => simp [Deps.toSet]
    · cases d with
      | iter l => exact List.mem_eraseDups
      | single y => simp [Deps.toSet, Writes]
  · intro hd
    rw [hd] at h
    exact h

/-- C47: `m` is in `get_ancestors(g)[n]` exactly if it is a different node with a path to
`n`, and in `get_descendants(g)[n]` exactly if there is a path from `n` to it. -/
theorem C47_reachability (g : Graph α) (hg : Dict.WF g) (n : α) (hn : n ∈ Dict.keys g) :
    (∃ l, Dict.get? (getAncestors g) n = some l ∧ ∀ m, m ∈ l ↔ m ≠ n ∧ TransGen (Edge g) m n) ∧
    (∃ l, Dict.get? (getDescendants g) n = some l ∧
      ∀ m, m ∈ l ↔ m ≠ n ∧ TransGen (Edge g) n m) := by
  have ha := mem_ancestors hg hn
  have hd := mem_descendants hg hn
  unfold Dict.getD getAncestors at ha
  unfold Dict.getD getDescendants at hd
  unfold getAncestors getDescendants
  rw [get?_map_keys (Dict.keys g) (fun n => nxAncestors (toNx g) n), if_pos hn] at ha ⊢
  rw [get?_map_keys (Dict.keys g) (fun n => nxDescendants (toNx g) n), if_pos hn] at hd ⊢
  exact ⟨⟨_, rfl, ha⟩, ⟨_, rfl, hd⟩⟩

/-- C47: the two are converse relations. -/
theorem C47_converse (g : Graph α) (hg : Dict.WF g) (m n : α) (hm : m ∈ Dict.keys g)
    (hn : n ∈ Dict.keys g) :
    m ∈ Dict.getD (getAncestors g) n ↔ n ∈ Dict.getD (getDescendants g) m := by
  rw [mem_ancestors hg hn, mem_descendants hg hm]
  exact and_congr_left fun _ => ne_comm

/-- A graph with a cycle, a self-edge and a sender without an entry. -/
def utilGraph : Graph Nat := [(0, [1, 9]), (1, [0]), (2, [1, 2]), (3, [])]

example : Dict.WF utilGraph ∧ getReceivers utilGraph = [(0, [1]), (1, [0, 2]), (2, [2]), (3, []), (9, [0])] ∧
    Dict.get? (getAncestors utilGraph) 2 = some [0, 1, 9] ∧
    Dict.get? (getDescendants utilGraph) 0 = some [1, 2] ∧
    fromNx true (toNx utilGraph) = [(0, [1, 9]), (1, [0]), (2, [1, 2]), (3, []), (9, [])] := by
  decide +kernel

example : cloneRaw [(0, .iter [1, 1, 2]), (1, Deps.single 2)] = [(0, [1, 2]), (1, [2])] := by
  decide +kernel

end GS.Props
