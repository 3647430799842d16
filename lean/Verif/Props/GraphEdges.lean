import Verif.GraphEdges
import Verif.Props.Structural
/-!
# Adding and removing single edges (C35)
-/

set_option linter.unusedSectionVars false

namespace GS.Props
open GS Spec
variable {α κ W : Type _} [DecidableEq α] [DecidableEq κ]
variable (cyc : Graph α → List (List α)) (mode : Mode) (base : Graph α) (st : Store α κ)
  (ow : OId → Option α) (ops : List (SchedOp α κ W)) (s : Stack α κ W)

theorem uses_new (ids : List OId) : Uses ids (Stack.new mode base st ow : Stack α κ W) :=
  ⟨fun c hc => by simp [Stack.new, Stack.push, CSet.empty] at hc,
   fun l hl => by simp [Stack.new, Stack.push] at hl⟩

/-- C35, `add_graph_edge`.  After any history without exceptions in which the graph is
`g`, for two different nodes: the call succeeds, and then the graph has the same nodes,
and the edges of `g` and the new one.  For other arguments it raises `ConditionError`.
(`o` is the identity of the new condition object; `g` is a dict.) -/
theorem C35_add (hq : Quiet (Stack.new mode base st ow) ops s) (g : Graph α)
    (hg : s.readGraph.2 = .ok g) (hw : Dict.WF g) (o : OId)
    (ho : ∀ e ∈ ops.flatMap SchedOp.adds, e.2.o ≠ o) (sender receiver : α) :
    (sender ≠ receiver ∧ sender ∈ Dict.keys g ∧ receiver ∈ Dict.keys g →
      ∃ s1 g1, s.addGraphEdge cyc o sender receiver = (s1, none) ∧ s1.readGraph.2 = .ok g1 ∧
        Dict.WF g1 ∧ Dict.keys g1 = Dict.keys g ∧
        ∀ x r, Edge g1 x r ↔ Edge g x r ∨ (x = sender ∧ r = receiver)) ∧
    (¬ (sender ≠ receiver ∧ sender ∈ Dict.keys g ∧ receiver ∈ Dict.keys g) →
      (s.addGraphEdge cyc o sender receiver).2 = some .conditionError) := by
  have hG := (GInv.new base mode st ow).quiet hq
  have hU : Uses ((ops.flatMap SchedOp.adds).map (·.2.o)) s :=
    (uses_new mode base st ow _).quiet (fun e he => List.mem_map.mpr ⟨e, he, rfl⟩) hq
  have hn : ((GSC.addEdgeTo receiver).toSCond cyc o).o ∉ (ops.flatMap SchedOp.adds).map (·.2.o) := by
    intro h
    obtain ⟨e, he, h⟩ := List.mem_map.mp h
    exact ho e he h
  constructor
  · rintro ⟨hne, h1, h2⟩
    have := added_graph hG hU hn (n := sender) (by simpa [GSC.toSCond, GSC.nodes] using hne) hg
    obtain ⟨g1, e, k⟩ := (addEdge_value cyc hw sender receiver).1 ⟨h1, h2⟩
    obtain ⟨s1, e1, e2⟩ := this.1 g1 e
    exact ⟨s1, g1, e1, e2, k⟩
  · intro h
    by_cases hne : sender = receiver
    · subst hne
      simp [Stack.addGraphEdge, Stack.addCondition, CSet.add, CSet.addStructural, GSC.toSCond, GSC.nodes]
    · have := added_graph hG hU hn (n := sender) (by simpa [GSC.toSCond, GSC.nodes] using hne) hg
      exact this.2 _ ((addEdge_value cyc hw sender receiver).2 fun h' => h ⟨hne, h'⟩)

/-- C35, `remove_graph_edge`: likewise, and the graph has the edges of `g` except the one
removed. -/
theorem C35_remove (hq : Quiet (Stack.new mode base st ow) ops s) (g : Graph α)
    (hg : s.readGraph.2 = .ok g) (hw : Dict.WF g) (o : OId)
    (ho : ∀ e ∈ ops.flatMap SchedOp.adds, e.2.o ≠ o) (sender receiver : α) :
    (sender ≠ receiver ∧ sender ∈ Dict.keys g ∧ receiver ∈ Dict.keys g →
      ∃ s1 g1, s.removeGraphEdge cyc o sender receiver = (s1, none) ∧ s1.readGraph.2 = .ok g1 ∧
        Dict.WF g1 ∧ Dict.keys g1 = Dict.keys g ∧
        ∀ x r, Edge g1 x r ↔ Edge g x r ∧ ¬ (x = sender ∧ r = receiver)) ∧
    (¬ (sender ≠ receiver ∧ sender ∈ Dict.keys g ∧ receiver ∈ Dict.keys g) →
      (s.removeGraphEdge cyc o sender receiver).2 = some .conditionError) := by
  have hG := (GInv.new base mode st ow).quiet hq
  have hU : Uses ((ops.flatMap SchedOp.adds).map (·.2.o)) s :=
    (uses_new mode base st ow _).quiet (fun e he => List.mem_map.mpr ⟨e, he, rfl⟩) hq
  have hn : ((GSC.removeEdgeFrom sender).toSCond cyc o).o ∉ (ops.flatMap SchedOp.adds).map (·.2.o) := by
    intro h
    obtain ⟨e, he, h⟩ := List.mem_map.mp h
    exact ho e he h
  constructor
  · rintro ⟨hne, h1, h2⟩
    have := added_graph hG hU hn (n := receiver)
      (by simpa [GSC.toSCond, GSC.nodes] using Ne.symm hne) hg
    obtain ⟨g1, e, k⟩ := (removeEdge_value cyc hw receiver sender).1 ⟨h2, h1⟩
    obtain ⟨s1, e1, e2⟩ := this.1 g1 e
    exact ⟨s1, g1, e1, e2, k⟩
  · intro h
    by_cases hne : sender = receiver
    · subst hne
      simp [Stack.removeGraphEdge, Stack.addCondition, CSet.add, CSet.addStructural, GSC.toSCond, GSC.nodes]
    · have := added_graph hG hU hn (n := receiver)
        (by simpa [GSC.toSCond, GSC.nodes] using Ne.symm hne) hg
      exact this.2 _ ((removeEdge_value cyc hw receiver sender).2 fun h' => h ⟨hne, h'.2, h'.1⟩)

theorem Quiet.snoc {s t u : Stack α κ W} {ops : List (SchedOp α κ W)} (h : Quiet s ops t)
    {op : SchedOp α κ W} (hc : op.call t = (u, none)) : Quiet s (ops ++ [op]) u := by
  induction h with
  | nil s => exact .cons hc (.nil _)
  | cons h _ ih => exact .cons h (ih hc)

/-- C35: adding an absent edge and removing it gives back the nodes and edges there were,
and so does removing a present edge and adding it. -/
theorem C35_undo (hq : Quiet (Stack.new mode base st ow) ops s) (g : Graph α)
    (hg : s.readGraph.2 = .ok g) (hw : Dict.WF g) (o o' : OId) (hoo : o ≠ o')
    (ho : ∀ e ∈ ops.flatMap SchedOp.adds, e.2.o ≠ o ∧ e.2.o ≠ o') (sender receiver : α)
    (hne : sender ≠ receiver) (h1 : sender ∈ Dict.keys g) (h2 : receiver ∈ Dict.keys g) :
    (¬ Edge g sender receiver → ∃ s1 s2 g2, s.addGraphEdge cyc o sender receiver = (s1, none) ∧
      s1.removeGraphEdge cyc o' sender receiver = (s2, none) ∧ s2.readGraph.2 = .ok g2 ∧
      Dict.keys g2 = Dict.keys g ∧ ∀ x r, Edge g2 x r ↔ Edge g x r) ∧
    (Edge g sender receiver → ∃ s1 s2 g2, s.removeGraphEdge cyc o sender receiver = (s1, none) ∧
      s1.addGraphEdge cyc o' sender receiver = (s2, none) ∧ s2.readGraph.2 = .ok g2 ∧
      Dict.keys g2 = Dict.keys g ∧ ∀ x r, Edge g2 x r ↔ Edge g x r) := by
  constructor
  · intro he
    obtain ⟨s1, g1, a1, a2, a3, a4, a5⟩ := (C35_add cyc mode base st ow ops s hq g hg hw o
      (fun e h => (ho e h).1) sender receiver).1 ⟨hne, h1, h2⟩
    obtain ⟨s2, g2, b1, b2, b3, b4, b5⟩ := (C35_remove cyc mode base st ow
      (ops ++ [.add sender (.structural ((GSC.addEdgeTo receiver).toSCond cyc o))]) s1
      (Quiet.snoc hq (op := .add sender (.structural ((GSC.addEdgeTo receiver).toSCond cyc o))) a1) g1 a2 a3 o' (by
        intro e h
        simp only [List.flatMap_append, List.flatMap_cons, List.flatMap_nil, List.append_nil,
          List.mem_append, SchedOp.adds, structEntries, List.mem_singleton] at h
        rcases h with h | rfl
        · exact (ho e h).2
        · exact hoo) sender receiver).1 ⟨hne, a4 ▸ h1, a4 ▸ h2⟩
    refine ⟨s1, s2, g2, a1, b1, b2, b4.trans a4, fun x r => ?_⟩
    rw [b5, a5]
    constructor
    · rintro ⟨h | h, h'⟩
      · exact h
      · exact absurd h h'
    · intro h
      refine ⟨.inl h, ?_⟩
      rintro ⟨rfl, rfl⟩
      exact he h
  · intro he
    obtain ⟨s1, g1, a1, a2, a3, a4, a5⟩ := (C35_remove cyc mode base st ow ops s hq g hg hw o
      (fun e h => (ho e h).1) sender receiver).1 ⟨hne, h1, h2⟩
    obtain ⟨s2, g2, b1, b2, b3, b4, b5⟩ := (C35_add cyc mode base st ow
      (ops ++ [.add receiver (.structural ((GSC.removeEdgeFrom sender).toSCond cyc o))]) s1
      (Quiet.snoc hq (op := .add receiver (.structural ((GSC.removeEdgeFrom sender).toSCond cyc o))) a1) g1 a2 a3 o' (by
        intro e h
        simp only [List.flatMap_append, List.flatMap_cons, List.flatMap_nil, List.append_nil,
          List.mem_append, SchedOp.adds, structEntries, List.mem_singleton] at h
        rcases h with h | rfl
        · exact (ho e h).2
        · exact hoo) sender receiver).1 ⟨hne, a4 ▸ h1, a4 ▸ h2⟩
    refine ⟨s1, s2, g2, a1, b1, b2, b4.trans a4, fun x r => ?_⟩
    rw [b5, a5]
    constructor
    · rintro (⟨h, _⟩ | ⟨rfl, rfl⟩)
      · exact h
      · exact he
    · intro h
      by_cases hx : x = sender ∧ r = receiver
      · exact .inr hx
      · exact .inl ⟨h, hx⟩

example : (someOps.flatMap SchedOp.adds).all (fun e => decide (e.2.o ≠ 7)) = true ∧
    (afterOps freshStack someOps).readGraph.2 = .ok [(0, []), (1, [0]), (2, [1])] ∧
    ((afterOps freshStack someOps).addGraphEdge (fun _ => []) 7 0 2).2 = none ∧
    ((afterOps freshStack someOps).addGraphEdge (fun _ => []) 7 0 2).1.readGraph.2 =
      .ok [(0, []), (1, [0]), (2, [1, 0])] ∧
    ((afterOps freshStack someOps).removeGraphEdge (fun _ => []) 7 1 2).1.readGraph.2 =
      .ok [(0, []), (1, [0]), (2, [])] := by decide +kernel

end GS.Props
