import Verif.Props.Edits
import Verif.Props.GSCArgs
import Verif.Props.Conditions
import Verif.Props.EveryN
import Verif.Props.Restate
/-!
# Theorems about edits of the graph, options and conditions applied to concrete cases
-/

set_option linter.unusedSectionVars false

namespace GS.Props
open GS.Spec

/-! ## Edits of the graph -/

theorem someOps_graph : (afterOps freshStack someOps).readGraph.2 =
    .ok [(0, []), (1, [0]), (2, [1])] := by decide +kernel

theorem someOps_objects : ∀ e ∈ someOps.flatMap SchedOp.adds, e.2.o = 1 ∨ e.2.o = 2 ∨ e.2.o = 3 := by
  intro e he
  simp only [someOps, List.flatMap_cons, List.flatMap_nil, SchedOp.adds, structEntries,
    List.append_nil, List.nil_append, List.cons_append, List.mem_cons, List.not_mem_nil,
    or_false] at he
  rcases he with rfl | rfl | rfl <;> simp [addSenderTo]

/-- The edge from 0 to 2 is added twice. -/
example := C91_again_partial (fun _ => []) .standard threeNodes noOwners (fun _ => none) someOps _ someOps_quiet _ someOps_graph (by decide) 7 8
  (by decide) (fun e he => by rcases someOps_objects e he with h | h | h <;> rw [h] <;> decide)
  (.addEdgeTo 2) 0 trivial _ (Prod.ext rfl (by decide +kernel))

/-- One edge is added, one removed and added again. -/
def edgeCalls : List (OId × EdgeCall Nat) := [(7, ⟨true, 0, 2⟩), (8, ⟨false, 0, 1⟩), (9, ⟨true, 0, 1⟩)]

/-- The same with fewer calls in another order. -/
def fewerCalls : List (OId × EdgeCall Nat) := [(9, ⟨true, 0, 1⟩), (7, ⟨true, 0, 2⟩)]

theorem calls_fresh (l : List OId) (hl : ∀ o ∈ l, o = 7 ∨ o = 8 ∨ o = 9) :
    ∀ e ∈ someOps.flatMap SchedOp.adds, e.2.o ∉ l := by
  intro e he hm
  rcases someOps_objects e he with h | h | h <;> rw [h] at hm <;> have := hl _ hm <;> simp at this

example := C92_last_call_decides (fun _ => []) .standard threeNodes noOwners (fun _ => none) edgeCalls someOps _ someOps_quiet _
  someOps_graph (by decide) (by decide) (calls_fresh _ (by decide)) (by unfold Sensible; decide)

example : ∃ t1 t2 g1 g2, EdgeCalls (fun _ => []) (afterOps freshStack someOps) edgeCalls t1 ∧
    EdgeCalls (fun _ => []) (afterOps freshStack someOps) fewerCalls t2 ∧
    t1.readGraph.2 = .ok g1 ∧ t2.readGraph.2 = .ok g2 ∧ SameEdges g1 g2 := by
  have h1 : EdgeCalls (fun _ => []) (afterOps freshStack someOps) edgeCalls _ :=
    .add (Prod.ext rfl (by decide +kernel)) (.remove (Prod.ext rfl (by decide +kernel))
      (.add (Prod.ext rfl (by decide +kernel)) (.nil _)))
  have h2 : EdgeCalls (fun _ => []) (afterOps freshStack someOps) fewerCalls _ :=
    .add (Prod.ext rfl (by decide +kernel)) (.add (Prod.ext rfl (by decide +kernel)) (.nil _))
  obtain ⟨g1, g2, e1, e2, e3⟩ := C92_same_last_calls (fun _ => []) .standard threeNodes noOwners (fun _ => none) someOps _ someOps_quiet _ someOps_graph (by decide)
    edgeCalls fewerCalls (by decide) (by decide) (calls_fresh _ (by decide))
    (calls_fresh _ (by decide)) (by unfold Sensible; decide) (by unfold Sensible; decide)
    (by
      intro x r
      by_cases h1 : x = 0
      · subst h1
        by_cases h2 : r = 1
        · subst h2; decide
        · by_cases h3 : r = 2
          · subst h3; decide
          · simp [lastAbout, edgeCalls, fewerCalls, Ne.symm h2, Ne.symm h3]
      · simp [lastAbout, edgeCalls, fewerCalls, Ne.symm h1]) _ _ h1 h2
  exact ⟨_, _, g1, g2, h1, h2, e1, e2, e3⟩

/-- Adding the edge from 1 to 0 to the graph without edges leaves node 2 where it is. -/
theorem no_dependence : ¬ DependsOn threeNodes 0 2 := by
  rintro (h | h)
  · cases h
  · have he : ∀ x y, ¬ Edge threeNodes x y := by
      rintro x y ⟨p, hp, _, hx⟩
      have h0 : ∀ p ∈ threeNodes, p.2 = [] := by decide
      rw [h0 _ hp] at hx; cases hx
    cases h with
    | single h => exact he _ _ h
    | tail _ h => exact he _ _ h

example := C93_add_edge (fun _ => []) threeNodes noOwners (fun _ => none) someOps _ someOps_quiet someOps_oneOwner _ someOps_graph
  (by decide) (by
    rintro x r ⟨p, hp, _, hx⟩
    have h0 : ∀ p ∈ [(0, []), (1, [0]), (2, [1])], ∀ y ∈ p.2,
      y ∈ Dict.keys ([(0, []), (1, [0]), (2, [1])] : Graph Nat) := by decide
    exact h0 _ hp x hx) 7
  (fun e he => by rcases someOps_objects e he with h | h | h <;> rw [h] <;> decide) 0 2 _
  (Prod.ext rfl (by decide +kernel))

/-- The same graph with an edge from 1 to 0. -/
def oneEdge : Graph Nat := [(0, [1]), (1, []), (2, [])]

example : At (queueOf threeNodes) 0 2 ∧ At (queueOf oneEdge) 0 2 ∧ At (queueOf oneEdge) 1 0 := by
  refine ⟨⟨[0, 1, 2], by decide +kernel⟩, ⟨[1, 2], by decide +kernel⟩, ⟨[0], by decide +kernel⟩⟩

theorem oneEdge_edge (y q : Nat) : Edge oneEdge y q ↔ Edge threeNodes y q ∨ (y = 1 ∧ q = 0) := by
  simp [Edge, oneEdge, threeNodes]
  exact ⟨fun h => ⟨h.2, h.1.symm⟩, fun h => ⟨h.2.symm, h.1⟩⟩

theorem oneEdge_closed (x r : Nat) (h : Edge oneEdge x r) : x ∈ Dict.keys oneEdge := by
  obtain ⟨p, hp, _, hx⟩ := h
  have h0 : ∀ p ∈ oneEdge, ∀ y ∈ p.2, y ∈ Dict.keys oneEdge := by decide
  exact h0 p hp x hx

example := C93_others_stay threeNodes oneEdge (by decide) (by decide) (by decide) 1 0 oneEdge_edge
  oneEdge_closed 2 no_dependence 0 0 ⟨[0, 1, 2], by decide +kernel⟩ ⟨[1, 2], by decide +kernel⟩

example := C93_more_edges threeNodes oneEdge (by decide) (by decide) (by decide)
  (fun x r h => (oneEdge_edge x r).mpr (.inl h)) oneEdge_closed 0 0 1
  ⟨[0, 1, 2], by decide +kernel⟩ ⟨[0], by decide +kernel⟩

/-! ## Conditions -/

/-- `NWhen(Always(), 2)` evaluated three times. -/
theorem threeEvals : ∃ st, NHistory 0 (.leaf 1 .always : Cond Nat Nat Unit) 2 nwhenDemo.store
    [⟨none, .ok true, .ok true⟩, ⟨none, .ok true, .ok true⟩, ⟨none, .ok true, .ok false⟩] st :=
  ⟨_, .eval nwhenDemo.toView none (.eval nwhenDemo.toView none (.eval nwhenDemo.toView none .new))⟩

example := C24_first_n threeEvals.choose_spec (fun e => by cases e) (fun _ => rfl)
  (pre := [⟨none, .ok true, .ok true⟩]) (e := ⟨none, .ok true, .ok true⟩)
  (post := [⟨none, .ok true, .ok false⟩]) rfl

example := C24_at_most_n threeEvals.choose_spec (fun e => by cases e) (fun _ => rfl) none

example := C24_then_false threeEvals.choose_spec (fun e => by cases e) (fun _ => rfl)
  (pre := [⟨none, .ok true, .ok true⟩, ⟨none, .ok true, .ok true⟩])
  (e := ⟨none, .ok true, .ok false⟩) (post := []) rfl (by decide)

theorem demo_extends : (demoAfter 7).1 <+: (demoAfter 40).1 := by
  obtain ⟨s, h1⟩ : ∃ s, demo.start demoArgs = (s, .ok false) :=
    ⟨(demo.start demoArgs).1, Prod.ext rfl demo_start⟩
  unfold demoAfter exec
  rw [h1]
  dsimp only
  rw [show 40 = 7 + 33 from rfl, steps_add]
  exact steps_extend _ _ _ _ _ _

example := C26_after_stays (o := 0) (d := 0) (n := 1) (demo_reach (fun _ _ => False) 7)
  (demo_reach (fun _ _ => False) 40) demo_extends (fun _ _ h => h.elim) (fun _ _ h => h.elim)
  (by unfold Evaluates; decide +kernel)

example := C26_after_call_stays (o := 0) (d := 0) (n := 1) (demo_reach (fun _ _ => False) 40)
  (demo_reach (fun _ _ => False) 40) (List.prefix_refl _) (fun _ _ h => h.elim) (fun _ _ h => h.elim)
  (by unfold Evaluates; decide +kernel)

/-! ## Options of structural conditions -/

example := C87_meaning (cls := .beforeNodes) argDicts_wf (fun h => by cases h) (fun h => by cases h)
  (by intro d e; cases e; decide +kernel) (fun d e => by cases e) argOpts_means

example := C89_independent argDicts_wf (cls := .beforeNodes) (nodes := [1, 2]) (o := argOpts) rfl
  [] (fun _ => []) 3 gscGraph

example := C89_dicts_partial argDicts_wf [] 0

/-- `WithNode(1, 2)` is rejected. -/
example := C88_kind (H := fun _ => []) (fun _ => List.nodup_nil) (cls := .withNode) (nodes := [1, 2])
  (o := ({} : Opts)) rfl

end GS.Props
