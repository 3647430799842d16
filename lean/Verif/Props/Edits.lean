import Verif.Spec.Edits
import Verif.Props.GSC
import Verif.Props.GraphEdges
import Verif.Props.Placed
/-!
# Changing a graph once, twice, and edge by edge (C91, C92, C93)
-/

set_option linter.unusedSectionVars false

namespace GS.Props
open GS Spec
variable {α κ W : Type _} [DecidableEq α] [DecidableEq κ]
variable (cyc : Graph α → List (List α)) (mode : Mode) (base : Graph α) (st : Store α κ)
  (ow : OId → Option α) (ops : List (SchedOp α κ W)) (s : Stack α κ W)

/-! ## C91 -/

theorem onValue_keys {d : GSC α} {owner : α} {g g1 : Graph α} (hw : Dict.WF g) (ho : owner ∉ d.nodes)
    (h : d.onValue cyc owner g = .ok g1) : Dict.WF g1 ∧ Dict.keys g1 = Dict.keys g := by
  unfold GSC.onValue at h
  cases e : d.modifyGraph cyc owner (HG.load g) with
  | error e' => rw [e] at h; cases h
  | ok t =>
    rw [e] at h; cases h
    have := (C39_argument cyc owner (HG.load g) d t (HG.load_ok hw) ho e).1
    rw [HG.load_value] at this
    refine ⟨?_, this⟩
    unfold Dict.WF
    rw [this]; exact hw

theorem inGraph_onValue {d : GSC α} {owner : α} {g g1 : Graph α}
    (h : d.onValue cyc owner g = .ok g1) : owner ∈ Dict.keys g ∧ ∀ n ∈ d.nodes, n ∈ Dict.keys g := by
  unfold GSC.onValue at h
  cases e : d.modifyGraph cyc owner (HG.load g) with
  | error e' => rw [e] at h; cases h
  | ok t =>
    unfold GSC.modifyGraph at e
    cases hg : d.inGraph owner (HG.load g) with
    | false => rw [hg] at e; simp at e
    | true =>
      simp only [GSC.inGraph, List.all_cons, Bool.and_eq_true, decide_eq_true_eq,
        List.all_eq_true, HG.keys_load] at hg
      exact hg

/-- A built-in condition applied twice, on values. -/
theorem onValue_again {d : GSC α} {owner : α} {g g1 : Graph α} (hw : Dict.WF g)
    (ho : owner ∉ d.nodes) (hl : OnceIsEnough d owner g) (h : d.onValue cyc owner g = .ok g1) :
    ∃ g2, d.onValue cyc owner g1 = .ok g2 ∧ SameEdges g2 g1 := by
  obtain ⟨hin, hns⟩ := inGraph_onValue cyc h
  obtain ⟨hw1, hk1⟩ := onValue_keys cyc hw ho h
  cases d with
  | addEdgeTo n =>
    obtain ⟨g', e1, _, e3, e4⟩ := (addEdge_value cyc hw owner n).1 ⟨hin, hns n (by simp [GSC.nodes])⟩
    rw [h] at e1; cases e1
    obtain ⟨g2, e5, _, e7, e8⟩ := (addEdge_value cyc hw1 owner n).1
      ⟨hk1 ▸ hin, hk1 ▸ hns n (by simp [GSC.nodes])⟩
    refine ⟨g2, e5, e7, fun x r => ?_⟩
    rw [e8, e4]
    exact ⟨fun h => h.elim id .inr, .inl⟩
  | removeEdgeFrom n =>
    obtain ⟨g', e1, _, e3, e4⟩ := (removeEdge_value cyc hw owner n).1 ⟨hin, hns n (by simp [GSC.nodes])⟩
    rw [h] at e1; cases e1
    obtain ⟨g2, e5, _, e7, e8⟩ := (removeEdge_value cyc hw1 owner n).1
      ⟨hk1 ▸ hin, hk1 ▸ hns n (by simp [GSC.nodes])⟩
    refine ⟨g2, e5, e7, fun x r => ?_⟩
    rw [e8, e4]
    exact ⟨fun h => h.1, fun h => ⟨h, h.2⟩⟩
  | reposition c =>
    obtain ⟨hc, hl⟩ := hl
    unfold GSC.onValue at h
    cases e : (GSC.reposition c).modifyGraph cyc owner (HG.load g) with
    | error e' => rw [e] at h; cases h
    | ok t =>
      rw [e] at h; cases h
      have hp : AlreadyPlaced c owner t.value := by
        intro n hn
        cases hk : c.kind with
        | before =>
          rw [hk] at hl
          exact (C36_before_partial cyc c owner (HG.load g) t (HG.load_ok hw) hk hc hl e n hn).1
        | after => exact (C37_after cyc c owner (HG.load g) t (HG.load_ok hw) hk hc e n hn).1
        | withNode =>
          rw [hk] at hl
          obtain ⟨m, hm, _⟩ := hc.withNode hk
          have hnm : n = m := by rw [hm] at hn; simpa using hn
          subst hnm
          intro x
          exact ((C38_with cyc c owner (HG.load g) t (HG.load_ok hw) hk hc n hm
            (by rw [HG.load_value]; exact hl.1) (by rw [HG.load_value]; exact hl.2 n hn) e).1 x).symm
      obtain ⟨u, hu, hv⟩ := C36_unchanged cyc c owner (HG.load t.value) (HG.load_ok hw1)
        (by rw [HG.keys_load, hk1]; exact hin) (fun n hn => by rw [HG.keys_load, hk1]; exact hns n hn) hc
        (by rw [HG.load_value]; exact hp)
      refine ⟨u.value, ?_, ?_⟩
      · unfold GSC.onValue; rw [hu]
      · rw [hv, HG.load_value]; exact ⟨rfl, fun _ _ => Iff.rfl⟩

/-- What an added built-in condition makes of the graph. -/
theorem added_builtIn (hq : Quiet (Stack.new mode base st ow) ops s) (g : Graph α)
    (hg : s.readGraph.2 = .ok g) (o : OId) (ho : ∀ e ∈ ops.flatMap SchedOp.adds, e.2.o ≠ o)
    (d : GSC α) (owner : α) (hd : owner ∉ d.nodes) :
    (∀ g', d.onValue cyc owner g = .ok g' → ∃ s1,
      s.addCondition owner (.structural (d.toSCond cyc o)) = (s1, none) ∧ s1.readGraph.2 = .ok g') ∧
    (∀ e, d.onValue cyc owner g = .error e →
      (s.addCondition owner (.structural (d.toSCond cyc o))).2 = some e) := by
  have hG := (GInv.new base mode st ow).quiet hq
  have hU : Uses ((ops.flatMap SchedOp.adds).map (·.2.o)) s :=
    (uses_new mode base st ow _).quiet (fun e he => List.mem_map.mpr ⟨e, he, rfl⟩) hq
  have hn : (d.toSCond cyc o).o ∉ (ops.flatMap SchedOp.adds).map (·.2.o) := by
    intro h
    obtain ⟨e, he, h⟩ := List.mem_map.mp h
    exact ho e he h
  exact added_graph hG hU hn (n := owner) hd hg

theorem owner_apart {s s1 : Stack α κ W} {d : GSC α} {owner : α} {o : OId}
    (h : s.addCondition owner (.structural (d.toSCond cyc o)) = (s1, none)) : owner ∉ d.nodes := by
  intro hm
  have : owner ∈ (d.toSCond cyc o).nodes := hm
  simp [Stack.addCondition, CSet.add, CSet.addStructural, this] at h

/-- C91: after any history without exceptions in which the graph is `g`, adding a built-in
structural condition and then another one like it for the same owner: if the first addition
succeeds so does the second, and it changes neither nodes nor edges.  What is missing: the
conditions excluded by `Spec.OnceIsEnough`, for which `C91_not_again` shows that the claim is
false. -/
theorem C91_again_partial (hq : Quiet (Stack.new mode base st ow) ops s) (g : Graph α)
    (hg : s.readGraph.2 = .ok g) (hw : Dict.WF g) (o o' : OId) (hoo : o ≠ o')
    (ho : ∀ e ∈ ops.flatMap SchedOp.adds, e.2.o ≠ o ∧ e.2.o ≠ o') (d : GSC α) (owner : α)
    (hl : OnceIsEnough d owner g) (s1 : Stack α κ W)
    (h : s.addCondition owner (.structural (d.toSCond cyc o)) = (s1, none)) :
    ∃ g1 s2 g2, s1.readGraph.2 = .ok g1 ∧
      s1.addCondition owner (.structural (d.toSCond cyc o')) = (s2, none) ∧
      s2.readGraph.2 = .ok g2 ∧ SameEdges g2 g1 := by
  have hd := owner_apart cyc h
  obtain ⟨a1, a2⟩ := added_builtIn cyc mode base st ow ops s hq g hg o (fun e he => (ho e he).1) d owner hd
  cases e : d.onValue cyc owner g with
  | error e' => have := a2 e' e; rw [h] at this; cases this
  | ok g1 =>
    obtain ⟨s1', b1, b2⟩ := a1 g1 e
    rw [h] at b1; cases b1
    obtain ⟨g2, c1, c2⟩ := onValue_again cyc hw hd hl e
    obtain ⟨s2, d1, d2⟩ := (added_builtIn cyc mode base st ow
      (ops ++ [.add owner (.structural (d.toSCond cyc o))]) s1
      (Quiet.snoc hq (op := .add owner (.structural (d.toSCond cyc o))) h) g1 b2 o' (by
        intro e he
        simp only [List.flatMap_append, List.flatMap_cons, List.flatMap_nil, List.append_nil,
          List.mem_append, SchedOp.adds, structEntries, List.mem_singleton] at he
        rcases he with he | rfl
        · exact (ho e he).2
        · exact hoo) d owner hd).1 g2 c1
    exact ⟨g1, s2, g2, b2, d1, d2, c2⟩

/-- `BeforeNodes(1, owner_senders=KEEP, subject_senders=REPLACE,
subject_receivers=INVERSE_DIFFERENCE, prune_cycles=False)`. -/
def gscRestless : OpCond Nat :=
  { gscAliased with subjectReceivers := fun _ => .inverseDifference, prune := false }

/-- C91 as stated is false: with these options the second condition acts again. -/
theorem C91_not_again (cyc : Graph Nat → List (List Nat)) :
    Constructible gscRestless 3 ∧
    ∃ t u, (GSC.reposition gscRestless).onValue cyc 3 [(0, []), (1, [0]), (2, [1, 3]), (3, [0])] = .ok t ∧
      (GSC.reposition gscRestless).onValue cyc 3 t = .ok u ∧ ¬ SameEdges u t := by
  refine ⟨⟨by decide, fun h => by cases h⟩, [(0, []), (1, [0]), (2, [3]), (3, [0])],
    [(0, []), (1, [0]), (2, [3, 1]), (3, [0])], by rfl, by rfl, fun h => ?_⟩
  obtain ⟨p, hp, h1, h2⟩ := (h.edges 1 2).mp ⟨(2, [3, 1]), by decide, rfl, by decide⟩
  revert p; decide

/-- `WithNode(1, owner_receivers=REPLACE, subject_receivers=REPLACE, prune_cycles=False,
ignore_conflicts=True)`. -/
def gscWithReplace : OpCond Nat :=
  { kind := .withNode, nodes := [1], ownerSenders := .merge, ownerReceivers := .replace,
    subjectSenders := fun _ => .merge, subjectReceivers := fun _ => .replace, prune := false,
    ignoreConflicts := true }

/-- Nor does it hold for `WithNode` and a subject with a self-edge. -/
theorem C91_not_again_with (cyc : Graph Nat → List (List Nat)) :
    Constructible gscWithReplace 0 ∧
    ∃ t u, (GSC.reposition gscWithReplace).onValue cyc 0 [(0, []), (1, [1])] = .ok t ∧
      (GSC.reposition gscWithReplace).onValue cyc 0 t = .ok u ∧ ¬ SameEdges u t := by
  refine ⟨⟨by decide, fun _ => ⟨1, rfl, rfl, rfl⟩⟩, [(0, []), (1, [0])],
    [(0, []), (1, [])], by rfl, by rfl, fun h => ?_⟩
  obtain ⟨p, hp, h1, h2⟩ := (h.edges 0 1).mpr ⟨(1, [0]), by decide, rfl, by decide⟩
  revert p; decide

/-- C38: that there are no self-edges is needed.  With the default options, and with an owner
that has a self-edge, `WithNode` does not bring its subject to the owner's consideration set. -/
theorem C38_self_edge (cyc : Graph Nat → List (List Nat)) :
    Constructible { gscWith with nodes := [1] } 0 ∧
    ∃ t, (GSC.reposition { gscWith with nodes := [1] }).onValue cyc 0 [(0, [0]), (1, [0])] = .ok t ∧
      queueOf t = [[0], [1]] := by
  refine ⟨⟨by decide, fun _ => ⟨1, rfl, rfl, rfl⟩⟩, [(0, [0]), (1, [0])], by rfl, by decide +kernel⟩

example : OnceIsEnough (.reposition gscBefore) 3 [(0, []), (1, [0]), (2, [1]), (3, [0])] ∧
    ((afterOps freshStack someOps).addCondition 2 (.structural ((GSC.addEdgeTo 0).toSCond (fun _ => []) 7))).2 =
      none :=
  ⟨⟨⟨by decide, fun h => by cases h⟩, .inl (.inl (by decide))⟩, by decide +kernel⟩

/-! ## C92 -/

theorem lastAbout_cons (c : EdgeCall α) (l : List (EdgeCall α)) (x r : α) :
    lastAbout (c :: l) x r = (lastAbout l x r).or
      (if c.sender = x ∧ c.receiver = r then some c else none) := by
  unfold lastAbout
  rw [List.filter_cons]
  by_cases hc : c.sender = x ∧ c.receiver = r
  · rw [if_pos (by simpa using hc), if_pos hc, List.getLast?_cons]
    cases (List.filter (fun c => decide (c.sender = x ∧ c.receiver = r)) l).getLast? <;> rfl
  · rw [if_neg (by simpa using hc), if_neg hc, Option.or_none]

theorem byLastCall_cons {c : EdgeCall α} {l : List (EdgeCall α)} {g g1 : Graph α}
    (h : ∀ x r, Edge g1 x r ↔ if c.sender = x ∧ c.receiver = r then c.add = true else Edge g x r) (x r : α) :
    ByLastCall l g1 x r ↔ ByLastCall (c :: l) g x r := by
  unfold ByLastCall
  rw [lastAbout_cons]
  cases lastAbout l x r with
  | some d => rfl
  | none =>
    simp only [Option.none_or]
    rw [h]
    split <;> rfl

/-- C92: after any history without exceptions in which the graph is `g`, any sequence of
`add_graph_edge` and `remove_graph_edge` for nodes of the graph succeeds; the nodes stay
the same, and for every edge the last call about it decides whether it is there. -/
theorem C92_last_call_decides (calls : List (OId × EdgeCall α)) :
    ∀ (ops : List (SchedOp α κ W)) (s : Stack α κ W) (_ : Quiet (Stack.new mode base st ow) ops s)
      (g : Graph α) (_ : s.readGraph.2 = .ok g) (_ : Dict.WF g)
      (_ : (calls.map Prod.fst).Nodup)
      (_ : ∀ e ∈ ops.flatMap SchedOp.adds, e.2.o ∉ calls.map Prod.fst)
      (_ : Sensible g (calls.map Prod.snd)),
    ∃ t g1, EdgeCalls cyc s calls t ∧ t.readGraph.2 = .ok g1 ∧ Dict.WF g1 ∧
      Dict.keys g1 = Dict.keys g ∧ ∀ x r, Edge g1 x r ↔ ByLastCall (calls.map Prod.snd) g x r := by
  induction calls with
  | nil =>
    intro ops s hq g hg hw _ _ _
    exact ⟨s, g, .nil s, hg, hw, rfl, fun _ _ => Iff.rfl⟩
  | cons c l ih =>
    intro ops s hq g hg hw hnd hfr hse
    obtain ⟨o, add, x, r⟩ := c
    simp only [List.map_cons, List.nodup_cons] at hnd
    have hse0 := hse ⟨add, x, r⟩ (by simp)
    have hfr0 : ∀ e ∈ ops.flatMap SchedOp.adds, e.2.o ≠ o := by
      intro e he h
      exact hfr e he (by simp [h])
    cases add with
    | true =>
      obtain ⟨s1, g1, a1, a2, a3, a4, a5⟩ := (C35_add cyc mode base st ow ops s hq g hg hw o hfr0 x r).1 hse0
      obtain ⟨t, g2, b1, b2, b3, b4, b5⟩ := ih
        (ops ++ [.add x (.structural ((GSC.addEdgeTo r).toSCond cyc o))]) s1
        (Quiet.snoc hq (op := .add x (.structural ((GSC.addEdgeTo r).toSCond cyc o))) a1) g1 a2 a3
        hnd.2 (by
          intro e he
          simp only [List.flatMap_append, List.flatMap_cons, List.flatMap_nil, List.append_nil,
            List.mem_append, SchedOp.adds, structEntries, List.mem_singleton] at he
          rcases he with he | rfl
          · exact fun h => hfr e he (by simp only [List.map_cons]; exact List.mem_cons_of_mem _ h)
          · exact hnd.1)
        (fun d hd => by rw [a4]; exact hse d (by simp only [List.map_cons]; exact List.mem_cons_of_mem _ hd))
      refine ⟨t, g2, .add a1 b1, b2, b3, b4.trans a4, fun y q => ?_⟩
      rw [b5, List.map_cons]
      refine byLastCall_cons (c := ⟨true, x, r⟩) (fun y q => ?_) y q
      rw [a5]
      by_cases h : x = y ∧ r = q
      · simp [h]
      · rw [if_neg h]
        exact ⟨fun h' => h'.elim id fun e => absurd ⟨e.1.symm, e.2.symm⟩ h, .inl⟩
    | false =>
      obtain ⟨s1, g1, a1, a2, a3, a4, a5⟩ := (C35_remove cyc mode base st ow ops s hq g hg hw o hfr0 x r).1 hse0
      obtain ⟨t, g2, b1, b2, b3, b4, b5⟩ := ih
        (ops ++ [.add r (.structural ((GSC.removeEdgeFrom x).toSCond cyc o))]) s1
        (Quiet.snoc hq (op := .add r (.structural ((GSC.removeEdgeFrom x).toSCond cyc o))) a1) g1 a2 a3
        hnd.2 (by
          intro e he
          simp only [List.flatMap_append, List.flatMap_cons, List.flatMap_nil, List.append_nil,
            List.mem_append, SchedOp.adds, structEntries, List.mem_singleton] at he
          rcases he with he | rfl
          · exact fun h => hfr e he (by simp only [List.map_cons]; exact List.mem_cons_of_mem _ h)
          · exact hnd.1)
        (fun d hd => by rw [a4]; exact hse d (by simp only [List.map_cons]; exact List.mem_cons_of_mem _ hd))
      refine ⟨t, g2, .remove a1 b1, b2, b3, b4.trans a4, fun y q => ?_⟩
      rw [b5, List.map_cons]
      refine byLastCall_cons (c := ⟨false, x, r⟩) (fun y q => ?_) y q
      rw [a5]
      by_cases h : x = y ∧ r = q
      · simp [h]
      · rw [if_neg h]
        exact ⟨fun h' => h'.1, fun h' => ⟨h', fun e => h ⟨e.1.symm, e.2.symm⟩⟩⟩

theorem edgeCalls_det {s t u : Stack α κ W} {calls : List (OId × EdgeCall α)}
    (h : EdgeCalls cyc s calls t) (h' : EdgeCalls cyc s calls u) : t = u := by
  induction h with
  | nil => cases h'; rfl
  | add h _ ih =>
    cases h' with
    | add k k' => rw [h] at k; cases k; exact ih k'
  | remove h _ ih =>
    cases h' with
    | remove k k' => rw [h] at k; cases k; exact ih k'

/-- C92: so two sequences of calls with the same last call for every edge lead to the same
graph. -/
theorem C92_same_last_calls (hq : Quiet (Stack.new mode base st ow) ops s) (g : Graph α)
    (hg : s.readGraph.2 = .ok g) (hw : Dict.WF g) (c1 c2 : List (OId × EdgeCall α))
    (n1 : (c1.map Prod.fst).Nodup) (n2 : (c2.map Prod.fst).Nodup)
    (f1 : ∀ e ∈ ops.flatMap SchedOp.adds, e.2.o ∉ c1.map Prod.fst)
    (f2 : ∀ e ∈ ops.flatMap SchedOp.adds, e.2.o ∉ c2.map Prod.fst)
    (e1 : Sensible g (c1.map Prod.snd)) (e2 : Sensible g (c2.map Prod.snd))
    (hl : ∀ x r, lastAbout (c1.map Prod.snd) x r = lastAbout (c2.map Prod.snd) x r)
    (t1 t2 : Stack α κ W) (h1 : EdgeCalls cyc s c1 t1) (h2 : EdgeCalls cyc s c2 t2) :
    ∃ g1 g2, t1.readGraph.2 = .ok g1 ∧ t2.readGraph.2 = .ok g2 ∧ SameEdges g1 g2 := by
  obtain ⟨t1', g1, a1, a2, _, a4, a5⟩ := C92_last_call_decides cyc mode base st ow c1 ops s hq g hg hw n1 f1 e1
  obtain ⟨t2', g2, b1, b2, _, b4, b5⟩ := C92_last_call_decides cyc mode base st ow c2 ops s hq g hg hw n2 f2 e2
  cases edgeCalls_det cyc h1 a1
  cases edgeCalls_det cyc h2 b1
  refine ⟨g1, g2, a2, b2, a4.trans b4.symm, fun x r => ?_⟩
  rw [a5, b5]
  unfold ByLastCall
  rw [hl]

/-- C92: in particular, calls about different edges can be made in any order. -/
theorem C92_any_order (hq : Quiet (Stack.new mode base st ow) ops s) (g : Graph α)
    (hg : s.readGraph.2 = .ok g) (hw : Dict.WF g) (c1 c2 : List (OId × EdgeCall α)) (hp : c1.Perm c2)
    (n1 : (c1.map Prod.fst).Nodup)
    (f1 : ∀ e ∈ ops.flatMap SchedOp.adds, e.2.o ∉ c1.map Prod.fst)
    (e1 : Sensible g (c1.map Prod.snd))
    (hd : (c1.map fun c => (c.2.sender, c.2.receiver)).Nodup)
    (t1 t2 : Stack α κ W) (h1 : EdgeCalls cyc s c1 t1) (h2 : EdgeCalls cyc s c2 t2) :
    ∃ g1 g2, t1.readGraph.2 = .ok g1 ∧ t2.readGraph.2 = .ok g2 ∧ SameEdges g1 g2 := by
  refine C92_same_last_calls cyc mode base st ow ops s hq g hg hw c1 c2 n1
    ((hp.map _).nodup_iff.mp n1) f1 (fun e he => fun h => f1 e he ((hp.map _).mem_iff.mpr h)) e1
    (fun c hc => e1 c ((hp.map _).mem_iff.mpr hc)) (fun x r => ?_) t1 t2 h1 h2
  have key : ∀ l : List (OId × EdgeCall α), (l.map fun c => (c.2.sender, c.2.receiver)).Nodup →
      ((l.map Prod.snd).filter fun c => c.sender = x ∧ c.receiver = r).length ≤ 1 := by
    intro l
    induction l with
    | nil => intro _; simp
    | cons c l ih =>
      intro hn
      simp only [List.map_cons, List.nodup_cons] at hn
      rw [List.map_cons, List.filter_cons]
      split
      · next hc =>
        have : (l.map Prod.snd).filter (fun c => decide (c.sender = x ∧ c.receiver = r)) = [] := by
          rw [List.filter_eq_nil_iff]
          intro d hd hdx
          obtain ⟨e, he, rfl⟩ := List.mem_map.mp hd
          refine hn.1 (List.mem_map.mpr ⟨e, he, ?_⟩)
          simp only [decide_eq_true_eq] at hc hdx
          rw [hc.1, hc.2, hdx.1, hdx.2]
        rw [this]; simp
      · exact ih hn.2
  have hf := (hp.map Prod.snd).filter (fun c : EdgeCall α => decide (c.sender = x ∧ c.receiver = r))
  have k1 := key c1 hd
  unfold lastAbout
  generalize (c1.map Prod.snd).filter (fun c : EdgeCall α => decide (c.sender = x ∧ c.receiver = r)) = l1 at *
  generalize (c2.map Prod.snd).filter (fun c : EdgeCall α => decide (c.sender = x ∧ c.receiver = r)) = l2 at *
  match l1, k1, hf with
  | [], _, hf => rw [List.nil_perm.mp hf]
  | [a], _, hf => rw [List.singleton_perm.mp hf]

example : Sensible [(0, []), (1, [0]), (2, [1])] [⟨true, 0, 2⟩, ⟨false, 0, 1⟩, ⟨true, 0, 1⟩] ∧
    lastAbout [⟨true, 0, 2⟩, ⟨false, 0, 1⟩, ⟨true, 0, 1⟩] 0 1 = some ⟨true, 0, 1⟩ := by
  constructor
  · unfold Sensible; decide
  · decide

/-! ## C93 -/

theorem chain_more {g g1 : Graph α} (hn : ∀ n, IsNode g n → IsNode g1 n)
    (he : ∀ x r, Edge g x r → Edge g1 x r) : ∀ k n, ChainTo g k n → ChainTo g1 k n
  | 0, n, h => hn n h
  | k + 1, _, ⟨x, h1, h2⟩ => ⟨x, ⟨he _ _ h1.1, h1.2⟩, chain_more hn he k x h2⟩

theorem isNode_of {g g1 : Graph α} (hk : Dict.keys g = Dict.keys g1)
    (hcl : ∀ x r, Edge g1 x r → x ∈ Dict.keys g1) {n : α} (h : IsNode g1 n) : IsNode g n := by
  refine .inl ((key_iff g n).mp ?_)
  rw [hk]
  rcases h with h | ⟨p, hp, hm⟩
  · exact (key_iff g1 n).mpr h
  · exact hcl n p.1 ⟨p, hp, rfl, hm⟩

/-- C93: more edges between the same nodes move no node to an earlier consideration set. -/
theorem C93_more_edges (g g1 : Graph α) (hw : Dict.WF g) (hw1 : Dict.WF g1)
    (hk : Dict.keys g = Dict.keys g1) (he : ∀ x r, Edge g x r → Edge g1 x r)
    (hcl : ∀ x r, Edge g1 x r → x ∈ Dict.keys g1)
    (n : α) (i j : Nat) (hi : At (queueOf g) i n) (hj : At (queueOf g1) j n) : i ≤ j := by
  have a := (queue_at hw (acyclic_of_at hw hi) i n).mp hi
  have b := (queue_at hw1 (acyclic_of_at hw1 hj) j n).mp hj
  apply Nat.le_of_not_lt
  intro hlt
  refine b.2 (chain_mono (chain_more (fun m hm => ?_) he i n a.1) hlt)
  exact isNode_of hk.symm (fun x r h => by rw [hk]; exact hcl x r (he x r h)) hm

theorem chain_less {g g1 : Graph α} {x r : α} (hn : ∀ n, IsNode g1 n → IsNode g n)
    (he : ∀ y q, Edge g1 y q ↔ Edge g y q ∨ (y = x ∧ q = r)) :
    ∀ k n, ¬ DependsOn g r n → ChainTo g1 k n → ChainTo g k n
  | 0, n, _, h => hn n h
  | k + 1, n, hd, ⟨y, h1, h2⟩ => by
    have hy : Edge g y n := by
      rcases (he y n).mp h1.1 with h | h
      · exact h
      · exact absurd (.inl h.2) hd
    refine ⟨y, ⟨hy, h1.2⟩, chain_less hn he k y (fun h => hd ?_) h2⟩
    rcases h with rfl | h
    · exact .inr (.single hy)
    · exact .inr (h.tail hy)

/-- C93: one more edge leaves every node where it was that neither is its receiver nor
depends on it. -/
theorem C93_others_stay (g g1 : Graph α) (hw : Dict.WF g) (hw1 : Dict.WF g1)
    (hk : Dict.keys g = Dict.keys g1) (x r : α)
    (he : ∀ y q, Edge g1 y q ↔ Edge g y q ∨ (y = x ∧ q = r))
    (hcl : ∀ x r, Edge g1 x r → x ∈ Dict.keys g1)
    (n : α) (hd : ¬ DependsOn g r n) (i j : Nat) (hi : At (queueOf g) i n) (hj : At (queueOf g1) j n) :
    i = j := by
  have le := C93_more_edges g g1 hw hw1 hk (fun y q h => (he y q).mpr (.inl h)) hcl n i j hi hj
  refine Nat.le_antisymm le (Nat.le_of_not_lt fun hlt => ?_)
  have a := (queue_at hw (acyclic_of_at hw hi) i n).mp hi
  have b := (queue_at hw1 (acyclic_of_at hw1 hj) j n).mp hj
  exact a.2 (chain_mono (chain_less (fun m hm => isNode_of hk hcl hm) he j n hd b.1) hlt)

/-- The queue is made from the graph that is shown. -/
theorem queue_of_graph (hq : Quiet (Stack.new mode base st ow) ops s)
    (h1 : OneOwner (ops.flatMap SchedOp.adds)) (g : Graph α) (hg : s.readGraph.2 = .ok g) :
    s.readQueue.2 = .ok (queueFor mode g) := by
  obtain ⟨k1, k2, _⟩ := C32_composition_partial mode base st ow ops s hq h1
  rw [hg] at k1
  rw [k2, ← k1]; rfl

theorem oneOwner_snoc {l : List (α × SCond α)} (h : OneOwner l) {n : α} {c : SCond α}
    (hf : ∀ e ∈ l, e.2.o ≠ c.o) : OneOwner (l ++ [(n, c)]) := by
  intro e he f hf' heq
  rcases List.mem_append.mp he with he | he <;> rcases List.mem_append.mp hf' with hf' | hf'
  · exact h e he f hf' heq
  · rw [List.mem_singleton] at hf'; subst hf'; exact absurd heq (hf e he)
  · rw [List.mem_singleton] at he; subst he; exact absurd heq.symm (hf f hf')
  · rw [List.mem_singleton] at he hf'; rw [he, hf']

/-- C93, `add_graph_edge`: in a scheduler whose graph is `g`, with all senders among the
keys, the call moves no node to an earlier set of `consideration_queue`, and moves only the
receiver and nodes that depend on it. -/
theorem C93_add_edge (hq : Quiet (Stack.new .standard base st ow) ops s)
    (h1 : OneOwner (ops.flatMap SchedOp.adds)) (g : Graph α)
    (hg : s.readGraph.2 = .ok g) (hw : Dict.WF g) (hcl : ∀ x r, Edge g x r → x ∈ Dict.keys g) (o : OId)
    (ho : ∀ e ∈ ops.flatMap SchedOp.adds, e.2.o ≠ o) (x r : α) (s1 : Stack α κ W)
    (h : s.addGraphEdge cyc o x r = (s1, none)) :
    ∃ q q1, s.readQueue.2 = .ok q ∧ s1.readQueue.2 = .ok q1 ∧
      ∀ n i j, At q i n → At q1 j n → i ≤ j ∧ (¬ DependsOn g r n → i = j) := by
  obtain ⟨a1, a2⟩ := C35_add cyc .standard base st ow ops s hq g hg hw o ho x r
  by_cases hv : x ≠ r ∧ x ∈ Dict.keys g ∧ r ∈ Dict.keys g
  · obtain ⟨s1', g1, b1, b2, b3, b4, b5⟩ := a1 hv
    rw [h] at b1; cases b1
    have hq1 := queue_of_graph .standard base st ow
      (ops ++ [.add x (.structural ((GSC.addEdgeTo r).toSCond cyc o))]) s1
      (Quiet.snoc hq (op := .add x (.structural ((GSC.addEdgeTo r).toSCond cyc o))) h) (by
        rw [List.flatMap_append]
        simp only [List.flatMap_cons, List.flatMap_nil, List.append_nil, SchedOp.adds, structEntries]
        exact oneOwner_snoc h1 ho) g1 b2
    refine ⟨_, _, queue_of_graph .standard base st ow ops s hq h1 g hg, hq1, fun n i j hi hj => ?_⟩
    have hcl1 : ∀ y q, Edge g1 y q → y ∈ Dict.keys g1 := by
      intro y q hy
      rw [b4]
      rcases (b5 y q).mp hy with h | h
      · exact hcl y q h
      · rw [h.1]; exact hv.2.1
    exact ⟨C93_more_edges g g1 hw b3 b4.symm (fun y q h => (b5 y q).mpr (.inl h)) hcl1 n i j hi hj,
      fun hd => C93_others_stay g g1 hw b3 b4.symm x r b5 hcl1 n hd i j hi hj⟩
  · have := a2 hv; rw [h] at this; cases this

/-- C93, `remove_graph_edge`: the call moves no node to a later set, and moves only the
receiver and nodes that depend on it. -/
theorem C93_remove_edge (hq : Quiet (Stack.new .standard base st ow) ops s)
    (h1 : OneOwner (ops.flatMap SchedOp.adds)) (g : Graph α)
    (hg : s.readGraph.2 = .ok g) (hw : Dict.WF g) (hcl : ∀ x r, Edge g x r → x ∈ Dict.keys g) (o : OId)
    (ho : ∀ e ∈ ops.flatMap SchedOp.adds, e.2.o ≠ o) (x r : α) (s1 : Stack α κ W)
    (h : s.removeGraphEdge cyc o x r = (s1, none)) :
    ∃ q q1, s.readQueue.2 = .ok q ∧ s1.readQueue.2 = .ok q1 ∧
      ∀ n i j, At q i n → At q1 j n → j ≤ i ∧ (¬ DependsOn g r n → i = j) := by
  obtain ⟨a1, a2⟩ := C35_remove cyc .standard base st ow ops s hq g hg hw o ho x r
  by_cases hv : x ≠ r ∧ x ∈ Dict.keys g ∧ r ∈ Dict.keys g
  · obtain ⟨s1', g1, b1, b2, b3, b4, b5⟩ := a1 hv
    rw [h] at b1; cases b1
    have hq1 := queue_of_graph .standard base st ow
      (ops ++ [.add r (.structural ((GSC.removeEdgeFrom x).toSCond cyc o))]) s1
      (Quiet.snoc hq (op := .add r (.structural ((GSC.removeEdgeFrom x).toSCond cyc o))) h) (by
        rw [List.flatMap_append]
        simp only [List.flatMap_cons, List.flatMap_nil, List.append_nil, SchedOp.adds, structEntries]
        exact oneOwner_snoc h1 ho) g1 b2
    refine ⟨_, _, queue_of_graph .standard base st ow ops s hq h1 g hg, hq1, fun n i j hi hj => ?_⟩
    refine ⟨C93_more_edges g1 g b3 hw b4 (fun y q h => ((b5 y q).mp h).1) hcl n j i hj hi, fun hd => ?_⟩
    by_cases he : Edge g x r
    · refine (C93_others_stay g1 g b3 hw b4 x r (fun y q => ?_) hcl n (fun hd' => hd ?_) j i hj hi).symm
      · rw [b5]
        constructor
        · intro hy
          by_cases hxr : y = x ∧ q = r
          · exact .inr hxr
          · exact .inl ⟨hy, hxr⟩
        · rintro (hy | ⟨rfl, rfl⟩)
          · exact hy.1
          · exact he
      · exact hd'.imp id fun t => OpCond.TransGen.mono' (fun y q h => ((b5 y q).mp h).1) t
    · have e : ∀ y q, Edge g1 y q ↔ Edge g y q := fun y q => by
        rw [b5]
        exact ⟨fun h' => h'.1, fun h' => ⟨h', fun ⟨e1, e2⟩ => he (e1 ▸ e2 ▸ h')⟩⟩
      refine Nat.le_antisymm (C93_more_edges g g1 hw b3 b4.symm (fun y q h => (e y q).mpr h)
        (fun y q h => by rw [b4]; exact hcl y q ((e y q).mp h)) n i j hi hj)
        (C93_more_edges g1 g b3 hw b4 (fun y q h => (e y q).mp h) hcl n j i hj hi)
  · have := a2 hv; rw [h] at this; cases this

example : OneOwner (someOps.flatMap SchedOp.adds) ∧
    (afterOps freshStack someOps).readQueue.2 = .ok [[0], [1], [2]] ∧
    ((afterOps freshStack someOps).removeGraphEdge (fun _ => []) 7 0 1).2 = none ∧
    ((afterOps freshStack someOps).removeGraphEdge (fun _ => []) 7 0 1).1.readQueue.2 =
      .ok [[0, 1], [2]] := by
  exact ⟨someOps_oneOwner, by decide +kernel, by decide +kernel, by decide +kernel⟩

end GS.Props
