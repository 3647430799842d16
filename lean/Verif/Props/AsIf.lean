import Verif.Props.SameScheduler
import Verif.Props.Adopt
import Verif.Spec.AsIf
/-!
# C116: a scheduler with structural conditions is the scheduler of the graph they make
-/

set_option linter.unusedSectionVars false

namespace GS.Props
open Spec
variable {α κ W : Type _} [DecidableEq α] [DecidableEq κ]
variable {cyc : Graph α → List (List α)} {g0 g0' g : Graph α} {ops ops' : List (SchedOp α κ W)}
variable {w w' : Whole α κ W} {s0 s0' t t' : Sys α κ W} {mode : Mode} {unit : Rat}
variable {x : World α κ W} {id : Option κ}
variable {a a' : RunArgs α κ W} {h h' : History α κ W} {pc pc' : PC α} {abs abs' : Bool}

theorem _root_.GS.Spec.SetUp.sys (hu : SetUp mode g0 ops id unit x w) (hs : composed (baseGraph g0) (present ops) = .ok g) :
    w.stack.readGraph.2 = .ok g ∧
    w.sys = .ok { w.rest with
      graph := g, queue := queueFor mode g, conds := w.stack.cset.basic,
      store := w.stack.cset.store } := by
  obtain ⟨st, ow, hq⟩ := hu.quiet
  obtain ⟨k1, k2, _⟩ := C32_composition_partial mode (baseGraph g0) st ow ops w.stack hq hu.oneOwner
  rw [hs] at k1 k2
  refine ⟨k1, ?_⟩
  simp only [Whole.sys, k1, k2, onGraph]

theorem _root_.GS.Spec.SetUp.graph (hu : SetUp mode g0 ops id unit x w) (hr : w.stack.readGraph.2 = .ok g) :
    composed (baseGraph g0) (present ops) = .ok g := by
  obtain ⟨st, ow, hq⟩ := hu.quiet
  obtain ⟨k1, _⟩ := C32_composition_partial mode (baseGraph g0) st ow ops w.stack hq hu.oneOwner
  rw [← k1]; exact hr

theorem _root_.GS.Spec.SetUp.once (hu : SetUp mode g0 ops id unit x w) : Dict.WF w.stack.cset.basic := by
  obtain ⟨st, ow, hq⟩ := hu.quiet
  exact (sane_quiet hq hu.oneOwner).1.basicWF

theorem sameNodes_node (hn : SameNodes g0 g) (n : α) : IsNode g n ↔ n ∈ Dict.keys g := by
  constructor
  · rintro (⟨p, hp, rfl⟩ | ⟨p, hp, hx⟩)
    · exact List.mem_map_of_mem hp
    · exact (hn.keys n).2 (hn.senders n p.1 ⟨p, hp, rfl, hx⟩)
  · intro hk
    obtain ⟨p, hp, e⟩ := (key_iff g n).1 hk
    exact .inl ⟨p, hp, e⟩

theorem queueFor_same {g g' : Graph α} (hg : Dict.WF g) (hg' : Dict.WF g') (hs : SameShape g g')
    (mode : Mode) : SameSets (queueFor mode g) (queueFor mode g') := by
  cases mode with
  | exactTime => exact .cons hs.keys .nil
  | standard =>
    have hsg := shape_graph hs
    show SameSets (queueOf g) (queueOf g')
    by_cases hc : HasCycle g
    · have e : ∀ {k : Graph α}, Dict.WF k → HasCycle k → queueOf k = [[]] := by
        intro k hk hck
        rcases toposort_spec k hk with ⟨_, _, _, _, _, q⟩ | ⟨q, _⟩
        · exact absurd hck q
        · unfold queueOf; rw [q]
      rw [e hg hc, e hg' (hsg.cycle.1 hc)]
      exact .cons (fun _ => Iff.rfl) .nil
    · have hc' : ¬ HasCycle g' := fun k => hc (hsg.cycle.2 k)
      refine sameSets_of_at (queue_layers hg hc).1 (queue_layers hg' hc').1 fun i n => ?_
      rw [queue_at hg hc, queue_at hg' hc', hsg.chain, hsg.chain]

/-- C116: a scheduler with structural conditions, and one that was created for the graph that
the first one shows (`scheduler.graph`), however that graph is written down, and has no
structural conditions.  If their nodes have the same basic conditions, then they are the
same scheduler for a run, written down differently (`Restated`): the same nodes, senders,
consideration sets and conditions.  In both modes, and whether or not the graph has a cycle. -/
theorem C116_restated (hg : Dict.WF g0) (hg' : Dict.WF g0') (hu : SetUp mode g0 ops id unit x w)
    (hu' : SetUp mode g0' ops' id unit x w') (hshow : w.stack.readGraph.2 = .ok g)
    (hn : SameNodes g0 g) (hs : SameGraph g g0') (hnone : present ops' = [])
    (hb : SameBasics w w') :
    ∃ s0 s0', w.sys = .ok s0 ∧ w'.sys = .ok s0' ∧ Restated s0 s0' := by
  have e := (hu.sys (hu.graph hshow)).2
  have e' := (hu'.sys (g := baseGraph g0') (by rw [hnone]; rfl)).2
  refine ⟨_, _, e, e', ?_⟩
  have hsh : SameShape g (baseGraph g0') :=
    ⟨fun n => by rw [baseGraph_keys g0' hg', ← hs.nodes, sameNodes_node hn],
      fun y r => by rw [baseGraph_edge g0' hg', hs.edges]⟩
  have k3 := baseGraph_wf g0'
  refine ⟨?_, fun n => ⟨fun y hy => ?_, fun hy => ?_⟩, queueFor_same hn.once k3 hsh mode, hb,
    ⟨hu.once, hu'.once⟩, ?_, ?_⟩
  · intro n
    show n ∈ w.rest.nodes ↔ n ∈ w'.rest.nodes
    rw [hu.rest, hu'.rest]
    exact (baseGraph_keys g0 hg n).trans ((hn.keys n).symm.trans (hsh.keys n))
  · have hy : Dict.get? g n = some y := hy
    have : n ∈ Dict.keys (baseGraph g0') :=
      (hsh.keys n).1 ((Dict.get?_isSome ..).1 (by rw [hy]; rfl))
    obtain ⟨z, hz⟩ := Option.isSome_iff_exists.1 ((Dict.get?_isSome ..).2 this)
    refine ⟨z, hz, fun d => ?_⟩
    have e3 := (edge_iff_get? hn.once d n).symm.trans ((hsh.edges d n).trans (edge_iff_get? k3 d n))
    rw [hy, hz] at e3
    simpa using e3
  · have hy : Dict.get? g n = none := hy
    show Dict.get? (baseGraph g0') n = none
    cases hz : Dict.get? (baseGraph g0') n with
    | none => rfl
    | some z =>
      have : n ∈ Dict.keys g := (hsh.keys n).2 ((Dict.get?_isSome ..).1 (by rw [hz]; rfl))
      have := (Dict.get?_isSome ..).2 this
      rw [hy] at this; cases this
  · show w'.rest.mode = w.rest.mode
    rw [hu.rest, hu'.rest]; rfl
  · show w'.rest.defaultUnit = w.rest.defaultUnit
    rw [hu.rest, hu'.rest]; rfl

/-- C116: the structural conditions of built-in classes leave the nodes as they are, so that
the hypothesis on the nodes holds for them. -/
theorem C116_builtIn (hg : Dict.WF g0) (hu : SetUp mode g0 ops id unit x w)
    (hb : ∀ e ∈ present ops, BuiltIn cyc e) (hshow : w.stack.readGraph.2 = .ok g) :
    SameNodes g0 g := by
  obtain ⟨h1, h2, h3⟩ := composed_builtIn _ hb (baseGraph_wf g0) (hu.graph hshow)
  have hk : ∀ n, n ∈ Dict.keys g ↔ IsNode g0 n := fun n => by rw [h2, baseGraph_keys g0 hg]
  exact ⟨h1, hk, fun y r he => (hk y).1 (h3 (baseGraph_closed hg) y r he)⟩

theorem _root_.GS.Spec.SetUp.unused (hu : SetUp mode g0 ops id unit x w) (hf : FreshNWhens w id)
    (h0 : w.sys = .ok s0) : Unused s0 id ∧ s0.world = x ∧
      s0.clock id = (Sys.new g0 mode id unit x).clock id := by
  have u := C81_new (κ := κ) (W := W) g0 mode id unit x
  unfold Whole.sys at h0
  split at h0 <;> cases h0
  refine ⟨⟨?_, ?_, ?_, hf⟩, ?_, ?_⟩
  · show Dict.get? w.rest.countsTotal id = _; rw [hu.rest]; exact u.calls
  · show Dict.get? w.rest.execList id = _; rw [hu.rest]; exact u.sets
  · show Shows (w.rest.clock id) []; rw [hu.rest]; exact u.clock
  · show w.rest.world = x; rw [hu.rest]; rfl
  · show w.rest.clock id = _; rw [hu.rest]

theorem _root_.GS.Spec.SetUp.places (hu : SetUp mode g0 ops id unit x w) (hs : composed (baseGraph g0) (present ops) = .ok g)
    (hw : Dict.WF g) (h0 : w.sys = .ok s0) : s0.queue.flatten.Nodup := by
  rw [(hu.sys hs).2] at h0
  cases h0
  show (queueFor mode g).flatten.Nodup
  cases mode with
  | exactTime =>
    simp only [queueFor, List.flatten_cons, List.flatten_nil, List.append_nil]
    exact hw
  | standard =>
    show (queueOf g).flatten.Nodup
    by_cases hc : HasCycle g
    · rcases toposort_spec g hw with ⟨_, _, _, _, _, q⟩ | ⟨q, _⟩
      · exact absurd hc q
      · unfold queueOf; rw [q]; simp
    · exact (queue_layers hw hc).2.1

/-- C116: and their first runs, with the same termination conditions and the same consumer,
yield at every position sets with the same members; neither goes on when the other has
returned. -/
theorem C116_runs {wd : List (List α) → World α κ W} (hg : Dict.WF g0) (hg' : Dict.WF g0')
    (hu : SetUp mode g0 ops a.id unit x w) (hu' : SetUp mode g0' ops' a.id unit x w')
    (hshow : w.stack.readGraph.2 = .ok g) (hn : SameNodes g0 g) (hs : SameGraph g g0')
    (hnone : present ops' = []) (hb : SameBasics w w') (h0 : w.sys = .ok s0) (h0' : w'.sys = .ok s0')
    (hset : SetsSettled s0) (hd : DescribedNodes s0) (hd' : DescribedNodes s0')
    (hf : FreshNWhens w a.id) (hf' : FreshNWhens w' a.id)
    (hw : ∀ ys ys', SameSets ys ys' → wd ys' = wd ys) (ha : RestatedArgs a a') (hE : DescribedEnd a)
    (hrun : Scripted wd a s0 abs h t pc) (hrun' : Scripted wd a' s0' abs' h' t' pc') :
    abs' = abs ∧
    (∀ (k : Nat) (p q : List α), (yields h)[k]? = some p → (yields h')[k]? = some q → SameMembers p q) ∧
    (pc = .returned → (yields h').length ≤ (yields h).length) ∧
    (pc' = .returned → (yields h).length ≤ (yields h').length) := by
  obtain ⟨s1, s1', e1, e1', hR⟩ := C116_restated hg hg' hu hu' hshow hn hs hnone hb
  rw [h0] at e1; cases e1
  rw [h0'] at e1'; cases e1'
  obtain ⟨u1, u2, u3⟩ := hu.unused hf h0
  obtain ⟨v1, v2, v3⟩ := hu'.unused hf' h0'
  exact C83_yields (runs := []) (runs' := [])
    { restated := hR, settled := hset
      places := ⟨hu.places (hu.graph hshow) hn.once h0,
        hu'.places (g := baseGraph g0') (by rw [hnone]; rfl) (baseGraph_wf g0') h0'⟩
      described := ⟨hd, hd'⟩, unused := ⟨u1, v1⟩
      before := ⟨.nil, .nil⟩, same := .nil, args := ha, endings := hE
      world := by rw [u2, v2]
      consumer := hw
      time := by rw [u3, v3, Sys.new_clock, Sys.new_clock]
      interval := by rw [u3, v3, Sys.new_clock, Sys.new_clock] } hrun hrun'

/-! ## The documentation's case (condition.py:100-145) -/

/-- `{A: set(), B: {A}, C: set(), D: {B, C}}`; A, B, C and D are 0, 1, 2 and 3. -/
def feedbackGraph : Graph Nat := [(0, []), (1, [0]), (2, []), (3, [1, 2])]

/-- `{D: set(), A: {D}, C: {D}, B: {A}}`, "the second graph", in another order. -/
def secondGraph : Graph Nat := [(3, []), (0, [3]), (2, [3]), (1, [0])]

/-- The graph that the first scheduler shows. -/
def shownGraph : Graph Nat := [(0, [3]), (1, [0]), (2, [3]), (3, [])]

/-- `add_condition(B, EveryNCalls(A, 2))` and `add_condition(D, BeforeNodes(A, C))`. -/
def feedbackOps : List (SchedOp Nat Nat Unit) :=
  [.add 1 (.basic (.leaf 7 (.everyNCalls 0 2))),
   .add 3 (.structural ((GSC.reposition { gscBefore with nodes := [0, 2] }).toSCond cyclesOf 40))]

/-- `add_condition(B, EveryNCalls(A, 2))` only. -/
def secondOps : List (SchedOp Nat Nat Unit) := [.add 1 (.basic (.leaf 9 (.everyNCalls 0 2)))]

def feedbackWhole := treeWhole feedbackGraph feedbackOps
def secondWhole := treeWhole secondGraph secondOps

def feedbackSys := treeResult feedbackGraph feedbackOps shownGraph
def secondSys := treeResult secondGraph secondOps (baseGraph secondGraph)

theorem feedback_setUp : SetUp .standard feedbackGraph feedbackOps none 1 demoWorld feedbackWhole :=
  ⟨⟨_, _, quiet_of _ _ (by decide +kernel)⟩, by
    intro e he f hf _
    simp only [feedbackOps, List.flatMap_cons, List.flatMap_nil, SchedOp.adds, structEntries,
      List.append_nil, List.nil_append, List.mem_cons, List.not_mem_nil, or_false] at he hf
    rw [he, hf], rfl⟩

theorem second_setUp : SetUp .standard secondGraph secondOps none 1 demoWorld secondWhole :=
  ⟨⟨_, _, quiet_of _ _ (by decide +kernel)⟩, by
    intro e he
    simp [secondOps, SchedOp.adds, structEntries] at he, rfl⟩

theorem feedback_shows : feedbackWhole.stack.readGraph.2 = .ok shownGraph := by decide +kernel

theorem feedback_nodes : SameNodes feedbackGraph shownGraph := by
  refine C116_builtIn (cyc := cyclesOf) (by decide) feedback_setUp ?_ feedback_shows
  intro e he
  have : present feedbackOps =
    [(3, (GSC.reposition { gscBefore with nodes := [0, 2] }).toSCond cyclesOf 40)] := rfl
  rw [this, List.mem_singleton] at he
  subst he
  exact ⟨_, rfl, by decide⟩

theorem feedback_second : SameGraph shownGraph secondGraph :=
  shape_graph ((shapeB_iff _ _).mp (by decide +kernel))

theorem feedback_basics : SameBasics feedbackWhole secondWhole := by
  intro n
  match n with
  | 0 | 1 => rfl
  | n + 2 => rfl

theorem feedback_sys : feedbackWhole.sys = .ok feedbackSys := by
  have h2 : feedbackWhole.stack.readQueue.2 = .ok (queueOf shownGraph) := by decide +kernel
  simp only [Whole.sys, feedback_shows, h2]
  rfl

theorem second_sys : secondWhole.sys = .ok secondSys := by
  have h1 : secondWhole.stack.readGraph.2 = .ok (baseGraph secondGraph) := by decide +kernel
  have h2 : secondWhole.stack.readQueue.2 = .ok (queueOf (baseGraph secondGraph)) := by decide +kernel
  simp only [Whole.sys, h1, h2]
  rfl

/-- `C116_restated` applied. -/
example : ∃ s0 s0', feedbackWhole.sys = .ok s0 ∧ secondWhole.sys = .ok s0' ∧ Restated s0 s0' :=
  C116_restated (by decide) (by decide) feedback_setUp second_setUp feedback_shows feedback_nodes
    feedback_second rfl feedback_basics

theorem feedback_queues : feedbackSys.queue = [[3], [0, 2], [1]] ∧
    secondSys.queue = [[3], [0, 2], [1]] := by decide +kernel

theorem feedback_conds (n : Nat) :
    Dict.get? feedbackSys.conds n = (if n = 1 then some (.leaf 7 (.everyNCalls 0 2)) else none) ∧
    Dict.get? secondSys.conds n = (if n = 1 then some (.leaf 9 (.everyNCalls 0 2)) else none) := by
  match n with
  | 0 | 1 => exact ⟨rfl, rfl⟩
  | n + 2 => exact ⟨rfl, rfl⟩

theorem feedback_described : DescribedNodes feedbackSys ∧ DescribedNodes secondSys := by
  constructor
  · intro n hn
    have : n = 3 ∨ n = 0 ∨ n = 2 ∨ n = 1 := by
      rw [feedback_queues.1] at hn; simpa using hn
    rcases this with rfl | rfl | rfl | rfl
    · exact ⟨by decide +kernel, .inr (.inr ⟨rfl, [], by decide +kernel, by simp⟩)⟩
    · exact ⟨by decide +kernel, .inr (.inr ⟨rfl, [3], by decide +kernel, by decide +kernel⟩)⟩
    · exact ⟨by decide +kernel, .inr (.inr ⟨rfl, [3], by decide +kernel, by decide +kernel⟩)⟩
    · exact ⟨by decide +kernel, .inl ⟨_, rfl, .leaf rfl
        fun _ => ⟨by decide +kernel, by decide +kernel⟩⟩⟩
  · intro n hn
    have : n = 3 ∨ n = 0 ∨ n = 2 ∨ n = 1 := by
      rw [feedback_queues.2] at hn; simpa using hn
    rcases this with rfl | rfl | rfl | rfl
    · exact ⟨by decide +kernel, .inr (.inr ⟨rfl, [], by decide +kernel, by simp⟩)⟩
    · exact ⟨by decide +kernel, .inr (.inr ⟨rfl, [3], by decide +kernel, by decide +kernel⟩)⟩
    · exact ⟨by decide +kernel, .inr (.inr ⟨rfl, [3], by decide +kernel, by decide +kernel⟩)⟩
    · exact ⟨by decide +kernel, .inl ⟨_, rfl, .leaf rfl
        fun _ => ⟨by decide +kernel, by decide +kernel⟩⟩⟩

theorem feedback_settled : SetsSettled feedbackSys := by
  intro n hn
  have : n = 3 ∨ n = 0 ∨ n = 2 ∨ n = 1 := by
    rw [feedback_queues.1] at hn; simpa using hn
  have hgr : feedbackSys.graph = shownGraph := rfl
  rw [(feedback_conds n).1, feedback_queues.1, hgr]
  rcases this with rfl | rfl | rfl | rfl
  · exact ⟨fun c h => (by cases h), fun _ ds h => by cases h; simp⟩
  · exact ⟨fun c h => (by cases h), fun _ ds h => by cases h; simp [Aside]⟩
  · exact ⟨fun c h => (by cases h), fun _ ds h => by cases h; simp [Aside]⟩
  · refine ⟨fun c h => ?_, fun h => by cases h⟩
    cases h
    refine ⟨fun _ => ?_, fun h => by cases h⟩
    show Aside [[3], [0, 2], [1]] 1 0
    simp [Aside]

def feedbackRun := scriptAfter constWorld resArgs feedbackSys 300
def secondRun := scriptAfter constWorld resArgs' secondSys 300

/-- `C116_runs` applied to runs of the two schedulers. -/
example : ∀ (k : Nat) (p q : List Nat), (yields feedbackRun.1)[k]? = some p →
    (yields secondRun.1)[k]? = some q → SameMembers p q :=
  (C116_runs (mode := .standard) (g0 := feedbackGraph) (g0' := secondGraph) (g := shownGraph)
    (a := resArgs) (a' := resArgs') (wd := constWorld) (w := feedbackWhole) (w' := secondWhole)
    (by decide) (by decide) feedback_setUp second_setUp feedback_shows feedback_nodes
    feedback_second rfl feedback_basics feedback_sys second_sys feedback_settled
    feedback_described.1 feedback_described.2 (fun _ _ _ _ _ => rfl) (fun _ _ _ _ _ => rfl)
    (fun _ _ _ => rfl) ⟨rfl, rfl, rfl, rfl⟩ res_end
    (scriptAfter_scripted (w := constWorld) (a := resArgs) (s0 := feedbackSys) (abs := false)
      (by decide +kernel) 300)
    (scriptAfter_scripted (w := constWorld) (a := resArgs') (s0 := secondSys) (abs := false)
      (by decide +kernel) 300)).2.1

/-- What the two runs yield: the order of the documentation, B every other time. -/
example : (yields feedbackRun.1).take 5 = [[3], [0, 2], [3], [0, 2], [1]] ∧
    (yields secondRun.1).take 5 = [[3], [0, 2], [3], [0, 2], [1]] ∧
    feedbackRun.2.2 = .returned ∧ secondRun.2.2 = .returned := by decide +kernel

end GS.Props
