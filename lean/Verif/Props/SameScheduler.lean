import Verif.Props.SameGraph
import Verif.Props.Placed
import Verif.Props.Restate
/-!
# C111: schedulers for one graph, written in two ways, with the same structural conditions
-/

set_option linter.unusedSectionVars false

namespace GS.Props
open Spec
variable {α κ W : Type _} [DecidableEq α] [DecidableEq κ]
variable {cyc cyc' : Graph α → List (List α)} {g0 g0' g g' : Graph α} {ops ops' : List (SchedOp α κ W)}
variable {w w' : Whole α κ W} {ds : List (α × GSC α)} {s0 s0' t t' : Sys α κ W}
variable {a a' : RunArgs α κ W} {h h' : History α κ W} {pc pc' : PC α} {abs abs' : Bool}

theorem composed_applyAll {es : List (α × SCond α)} (hd : AreConditions cyc es ds) :
    ∀ g : Graph α, composed g es = applyAll cyc g ds := by
  induction hd with
  | nil => intro g; rfl
  | cons owner d o _ ih =>
    intro g
    unfold composed applyAll
    show (match d.onValue cyc owner g with | .ok g' => _ | .error e => _) = _
    cases d.onValue cyc owner g with
    | ok g' => exact ih g'
    | error e => rfl

theorem base_shape (hg : Dict.WF g0) (hg' : Dict.WF g0') (hs : SameGraph g0 g0') :
    SameShape (baseGraph g0) (baseGraph g0') :=
  ⟨fun n => by rw [baseGraph_keys g0 hg, baseGraph_keys g0' hg', hs.nodes],
    fun x r => by rw [baseGraph_edge g0 hg, baseGraph_edge g0' hg', hs.edges]⟩

theorem builtIn_again {es es' : List (α × SCond α)} (hd : AreConditions cyc es ds)
    (hd' : AreConditions cyc' es' ds) (hb : ∀ e ∈ es, BuiltIn cyc e) : ∀ e ∈ es', BuiltIn cyc' e := by
  induction hd generalizing es' with
  | nil => cases hd'; simp
  | cons owner d o _ ih =>
    cases hd' with | cons _ _ o' k =>
    intro e he
    rcases List.mem_cons.1 he with rfl | he
    · obtain ⟨d2, h1, h2⟩ := hb _ (.head _)
      have : d.nodes = d2.nodes := congrArg SCond.nodes h1
      exact ⟨d, rfl, by rw [this]; exact h2⟩
    · exact ih k (fun e he => hb e (.tail _ he)) e he

/-- C111: two schedulers in standard mode for the same graph, written in two ways; whatever
operations were done on them, in the end they have the same structural conditions in the
same order.  Then the graphs they show have the same nodes and the same edges, and neither
shows an error if the other does not.  What is missing: see `C111_same_partial`. -/
theorem C111_shows_partial (hl : ListsCycles cyc) (hl' : ListsCycles cyc') (hg : Dict.WF g0)
    (hg' : Dict.WF g0') (hs : SameGraph g0 g0') (hp : Prepared cyc g0 ops g w)
    (hq' : ∃ st ow, Spec.Quiet (Stack.new .standard (baseGraph g0') st ow) ops' w'.stack)
    (ho' : OneOwner (ops'.flatMap SchedOp.adds)) (hd : AreConditions cyc (present ops) ds)
    (hd' : AreConditions cyc' (present ops') ds) (hf : AllUnordered cyc (baseGraph g0) ds) :
    ∃ g', Prepared cyc' g0' ops' g' w' ∧ w.stack.readGraph.2 = .ok g ∧ w'.stack.readGraph.2 = .ok g' ∧
      SameShape g g' ∧ Dict.WF g ∧ Dict.WF g' := by
  have h1 := hp.shows
  rw [composed_applyAll hd] at h1
  have := C111_all_partial cyc cyc' hl hl' ds (baseGraph_wf g0) (baseGraph_wf g0') (base_shape hg hg' hs) hf
  rw [h1] at this
  cases e2 : applyAll cyc' (baseGraph g0') ds with
  | error x => rw [e2] at this; cases this
  | ok g' =>
    rw [e2] at this
    cases this with | graph k1 k2 k3 =>
    rw [← composed_applyAll hd'] at e2
    obtain ⟨st, ow, hq⟩ := hp.quiet
    obtain ⟨st', ow', hqq⟩ := hq'
    have r1 := (C32_composition_partial .standard (baseGraph g0) st ow ops w.stack hq hp.oneOwner).1
    have r2 := (C32_composition_partial .standard (baseGraph g0') st' ow' ops' w'.stack hqq ho').1
    rw [hp.shows] at r1
    rw [e2] at r2
    exact ⟨g', ⟨⟨st', ow', hqq⟩, ho', builtIn_again hd hd' hp.builtIn, e2⟩, r1, r2, k1, k2, k3⟩

theorem queue_layers {g : Graph α} (hg : Dict.WF g) (hc : ¬ HasCycle g) :
    (∀ l ∈ queueOf g, l ≠ []) ∧ (queueOf g).flatten.Nodup ∧
    ∀ n, n ∈ (queueOf g).flatten ↔ IsNode g n := by
  rcases toposort_spec g hg with ⟨ls, q1, h2, h3, h4, _⟩ | ⟨_, q⟩
  · have e : queueOf g = ls := by unfold queueOf; rw [q1]
    rw [e]
    refine ⟨fun l hl => (h2 l hl).1, ?_, fun n => ?_⟩
    · unfold List.Nodup
      rw [List.pairwise_flatten]
      refine ⟨fun l hl => (h2 l hl).2, ?_⟩
      rw [List.pairwise_iff_getElem]
      intro i j hi hj hij n hn m hm
      rintro rfl
      have a1 := (h3 i n).1 ⟨_, List.getElem?_eq_getElem hi, hn⟩
      have a2 := (h3 j n).1 ⟨_, List.getElem?_eq_getElem hj, hm⟩
      have := chain_max_unique a1.1 a1.2 a2.1 a2.2
      omega
    · rw [mem_flatten_at]
      constructor
      · rintro ⟨i, hi⟩; exact chain_isNode ((h3 i n).1 hi).1
      · intro hn
        obtain ⟨i, _, h⟩ := chain_max _ hn (h4 n)
        exact ⟨i, (h3 i n).2 h⟩
  · exact absurd q hc

/-- C111: and if the basic conditions and the rest of the two schedulers say the same, too,
then for a run the two are the same scheduler, written down differently (as in C83). -/
theorem C111_restated_partial (hl : ListsCycles cyc) (hl' : ListsCycles cyc') (hg : Dict.WF g0)
    (hg' : Dict.WF g0') (hs : SameGraph g0 g0') (hp : Prepared cyc g0 ops g w)
    (hq' : ∃ st ow, Spec.Quiet (Stack.new .standard (baseGraph g0') st ow) ops' w'.stack)
    (ho' : OneOwner (ops'.flatMap SchedOp.adds)) (hd : AreConditions cyc (present ops) ds)
    (hd' : AreConditions cyc' (present ops') ds) (hf : AllUnordered cyc (baseGraph g0) ds)
    (hc : ¬ HasCycle g) (hn : SameMembers w.rest.nodes w'.rest.nodes)
    (hm : w'.rest.mode = w.rest.mode) (hu : w'.rest.defaultUnit = w.rest.defaultUnit)
    (hb : ∀ n, (Dict.get? w'.stack.cset.basic n).map bare = (Dict.get? w.stack.cset.basic n).map bare)
    (hwf : Dict.WF w.stack.cset.basic ∧ Dict.WF w'.stack.cset.basic) (h0 : w.sys = .ok s0) :
    ∃ s0', w'.sys = .ok s0' ∧ Restated s0 s0' := by
  obtain ⟨g', hp', r1, r2, hsh, k2, k3⟩ := C111_shows_partial hl hl' hg hg' hs hp hq' ho' hd hd' hf
  obtain ⟨st', ow', hqq⟩ := hq'
  have r3 := (C32_composition_partial .standard (baseGraph g0') st' ow' ops' w'.stack hqq ho').2.1
  rw [hp'.shows] at r3
  have e' : w'.sys = .ok { w'.rest with
      graph := g', queue := queueOf g', conds := w'.stack.cset.basic, store := w'.stack.cset.store } := by
    simp only [Whole.sys, r2, r3, onGraph]
    rfl
  refine ⟨_, e', ?_⟩
  obtain ⟨e, _⟩ := prepared_sys hp h0
  subst e
  have hsg := shape_graph hsh
  have hc' : ¬ HasCycle g' := fun x => hc (hsg.cycle.2 x)
  refine ⟨hn, fun n => ⟨fun y hy => ?_, fun hy => ?_⟩, ?_, hb, hwf, hm, hu⟩
  · have hy : Dict.get? g n = some y := hy
    have : n ∈ Dict.keys g' := (hsh.keys n).1 ((Dict.get?_isSome ..).1 (by rw [hy]; rfl))
    obtain ⟨z, hz⟩ := Option.isSome_iff_exists.1 ((Dict.get?_isSome ..).2 this)
    refine ⟨z, hz, fun d => ?_⟩
    have e3 := (edge_iff_get? k2 d n).symm.trans ((hsh.edges d n).trans (edge_iff_get? k3 d n))
    rw [hy, hz] at e3
    simpa using e3
  · have hy : Dict.get? g n = none := hy
    show Dict.get? g' n = none
    cases hz : Dict.get? g' n with
    | none => rfl
    | some z =>
      have : n ∈ Dict.keys g := (hsh.keys n).2 ((Dict.get?_isSome ..).1 (by rw [hz]; rfl))
      have := (Dict.get?_isSome ..).2 this
      rw [hy] at this; cases this
  · show SameSets (queueOf g) (queueOf g')
    refine sameSets_of_at (queue_layers k2 hc).1 (queue_layers k3 hc').1 fun i n => ?_
    rw [queue_at k2 hc, queue_at k3 hc', hsg.chain, hsg.chain]

/-- A scheduler with structural conditions only. -/
theorem structural_described (hg : Dict.WF g0) (hp : Prepared cyc g0 ops g w) (h0 : w.sys = .ok s0)
    (hb : w.stack.cset.basic = []) (id : Option κ) (unit : Rat) (x : World α κ W)
    (hrest : w.rest = Sys.new g0 .standard id unit x) (hc : ¬ HasCycle g) (hse : ∀ n, ¬ Edge g n n) :
    SetsSettled s0 ∧ s0.queue.flatten.Nodup ∧ DescribedNodes s0 ∧ Unused s0 id := by
  obtain ⟨e, hwf⟩ := prepared_sys hp h0
  obtain ⟨_, hkeys, hcl⟩ := composed_builtIn _ hp.builtIn (baseGraph_wf g0) hp.shows
  have hcl := hcl (baseGraph_closed hg)
  have hnode : ∀ n, n ∈ s0.nodes ↔ n ∈ Dict.keys g := by
    intro n; rw [e, hkeys, hrest]; rfl
  have hq : s0.queue = queueOf g := by rw [e]
  have hgr : s0.graph = g := by rw [e]
  have hcd : s0.conds = [] := by rw [e]; exact hb
  have hget : ∀ n, Dict.get? s0.conds n = none := fun n => by rw [hcd]; rfl
  obtain ⟨_, q2, q3⟩ := queue_layers hwf hc
  have hin : ∀ n, IsNode g n → n ∈ Dict.keys g := by
    rintro n (⟨p, hp, rfl⟩ | ⟨p, hp, hx⟩)
    · exact List.mem_map_of_mem hp
    · exact hcl n p.1 ⟨p, hp, rfl, hx⟩
  refine ⟨fun n _ => ⟨fun c k => (by rw [hget] at k; cases k), fun _ ds hds d hd l hl hnl hdl => ?_⟩,
    by rw [hq]; exact q2, fun n hn => ?_, ?_⟩
  · rw [hgr] at hds
    rw [hq] at hl
    refine Classical.byContradiction fun hne => ?_
    obtain ⟨i, hi, hil⟩ := List.getElem_of_mem hl
    have h1 : At (queueOf g) i d := ⟨l, by rw [List.getElem?_eq_getElem hi, hil], hdl⟩
    have h2 : At (queueOf g) i n := ⟨l, by rw [List.getElem?_eq_getElem hi, hil], hnl⟩
    exact Nat.lt_irrefl _ (edge_earlier hwf hc ((edge_iff_get? hwf d n).2 ⟨ds, hds, hd⟩) hne h1 h2)
  · rw [hq] at hn
    have hk := hin n ((q3 n).1 hn)
    refine ⟨(hnode n).2 hk, .inr (.inr ⟨hget n, ?_⟩)⟩
    obtain ⟨ds, hds⟩ := Option.isSome_iff_exists.1 ((Dict.get?_isSome ..).2 hk)
    refine ⟨ds, by rw [hgr]; exact hds, fun d hd => ?_⟩
    have he : Edge g d n := (edge_iff_get? hwf d n).2 ⟨ds, hds, hd⟩
    exact ⟨(hnode d).2 (hcl d n he), fun k => hse n (k ▸ he)⟩
  · have u := C81_new (κ := κ) (W := W) g0 .standard id unit x
    refine ⟨?_, ?_, ?_, fun n o c k hk => by rw [hget] at hk; cases hk⟩
    · rw [e, hrest]; exact u.calls
    · rw [e, hrest]; exact u.sets
    · rw [e, hrest]; exact u.clock

/-- C111: new schedulers for one graph, written in two ways, with the same structural
conditions and no basic conditions.  Their runs with the same termination conditions and
the same consumer yield, at every position, sets with the same members, and neither goes on
when the other has returned.  What is missing: see `C111_same_partial`. -/
theorem C111_runs_partial {wd : List (List α) → World α κ W} (hl : ListsCycles cyc)
    (hl' : ListsCycles cyc') (hg : Dict.WF g0) (hg' : Dict.WF g0') (hs : SameGraph g0 g0')
    (hp : Prepared cyc g0 ops g w)
    (hq' : ∃ st ow, Spec.Quiet (Stack.new .standard (baseGraph g0') st ow) ops' w'.stack)
    (ho' : OneOwner (ops'.flatMap SchedOp.adds)) (hd : AreConditions cyc (present ops) ds)
    (hd' : AreConditions cyc' (present ops') ds) (hf : AllUnordered cyc (baseGraph g0) ds)
    (hc : ¬ HasCycle g) (hse : ∀ n, ¬ Edge g n n) (unit : Rat) (x : World α κ W)
    (hr : w.rest = Sys.new g0 .standard a.id unit x) (hr' : w'.rest = Sys.new g0' .standard a.id unit x)
    (hb : w.stack.cset.basic = []) (hb' : w'.stack.cset.basic = []) (h0 : w.sys = .ok s0)
    (h0' : w'.sys = .ok s0') (hw : ∀ ys ys', SameSets ys ys' → wd ys' = wd ys)
    (ha : RestatedArgs a a') (hE : DescribedEnd a)
    (hrun : Scripted wd a s0 abs h t pc) (hrun' : Scripted wd a' s0' abs' h' t' pc') :
    abs' = abs ∧
    (∀ (k : Nat) (p q : List α), (yields h)[k]? = some p → (yields h')[k]? = some q → SameMembers p q) ∧
    (pc = .returned → (yields h').length ≤ (yields h).length) ∧
    (pc' = .returned → (yields h).length ≤ (yields h').length) := by
  obtain ⟨g', hp', _, _, hsh, _, _⟩ := C111_shows_partial hl hl' hg hg' hs hp hq' ho' hd hd' hf
  have hsg := shape_graph hsh
  have hc' : ¬ HasCycle g' := fun k => hc (hsg.cycle.2 k)
  have hse' : ∀ n, ¬ Edge g' n n := fun n k => hse n ((hsh.edges n n).2 k)
  obtain ⟨s1, e1, hR⟩ := C111_restated_partial hl hl' hg hg' hs hp hq' ho' hd hd' hf hc
    (by
      intro n
      rw [hr, hr']
      exact (base_shape hg hg' hs).keys n)
    (by rw [hr, hr']; rfl) (by rw [hr, hr']; rfl) (fun n => by rw [hb, hb'])
    (by rw [hb, hb']; exact ⟨.nil, .nil⟩) h0
  rw [h0'] at e1
  cases e1
  obtain ⟨d1, d2, d3, d4⟩ := structural_described hg hp h0 hb a.id unit x hr hc hse
  obtain ⟨_, d2', d3', d4'⟩ := structural_described hg' hp' h0' hb' a.id unit x hr' hc' hse'
  obtain ⟨f1, _⟩ := prepared_sys hp h0
  obtain ⟨f2, _⟩ := prepared_sys hp' h0'
  have c1 : s0.clock a.id = (Sys.new g0 .standard a.id unit x).clock a.id := by rw [f1, hr]; rfl
  have c2 : s0'.clock a.id = (Sys.new g0' .standard a.id unit x).clock a.id := by rw [f2, hr']; rfl
  exact C83_yields (runs := []) (runs' := [])
    { restated := hR, settled := d1, places := ⟨d2, d2'⟩, described := ⟨d3, d3'⟩, unused := ⟨d4, d4'⟩
      before := ⟨.nil, .nil⟩, same := .nil, args := ha, endings := hE
      world := by rw [f1, f2, hr, hr']; rfl
      consumer := hw
      time := by rw [c1, c2, Sys.new_clock, Sys.new_clock]
      interval := by rw [c1, c2, Sys.new_clock, Sys.new_clock] } hrun hrun'

/-! ## A concrete case -/

/-- The two conditions are added. -/
def treeOpsA : List (SchedOp Nat Nat Unit) :=
  [.add 1 (.structural ((GSC.reposition oneBeforeThree).toSCond cyclesOf 40)),
   .add 2 (.structural ((GSC.addEdgeTo 3).toSCond cyclesOf 41))]
/-- A condition is added and removed, then the two are added. -/
def treeOpsB : List (SchedOp Nat Nat Unit) :=
  [.add 0 (.structural ((GSC.addEdgeTo 2).toSCond cyclesOf 50)),
   .remove (.structural ((GSC.addEdgeTo 2).toSCond cyclesOf 50)),
   .add 1 (.structural ((GSC.reposition oneBeforeThree).toSCond cyclesOf 51)),
   .add 2 (.structural ((GSC.addEdgeTo 3).toSCond cyclesOf 52))]

def treeWhole (g : Graph Nat) (ops : List (SchedOp Nat Nat Unit)) : Whole Nat Nat Unit :=
  { stack := afterOps (Stack.new .standard (baseGraph g) noOwners (fun _ => none)) ops
    rest := Sys.new g .standard none 1 demoWorld }

def treeResult (g : Graph Nat) (ops : List (SchedOp Nat Nat Unit)) (r : Graph Nat) : Sys Nat Nat Unit :=
  { (treeWhole g ops).rest with
    graph := r, queue := queueOf r, conds := (treeWhole g ops).stack.cset.basic,
    store := (treeWhole g ops).stack.cset.store }

def treeSysA := treeResult treeA treeOpsA [(0, []), (1, [0]), (2, [0]), (3, [0, 1, 2])]
def treeSysB := treeResult treeB treeOpsB [(0, []), (1, [0]), (3, [0, 1, 2]), (2, [0])]

theorem treeA_prepared : Prepared cyclesOf treeA treeOpsA [(0, []), (1, [0]), (2, [0]), (3, [0, 1, 2])]
    (treeWhole treeA treeOpsA) :=
  ⟨⟨_, _, quiet_of _ _ (by decide +kernel)⟩, by
    intro e he f hf h
    simp only [treeOpsA, List.flatMap_cons, List.flatMap_nil, SchedOp.adds, structEntries,
      List.append_nil, List.nil_append, List.cons_append, List.mem_cons, List.not_mem_nil,
      or_false] at he hf
    rcases he with rfl | rfl <;> rcases hf with rfl | rfl <;>
      first | rfl | (simp [GSC.toSCond] at h), by
    intro e he
    have : present treeOpsA = [(1, (GSC.reposition oneBeforeThree).toSCond cyclesOf 40),
      (2, (GSC.addEdgeTo 3).toSCond cyclesOf 41)] := rfl
    rw [this] at he
    simp only [List.mem_cons, List.not_mem_nil, or_false] at he
    rcases he with rfl | rfl
    · exact ⟨_, rfl, by decide⟩
    · exact ⟨_, rfl, by decide⟩, by decide +kernel⟩

theorem treeB_oneOwner : OneOwner (treeOpsB.flatMap SchedOp.adds) := by
  intro e he f hf h
  simp only [treeOpsB, List.flatMap_cons, List.flatMap_nil, SchedOp.adds, structEntries,
    List.append_nil, List.nil_append, List.cons_append, List.mem_cons, List.not_mem_nil,
    or_false] at he hf
  rcases he with rfl | rfl | rfl <;> rcases hf with rfl | rfl | rfl <;>
    first | rfl | (simp [GSC.toSCond] at h)

theorem treeB_quiet : ∃ st ow, Spec.Quiet (Stack.new .standard (baseGraph treeB) st ow) treeOpsB
    (treeWhole treeB treeOpsB).stack :=
  ⟨noOwners, fun _ => none, quiet_of _ _ (by decide +kernel)⟩

theorem tree_are : AreConditions cyclesOf (present treeOpsA) twoConds ∧
    AreConditions cyclesOf (present treeOpsB) twoConds :=
  ⟨.cons _ _ _ (.cons _ _ _ .nil), .cons _ _ _ (.cons _ _ _ .nil)⟩

theorem treeA_sys : (treeWhole treeA treeOpsA).sys = .ok treeSysA := by
  have h1 : (treeWhole treeA treeOpsA).stack.readGraph.2 =
      .ok [(0, []), (1, [0]), (2, [0]), (3, [0, 1, 2])] := by decide +kernel
  have h2 : (treeWhole treeA treeOpsA).stack.readQueue.2 =
      .ok (queueOf [(0, []), (1, [0]), (2, [0]), (3, [0, 1, 2])]) := by decide +kernel
  simp only [Whole.sys, h1, h2]
  rfl

theorem treeB_sys : (treeWhole treeB treeOpsB).sys = .ok treeSysB := by
  have h1 : (treeWhole treeB treeOpsB).stack.readGraph.2 =
      .ok [(0, []), (1, [0]), (3, [0, 1, 2]), (2, [0])] := by decide +kernel
  have h2 : (treeWhole treeB treeOpsB).stack.readQueue.2 =
      .ok (queueOf [(0, []), (1, [0]), (3, [0, 1, 2]), (2, [0])]) := by decide +kernel
  simp only [Whole.sys, h1, h2]
  rfl

def treeRunA := scriptAfter constWorld resArgs treeSysA 300
def treeRunB := scriptAfter constWorld resArgs' treeSysB 300

theorem treeA_base : baseGraph treeA = treeA := by decide +kernel

/-- `C111_runs_partial` applied to runs of the two schedulers. -/
example : ∀ (k : Nat) (p q : List Nat), (yields treeRunA.1)[k]? = some p →
    (yields treeRunB.1)[k]? = some q → SameMembers p q :=
  (C111_runs_partial (cyc := cyclesOf) (cyc' := cyclesOf) (a := resArgs) (a' := resArgs')
    (wd := constWorld) (w := treeWhole treeA treeOpsA) (w' := treeWhole treeB treeOpsB)
    (s0 := treeSysA) (s0' := treeSysB) (ops := treeOpsA) (ops' := treeOpsB) (g0 := treeA) (g0' := treeB)
    (ds := twoConds)
    cyclesOf_lists cyclesOf_lists (by decide) (by decide) (shape_graph tree_shape) treeA_prepared
    treeB_quiet treeB_oneOwner tree_are.1 tree_are.2
    (by rw [treeA_base]; exact twoConds_free)
    (fun ⟨n, hn⟩ => no_cycle_of_lt (g := [(0, []), (1, [0]), (2, [0]), (3, [0, 1, 2])]) (by decide)
        ⟨n, OpCond.TransGen.mono' (fun _ _ e => e.1) hn⟩)
    (fun n hn => no_cycle_of_lt (g := [(0, []), (1, [0]), (2, [0]), (3, [0, 1, 2])]) (by decide)
        ⟨n, .single hn⟩)
    1 demoWorld rfl rfl rfl rfl treeA_sys treeB_sys (fun _ _ _ => rfl) ⟨rfl, rfl, rfl, rfl⟩ res_end
    (scriptAfter_scripted (w := constWorld) (a := resArgs) (s0 := treeSysA) (abs := false)
      (by decide +kernel) 300)
    (scriptAfter_scripted (w := constWorld) (a := resArgs') (s0 := treeSysB) (abs := false)
      (by decide +kernel) 300)).2.1

/-- What the two runs yield. -/
example : (yields treeRunA.1).take 4 = [[0], [1, 2], [3], [0]] ∧
    (yields treeRunB.1).take 4 = [[0], [1, 2], [3], [0]] ∧
    treeRunA.2.2 = .returned ∧ treeRunB.2.2 = .returned := by decide +kernel

end GS.Props
