import Verif.RenameStack
import Verif.Props.Rename
import Verif.Props.SameScheduler
import Verif.Props.Blocked
/-!
# C112: the names of nodes do not matter, structural conditions included

Specification: `Verif/Spec/RenameStack.lean`, `Verif/Spec/Rename.lean`.
-/

set_option linter.unusedSectionVars false

namespace GS.Props
open Spec
variable {α β κ W : Type _} [DecidableEq α] [DecidableEq β] [DecidableEq κ]
variable {a : RunArgs α κ W} {abs : Bool} {s0 s : Sys α κ W} {pc : PC α} {h : History α κ W}
variable {cyc : Graph α → List (List α)} {cyc' : Graph β → List (List β)}

/-- The renamed graph has the renamed keys and the renamed edges. -/
theorem C112_graph (r : Renaming α β) (g : Graph α) :
    (∀ n, r.to n ∈ Dict.keys (renameGraph r g) ↔ n ∈ Dict.keys g) ∧
    ∀ x y, Edge (renameGraph r g) (r.to x) (r.to y) ↔ Edge g x y := by
  refine ⟨fun n => by rw [keys_rename, r.mem], fun x y => ⟨?_, ?_⟩⟩
  · rintro ⟨q, hq, h1, h2⟩
    obtain ⟨p, hp, rfl⟩ := List.mem_map.1 hq
    exact ⟨p, hp, r.inj.1 h1, r.mem.1 h2⟩
  · rintro ⟨p, hp, rfl, h2⟩
    exact ⟨_, List.mem_map_of_mem hp, rfl, r.mem.2 h2⟩

theorem cyc_unique (r : Renaming α β) (hc : ∀ g, cyc' (renameGraph r g) = renameSets r (cyc g)) :
    cyc' = renameCyc r cyc := by
  funext g
  have := hc (renameGraph r.symm g)
  rw [graph_to] at this
  exact this

/-- C112: a built-in structural condition about the renamed nodes does to the renamed graph
what the condition does to the graph, or raises the same exception, if the cycles of the
graphs are found in the same order. -/
theorem C112_condition (r : Renaming α β) (hc : ∀ g, cyc' (renameGraph r g) = renameSets r (cyc g))
    (d : GSC α) (owner : α) (g : Graph α) :
    (renameGSC r d).onValue cyc' (r.to owner) (renameGraph r g) =
      renameOk (renameGraph r) (d.onValue cyc owner g) := by
  rw [cyc_unique r hc]; exact onValue_rename r cyc d owner g

/-- C112: and the object of the renamed condition is what the renamed scheduler has. -/
theorem C112_object (r : Renaming α β) (hc : ∀ g, cyc' (renameGraph r g) = renameSets r (cyc g))
    (d : GSC α) (o : OId) :
    (renameGSC r d).toSCond cyc' o = renameSCond r (d.toSCond cyc o) := by
  rw [cyc_unique r hc]; exact (toSCond_rename r cyc d o).symm

theorem simpleCycle_rename (r : Renaming α β) {g : Graph α} {c : List α} (h : SimpleCycle g c) :
    SimpleCycle (renameGraph r g) (c.map r.to) := by
  obtain ⟨h1, h2, h3⟩ := h
  refine ⟨fun e => h1 (List.map_eq_nil_iff.1 e), List.pairwise_map.2 (h2.imp fun hne e => hne (r.inj.1 e)), fun i x y hx hy => ?_⟩
  rw [List.length_map] at hy
  rw [List.getElem?_map] at hx hy
  obtain ⟨x0, hx0, rfl⟩ := Option.map_eq_some_iff.1 hx
  obtain ⟨y0, hy0, rfl⟩ := Option.map_eq_some_iff.1 hy
  exact ((C112_graph r g).2 x0 y0).2 (h3 i x0 y0 hx0 hy0)

/-- C112: an enumeration of the cycles of all graphs gives one for the new names. -/
theorem C112_cycles (r : Renaming α β) (hl : ListsCycles cyc) : ListsCycles (renameCyc r cyc) := by
  intro g
  obtain ⟨h1, h2⟩ := hl (renameGraph r.symm g)
  have e : ∀ g : Graph β, renameCyc r cyc g = renameSets r (cyc (renameGraph r.symm g)) := fun _ => rfl
  refine ⟨fun c hc => ?_, ?_⟩
  · rw [e] at hc
    obtain ⟨c0, hc0, rfl⟩ := List.mem_map.1 hc
    have := simpleCycle_rename r (h1 c0 hc0)
    rwa [graph_to] at this
  · rintro ⟨c, hc⟩ h
    refine h2 ⟨_, simpleCycle_rename r.symm hc⟩ ?_
    rw [e] at h
    exact List.map_eq_nil_iff.1 h

/-- C112: a new scheduler for the renamed graph is the renamed scheduler. -/
theorem C112_new (r : Renaming α β) (g : Graph α) (mode : Mode) (id : Option κ) (unit : Rat)
    (x : World α κ W) (st : Store α κ) (ow : OId → Option α) :
    Whole.new (renameGraph r g) mode id unit (renameWorld r x) (renameStore r st)
        (fun o => (ow o).map r.to) = renameWhole r (Whole.new g mode id unit x st ow) := by
  unfold Whole.new renameWhole
  rw [baseGraph_rename, Stack.new_renameS, new_rename]

/-- C112: every call (adding and removing conditions, reading the graph, the consideration
queue or the indices), with the new names, raises what the call with the old names raises
and leaves the renamed scheduler. -/
theorem C112_call (r : Renaming α β) (s : Stack α κ W) (op : SchedOp α κ W) :
    ((renameOp r op).call (renameStack r s)).2 = (op.call s).2 ∧
    ((renameOp r op).call (renameStack r s)).1 = renameStack r (op.call s).1 := by
  rw [call_rename]; exact ⟨rfl, rfl⟩

/-- C112: and what is read and returned is the same with the new names. -/
theorem C112_read (r : Renaming α β) (s : Stack α κ W) :
    (renameStack r s).readGraph.2 = renameOk (renameGraph r) s.readGraph.2 ∧
    (renameStack r s).readQueue.2 = renameOk (renameSets r) s.readQueue.2 ∧
    (renameStack r s).readIndices.2 = renameOk (renameDict r id) s.readIndices.2 ∧
    (∀ c, ((renameStack r s).removeCondition (renameAny r c)).2 =
      renameOk (Option.map (renameAny r)) (s.removeCondition c).2) ∧
    (∀ n, ((renameStack r s).removeConditionOf (r.to n)).2 =
      renameOk (Option.map (renameAny r)) (s.removeConditionOf n).2) ∧
    ∀ n, (renameStack r s).cset.getItem (r.to n) = (s.cset.getItem n).map (renameShown r) := by
  refine ⟨by rw [Stack.readGraph_rename]; rfl, by rw [Stack.readQueue_rename]; rfl,
    by rw [Stack.readIndices_rename]; rfl, fun c => by rw [Stack.removeCondition_rename]; rfl,
    fun n => by rw [Stack.removeConditionOf_rename]; rfl, fun n => getItem_rename r s.cset n⟩

/-- C112: any number of calls, whichever of them raise. -/
theorem C112_calls (r : Renaming α β) (ops : List (SchedOp α κ W)) : ∀ s : Stack α κ W,
    callsRaise (renameStack r s) (ops.map (renameOp r)) = callsRaise s ops ∧
    performed (renameStack r s) (ops.map (renameOp r)) = renameStack r (performed s ops) := by
  induction ops with
  | nil => intro s; exact ⟨rfl, rfl⟩
  | cons op ops ih =>
    intro s
    obtain ⟨h1, h2⟩ := C112_call r s op
    rw [List.map_cons]
    unfold callsRaise
    rw [h1, h2, (ih _).1]
    refine ⟨rfl, ?_⟩
    show performed ((renameOp r op).call (renameStack r s)).1 (ops.map (renameOp r)) =
      renameStack r (performed (op.call s).1 ops)
    rw [h2, (ih _).2]

/-- C112: what a run sees, or the exception it raises instead, is the same with the new
names; whatever the run does, the run of the renamed scheduler does with the new names, and
nothing else; and afterwards the schedulers are the same again. -/
theorem C112_run (r : Renaming α β) {w : List (List α) → World α κ W} (x : Whole α κ W) :
    (renameWhole r x).sys = renameOk (renameSys r) x.sys ∧
    (∀ s0, x.sys = .ok s0 → Scripted w a s0 abs h s pc →
      Scripted (renameConsumer r w) (renameArgs r a) (renameSys r s0) abs (renameHistory r h)
        (renameSys r s) (renamePC r pc) ∧ yields (renameHistory r h) = renameSets r (yields h)) ∧
    (∀ s0 h' s' pc', x.sys = .ok s0 →
      Scripted (renameConsumer r w) (renameArgs r a) (renameSys r s0) abs h' s' pc' →
      ∃ h s pc, Scripted w a s0 abs h s pc ∧ h' = renameHistory r h ∧ s' = renameSys r s ∧
        pc' = renamePC r pc) ∧
    (renameWhole r x).after (renameSys r s) = renameWhole r (x.after s) :=
  ⟨sys_rename r x, fun _ _ hr => ⟨(C82_run r).1 hr, yields_rename r h⟩,
    fun _ h' s' pc' _ hr => (C82_run (h := h) (s := s) (pc := pc) r).2 h' s' pc' hr, after_rename r x s⟩

/-! ## A concrete case: the tree of `C111` with pairs as nodes -/

def treePairs : Graph (Nat × Unit) :=
  [((0, ()), []), ((1, ()), [(0, ())]), ((2, ()), [(1, ())]), ((3, ()), [(0, ())])]

theorem treePairs_eq : treePairs = renameGraph renDemo treeA := rfl

/-- Node 1 is put before node 3, for the old and for the new names. -/
example : (renameGSC renDemo (GSC.reposition oneBeforeThree)).onValue (renameCyc renDemo cyclesOf)
    (1, ()) treePairs =
      .ok [((0, ()), []), ((1, ()), [(0, ())]), ((2, ()), [(0, ())]), ((3, ()), [(0, ()), (1, ())])] := by
  have e : (GSC.reposition oneBeforeThree).onValue cyclesOf 1 treeA =
      .ok [(0, []), (1, [0]), (2, [0]), (3, [0, 1])] := by decide +kernel
  have k := C112_condition renDemo (cyc := cyclesOf) (cyc' := renameCyc renDemo cyclesOf)
    (fun g => OpCond.cyc_rename renDemo cyclesOf g) (GSC.reposition oneBeforeThree) 1 treeA
  rw [e] at k
  exact k

/-- Adding conditions, reading, removing a structural condition by its owner (which raises),
adding a condition for a node that is not in the graph, and one that is rejected. -/
def pairOps : List (SchedOp Nat Nat Unit) :=
  treeOpsA ++ [.add 3 (.structural ((GSC.addEdgeTo 0).toSCond cyclesOf 42)), .queue,
    .removeOf 3, .indices, .add 9 (.basic (.leaf 0 .always)),
    .add 3 (.basic (.leaf 1 (.afterNCalls 2 2 .life))), .add 0 (.structural (failing 43)), .graph]

def pairStack : Stack Nat Nat Unit := Stack.new .standard (baseGraph treeA) noOwners (fun _ => none)

/-- The same calls raise the same exceptions with pairs as nodes. -/
example : callsRaise (renameStack renDemo pairStack) (pairOps.map (renameOp renDemo)) =
    [none, none, none, none, some .indexError, none, none, none, some .conditionError,
      some .conditionError] := by
  rw [(C112_calls renDemo pairOps pairStack).1]
  decide +kernel

/-- A new scheduler with pairs as nodes and the two conditions: what its queue is, and what
its run yields. -/
example : ∃ s0 : Sys (Nat × Unit) Nat Unit,
    (renameWhole renDemo (treeWhole treeA treeOpsA)).sys = .ok s0 ∧
    s0.graph = [((0, ()), []), ((1, ()), [(0, ())]), ((2, ()), [(0, ())]),
      ((3, ()), [(0, ()), (1, ()), (2, ())])] ∧
    ∃ h s, Scripted (renameConsumer renDemo constWorld) (renameArgs renDemo resArgs) s0 false h s
        .returned ∧
      (yields h).take 4 = [[(0, ())], [(1, ()), (2, ())], [(3, ())], [(0, ())]] := by
  have k1 := scriptAfter_scripted (w := constWorld) (a := resArgs) (s0 := treeSysA) (abs := false)
    (by decide +kernel) 300
  have e : (scriptAfter constWorld resArgs treeSysA 300).2.2 = .returned := by decide +kernel
  rw [e] at k1
  have k := C112_run renDemo (a := resArgs) (abs := false) (w := constWorld) (pc := .returned)
    (h := (scriptAfter constWorld resArgs treeSysA 300).1)
    (s := (scriptAfter constWorld resArgs treeSysA 300).2.1) (treeWhole treeA treeOpsA)
  obtain ⟨k2, k3⟩ := k.2.1 _ treeA_sys k1
  refine ⟨renameSys renDemo treeSysA, ?_, by decide +kernel, _, _, k2, ?_⟩
  · rw [k.1, treeA_sys]; rfl
  · rw [k3]
    have e2 : (yields (scriptAfter constWorld resArgs treeSysA 300).1).take 4 =
        [[0], [1, 2], [3], [0]] := by decide +kernel
    show List.take 4 (List.map _ _) = _
    rw [← List.map_take, e2]
    rfl

/-- That scheduler is made of a new one by the calls. -/
example : renameStack renDemo (treeWhole treeA treeOpsA).stack =
    performed (renameStack renDemo pairStack) (treeOpsA.map (renameOp renDemo)) :=
  ((C112_calls renDemo treeOpsA pairStack).2.trans rfl).symm

example := C112_new renDemo treeA .standard (none : Option Nat) 1 demoWorld noOwners (fun _ => none)

example := C112_cycles renDemo cyclesOf_lists

end GS.Props
