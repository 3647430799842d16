import Verif.StructuralUndo
import Verif.Props.CondSet
/-!
# Properties of structural conditions in a scheduler (C32, C33, C34)
-/

set_option linter.unusedSectionVars false

namespace GS.Props
open GS Spec
variable {α κ W : Type _} [DecidableEq α] [DecidableEq κ]

/-- C32.  After any sequence of additions, removals and reads in which nothing raised,
`Scheduler.graph` is the base graph transformed by the structural conditions that are
present, in the order they were added, and `consideration_queue` and
`consideration_queue_indices` belong to that graph; if the composition raises, reading
raises the same.  (Each condition object is used for one owner: `C32_other_owner` shows
what happens otherwise.) -/
theorem C32_composition_partial (mode : Mode) (base : Graph α) (st : Store α κ)
    (ow : OId → Option α) (ops : List (SchedOp α κ W)) (s : Stack α κ W)
    (hq : Quiet (Stack.new mode base st ow) ops s) (h1 : OneOwner (ops.flatMap SchedOp.adds)) :
    s.readGraph.2 = composed base (present ops) ∧
    s.readQueue.2 = onGraph (queueFor mode) (composed base (present ops)) ∧
    s.readIndices.2 = onGraph (fun g => queueIndices (queueOf g)) (composed base (present ops)) := by
  obtain ⟨ls, h⟩ := (SInv.new base mode st ow _).quiet h1
    (fun op hop e he => List.mem_flatMap.mpr ⟨op, hop, he⟩) hq
  exact ⟨(readGraph_spec h1 h).1, (readQueue_spec h1 h).1, (readIndices_spec h1 h).1⟩

/-- A custom structural condition: one more sender, the owner, for `r`. -/
def addSenderTo (o : OId) (r : Nat) : SCond Nat :=
  { o := o, nodes := [], apply := fun n g =>
      match Dict.get? g r with
      | some l => .ok (Dict.set g r (l ++ [n]))
      | none => .error .conditionError }

/-- A base graph without edges. -/
def threeNodes : Graph Nat := [(0, []), (1, []), (2, [])]

/-- A scheduler on it. -/
def freshStack : Stack Nat Nat Unit := Stack.new .standard threeNodes noOwners (fun _ => none)

/-- Some additions, one removal, and some reads. -/
def someOps : List (SchedOp Nat Nat Unit) :=
  [.add 0 (.structural (addSenderTo 1 1)), .graph, .add 0 (.structural (addSenderTo 2 2)),
   .add 1 (.structural (addSenderTo 3 2)), .remove (.structural (addSenderTo 2 2)), .queue]

/-- The state after some operations. -/
def afterOps (s : Stack Nat Nat Unit) (ops : List (SchedOp Nat Nat Unit)) : Stack Nat Nat Unit :=
  ops.foldl (fun s op => (op.call s).1) s

/-- None of the operations raises. -/
def noneRaises (s : Stack Nat Nat Unit) : List (SchedOp Nat Nat Unit) → Bool
  | [] => true
  | op :: ops => (op.call s).2.isNone && noneRaises (op.call s).1 ops

theorem quiet_of (s : Stack Nat Nat Unit) (ops : List (SchedOp Nat Nat Unit))
    (h : noneRaises s ops = true) : Quiet s ops (afterOps s ops) := by
  induction ops generalizing s with
  | nil => exact .nil s
  | cons op ops ih =>
    simp only [noneRaises, Bool.and_eq_true, Option.isNone_iff_eq_none] at h
    exact .cons (Prod.ext rfl h.1) (ih _ h.2)

theorem someOps_quiet : Quiet freshStack someOps (afterOps freshStack someOps) :=
  quiet_of _ _ (by decide)

theorem someOps_oneOwner : OneOwner (someOps.flatMap SchedOp.adds) := by
  intro e he f hf h
  simp only [someOps, List.flatMap_cons, List.flatMap_nil, SchedOp.adds, structEntries,
    List.append_nil, List.nil_append, List.cons_append, List.mem_cons, List.not_mem_nil,
    or_false] at he hf
  rcases he with rfl | rfl | rfl <;> rcases hf with rfl | rfl | rfl <;>
    first | rfl | (simp [addSenderTo] at h)

example : (present someOps).map (fun e => (e.1, e.2.o)) = [(0, 1), (1, 3)] ∧
    (afterOps freshStack someOps).readGraph.2 = .ok [(0, []), (1, [0]), (2, [1])] ∧
    (afterOps freshStack someOps).readQueue.2 = .ok [[0], [1], [2]] := by decide

/-- C32 fails without that assumption: a removed condition that is added for another
owner, with no read in between, still acts for the old owner. -/
theorem C32_other_owner :
    ∃ (ops : List (SchedOp Nat Nat Unit)) (s : Stack Nat Nat Unit),
      Quiet freshStack ops s ∧ s.readGraph.2 ≠ composed threeNodes (present ops) := by
  let ops : List (SchedOp Nat Nat Unit) :=
    [.add 0 (.structural (addSenderTo 1 2)), .remove (.structural (addSenderTo 1 2)),
     .add 1 (.structural (addSenderTo 1 2))]
  exact ⟨ops, _, quiet_of _ ops (by decide), by decide⟩

/-- C33.  Adding a structural condition that is not present and removing it again
restores the graph, the consideration queue and the positions, whatever conditions were
there before and whatever was removed or read.  The removal returns the condition. -/
theorem C33_undo (mode : Mode) (base : Graph α) (st : Store α κ) (ow : OId → Option α)
    (ops : List (SchedOp α κ W)) (s s1 s2 : Stack α κ W)
    (hq : Quiet (Stack.new mode base st ow) ops s) (n : α) (c : SCond α)
    (hn : c.o ∉ s.cset.order.map (·.o))
    (r : Except Err (Option (AnyCond α κ W)))
    (ha : s.addCondition n (.structural c) = (s1, none))
    (hr : s1.removeCondition (.structural c) = (s2, r)) :
    r = .ok (some (.structural c)) ∧ s2.readGraph.2 = s.readGraph.2 ∧
      s2.readQueue.2 = s.readQueue.2 ∧ s2.readIndices.2 = s.readIndices.2 := by
  obtain ⟨⟨ls, hl⟩, hown, hm⟩ := (GInv.new base mode st ow).quiet hq
  obtain ⟨es, e1, e2⟩ := hown.entries
  -- the addition
  simp only [Stack.addCondition] at ha
  split at ha
  · simp at ha
  next cs hcs =>
  obtain ⟨q1, q2, q3, q4, q5⟩ := add_remove_order hn hcs
  have hnes : ∀ e ∈ es, e.2.o ≠ c.o := by
    intro e he h
    refine hn ?_
    rw [e1, ← h]
    exact List.mem_map.mpr ⟨e.2, List.mem_map.mpr ⟨e, he, rfl⟩, rfl⟩
  have f1 : ({ s with cset := cs } : Stack α κ W).cset.order = (es ++ [(n, c)]).map Prod.snd := by
    simp [q4, e1]
  have f2 : ∀ e ∈ es ++ [(n, c)],
      ({ s with cset := cs } : Stack α κ W).cset.owners e.2.o = some e.1 := by
    intro e he
    simp only [q5]
    rcases List.mem_append.mp he with he | he
    · rw [if_neg (hnes e he)]; exact e2 e he
    · simp at he; subst he; simp
  have hsp := Stack.handle_spec (base := base) (ls := ls) (es := es ++ [(n, c)])
    (s := { s with cset := cs }) ⟨hl.tower, hl.queues, hl.indices, hl.last⟩ f1 f2
  simp only at hsp
  generalize hk1 : commonPrefix (ls.map (·.2.o)) ((es ++ [(n, c)]).map (·.2.o)) = k1 at hsp
  generalize hls1 : ls.take k1 ++ (es ++ [(n, c)]).drop k1 = ls1 at hsp
  split at hsp
  case h_2 => obtain ⟨t, ht, _⟩ := hsp; rw [ha] at ht; simp at ht
  next g1 hg1 =>
  obtain ⟨t, ht, hi, _, hcset, hmode⟩ := hsp
  rw [ha] at ht
  simp only [Prod.mk.injEq, and_true] at ht
  subst ht
  -- the removal
  simp only [Stack.removeCondition, Prod.mk.injEq] at hr
  obtain ⟨rfl, rfl⟩ := hr
  rw [hcset]
  refine ⟨q1, ?_⟩
  have hle := commonPrefix_le (ls.map (·.2.o)) (es.map (·.2.o))
  simp only [List.length_map] at hle
  -- what is applied
  have hids : ls1.map (·.2.o) = es.map (·.2.o) ++ [c.o] := by
    have htk := commonPrefix_take (ls.map (·.2.o)) ((es ++ [(n, c)]).map (·.2.o))
    rw [hk1] at htk
    rw [← hls1, List.map_append, List.map_take, htk, List.map_drop, List.take_append_drop]
    simp
  have hcp : commonPrefix (ls1.map (·.2.o)) (es.map (·.2.o)) = es.length := by
    rw [hids, commonPrefix_append_left]; simp
  have hsame : ls1.take es.length =
      ls.take (commonPrefix (ls.map (·.2.o)) (es.map (·.2.o))) ++
        es.drop (commonPrefix (ls.map (·.2.o)) (es.map (·.2.o))) := by
    have hsn := commonPrefix_snoc (ls.map (·.2.o)) (es.map (·.2.o)) c.o
    have hk1' : commonPrefix (ls.map (·.2.o)) (es.map (·.2.o) ++ [c.o]) = k1 := by
      rw [← hk1]; simp
    rw [hk1'] at hsn
    rw [← hls1]
    rcases hsn with hsn | ⟨hsn1, hsn2⟩
    · rw [← hsn] at hle ⊢
      rw [List.drop_append_of_le_length hle.2, ← List.append_assoc]
      rw [List.take_append_of_le_length (by simp; omega)]
      rw [List.take_of_length_le (by simp; omega)]
    · simp only [List.length_map] at hsn1 hsn2
      rw [hsn1, hsn2]
      have hk1l : k1 ≤ ls.length := by
        have := (commonPrefix_le (ls.map (·.2.o)) ((es ++ [(n, c)]).map (·.2.o))).1
        rw [hk1] at this; simpa using this
      rw [List.take_append_of_le_length (by simp; omega), List.take_take]
      simp
  have hr0 := reads_spec hl e1 e2 _ rfl
  have g1' : ({ s1 with cset := (cs.removeCond (.structural c)).1 } : Stack α κ W).cset.order =
      es.map Prod.snd := by simp only [q2]; exact e1
  have g2' : ∀ e ∈ es,
      ({ s1 with cset := (cs.removeCond (.structural c)).1 } : Stack α κ W).cset.owners e.2.o =
        some e.1 := by
    intro e he
    simp only [q3]
    exact f2 e (List.mem_append_left _ he)
  have hr2 := reads_spec (base := base) (ls := ls1) (es := es)
    (s := { s1 with cset := (cs.removeCond (.structural c)).1 })
    ⟨hi.tower, hi.queues, hi.indices, hi.last⟩ g1' g2' _ rfl
  rw [hcp, hsame, List.drop_of_length_le (Nat.le_refl es.length), List.append_nil] at hr2
  refine ⟨hr2.1.trans hr0.1.symm, ?_, hr2.2.2.trans hr0.2.2.symm⟩
  rw [hr2.2.1, hr0.2.1]
  show onGraph (queueFor s1.mode) _ = _
  rw [hmode]

example : (6 : OId) ∉ (afterOps freshStack someOps).cset.order.map (·.o) ∧
    ((afterOps freshStack someOps).addCondition 0 (.structural (addSenderTo 6 2))).2 = none ∧
    ((afterOps freshStack someOps).addCondition 0 (.structural (addSenderTo 6 2))).1.readGraph.2 =
      .ok [(0, []), (1, [0]), (2, [1, 0])] := by decide

/-- C33.  Reading `graph`, `consideration_queue` or `consideration_queue_indices` does
not change what they return. -/
theorem C33_reads (s : Stack α κ W) (op : SchedOp α κ W)
    (hop : op = .graph ∨ op = .queue ∨ op = .indices) (s' : Stack α κ W)
    (h : op.call s = (s', none)) :
    s'.readGraph.2 = s.readGraph.2 ∧ s'.readQueue.2 = s.readQueue.2 ∧
      s'.readIndices.2 = s.readIndices.2 := by
  have hh : s.handle = (s', none) := by
    rcases hop with rfl | rfl | rfl <;> simp only [SchedOp.call, Prod.mk.injEq] at h
    · rw [← h.1]; exact readGraph_state s h.2
    · rw [← h.1]; exact readQueue_state s h.2
    · rw [← h.1]; exact readIndices_state s h.2
  have h2 := Stack.handle_twice hh
  have r1 := Stack.reads_handled hh
  have r2 := Stack.reads_handled h2
  exact ⟨by rw [r1.1, r2.1], by rw [r1.2.2.2, r2.2.2.2], by rw [r1.2.1, r2.2.1]⟩

/-- C34.  If the graph has been read (or a condition added) since the last removal, and
adding a new structural condition raises, then after its removal the graph, the
consideration queue and the positions are those before the attempt.  What is missing:
failing additions after a removal without a read (`C34_after_removal`) and failing bulk
additions (`C34_bulk`). -/
theorem C34_rejected_partial (s s1 s2 s3 : Stack α κ W) (g : Graph α) (hg : s.readGraph = (s1, .ok g))
    (n : α) (c : SCond α) (hn : c.o ∉ s1.cset.order.map (·.o)) (e : Err)
    (ha : s1.addCondition n (.structural c) = (s2, some e))
    (r : Except Err (Option (AnyCond α κ W)))
    (hr : s2.removeCondition (.structural c) = (s3, r)) :
    s3.readGraph.2 = .ok g ∧ s3.readQueue.2 = s.readQueue.2 ∧
      s3.readIndices.2 = s.readIndices.2 := by
  have hh : s.handle = (s1, none) := by
    have h0 : raised s.readGraph.2 = none := by rw [hg]; rfl
    have := readGraph_state s h0
    rw [hg] at this; exact this
  have hlast := Stack.handle_last hh
  have hl1 : s1.last = some (s1.cset.order.map (·.o)) := by rw [hlast.1, hlast.2]
  -- it is enough that the stack and the order are restored
  have key : s3.graphs = s1.graphs → s3.queues = s1.queues → s3.indices = s1.indices →
      s3.mode = s1.mode → s3.last = s1.last → s3.cset.order = s1.cset.order →
      s3.readGraph.2 = .ok g ∧ s3.readQueue.2 = s.readQueue.2 ∧
        s3.readIndices.2 = s.readIndices.2 := by
    intro k1 k2 k3 k4 k5 k6
    have h3 : s3.handle = (s3, none) := Stack.handle_noop (by rw [k5, k6]; exact hl1)
    have r1 := Stack.reads_handled hh
    have r3 := Stack.reads_handled h3
    refine ⟨?_, ?_, ?_⟩
    · rw [r3.1, k1]
      rw [hg] at r1
      exact (congrArg Prod.snd r1.1).symm
    · rw [r3.2.2.2, r1.2.2.2, k1, k2, k4]
    · rw [r3.2.1, r1.2.1, k3]
  simp only [Stack.removeCondition, Prod.mk.injEq] at hr
  obtain ⟨rfl, rfl⟩ := hr
  simp only [Stack.addCondition] at ha
  split at ha
  · -- the owner was rejected
    next cs e' hcs =>
    simp only [Prod.mk.injEq] at ha
    obtain ⟨rfl, _⟩ := ha
    have := CSet.add_error hcs
    subst this
    refine key rfl rfl rfl rfl rfl ?_
    simp only [CSet.removeCond]
    split
    · rfl
    · simp only [CSet.removeStructural]
      have hnone := removeObj_none c.o s1.cset.order hn
      cases Dict.get? s1.cset.structural ‹α› with
      | none => rfl
      | some l =>
        simp only
        cases removeObj c.o l with
        | none => rfl
        | some l' => simp only [hnone]
  · next cs hcs =>
    obtain ⟨q1, q2, q3, q4, q5⟩ := add_remove_order hn hcs
    have hid : cs.order.map (·.o) = s1.cset.order.map (·.o) ++ [c.o] := by simp [q4]
    have hne : ¬ s1.last = some (cs.order.map (·.o)) := by
      rw [hl1, hid]; simp
    have hk : commonWith s1.last (cs.order.map (·.o)) = s1.cset.order.length := by
      rw [hl1, hid]
      simp only [commonWith]
      have : ∀ (l m : List OId), commonPrefix l (l ++ m) = l.length := by
        intro l m
        induction l with
        | nil => cases m <;> rfl
        | cons a l ih => simp [commonPrefix, ih]
      rw [this]; simp
    have hp : numPops s1.last s1.cset.order.length = 0 := by
      rw [hl1]; simp [numPops]
    have hd : cs.order.drop s1.cset.order.length = [c] := by rw [q4]; simp
    simp only [Stack.handle] at ha
    rw [if_neg hne, hk, hp, hd] at ha
    simp only [Stack.popN] at ha
    cases hgr : s1.graphs with
    | nil =>
      rw [hgr] at ha
      simp only [Prod.mk.injEq] at ha
      obtain ⟨rfl, _⟩ := ha
      exact key hgr.symm rfl rfl rfl rfl q2
    | cons g0 gs =>
      rw [hgr] at ha
      simp only [Stack.pushAll] at ha
      split at ha
      · next heq =>
        split at heq
        · simp only [Prod.mk.injEq] at heq ha
          obtain ⟨rfl, _⟩ := heq
          obtain ⟨rfl, _⟩ := ha
          exact key hgr.symm rfl rfl rfl rfl q2
        · simp at heq
      · simp at ha

/-- A structural condition that raises. -/
def failing (o : OId) : SCond Nat :=
  { o := o, nodes := [], apply := fun _ _ => .error .conditionError }

example : ((afterOps freshStack someOps).addCondition 0 (.structural (failing 6))).2 =
    some .conditionError := by decide

/-- Two conditions are added and the first is removed. -/
def twoThenOne : List (SchedOp Nat Nat Unit) :=
  [.add 0 (.structural (addSenderTo 1 1)), .add 0 (.structural (addSenderTo 2 2)),
   .remove (.structural (addSenderTo 1 1))]

/-- C34 as stated fails: two conditions are present, the first is removed, and then a
failing one is added.  After its removal every read raises `IndexError`: the base graph
itself has been popped. -/
theorem C34_after_removal :
    Quiet freshStack twoThenOne (afterOps freshStack twoThenOne) ∧
    (afterOps freshStack twoThenOne).readGraph.2 = .ok [(0, []), (1, []), (2, [0])] ∧
    ((afterOps freshStack twoThenOne).addCondition 0 (.structural (failing 3))).2 =
      some .conditionError ∧
    (((afterOps freshStack twoThenOne).addCondition 0
      (.structural (failing 3))).1.removeCondition (.structural (failing 3))).1.readGraph.2 =
        .error .indexError := by
  refine ⟨quiet_of _ _ (by decide +kernel), ?_⟩
  decide +kernel

/-- A custom structural condition that is not idempotent: it adds the edge from the
owner to `r`, or removes it if it exists. -/
def toggle (o : OId) (r : Nat) : SCond Nat :=
  { o := o, nodes := [], apply := fun n g =>
      match Dict.get? g r with
      | some l => .ok (Dict.set g r (if n ∈ l then l.filter (· ≠ n) else l ++ [n]))
      | none => .error .conditionError }

/-- The state after a bulk addition whose second condition raises, and the removal of
that condition. -/
def bulkState : Stack Nat Nat Unit :=
  ((freshStack.addConditionSet
    [(0, [.structural (toggle 1 1), .structural (failing 2)])]).1.removeCondition
      (.structural (failing 2))).1

/-- C34 as stated fails for bulk additions: a bulk addition fails at its second
condition.  After the removal of the failing one only the first is present, but it has
been applied twice. -/
theorem C34_bulk :
    (freshStack.addConditionSet
      [(0, [.structural (toggle 1 1), .structural (failing 2)])]).2 = some .conditionError ∧
    bulkState.cset.order.map (·.o) = [1] ∧
    composed threeNodes [(0, toggle 1 1)] = .ok [(0, []), (1, [0]), (2, [])] ∧
    bulkState.readGraph.2 = .ok [(0, []), (1, []), (2, [])] := by
  decide +kernel

end GS.Props
