import Verif.Blocked
import Verif.Whole
import Verif.Props.Structural
/-!
# A rejected structural condition blocks the scheduler until it is removed (C110)
-/

set_option linter.unusedSectionVars false

namespace GS.Props
open GS Spec
variable {α κ W : Type _} [DecidableEq α] [DecidableEq κ]

/-- What is known after the rejection and some further calls. -/
theorem blocked_state (mode : Mode) (base : Graph α) (st : Store α κ) (ow : OId → Option α)
    (ops more : List (SchedOp α κ W)) (s s1 : Stack α κ W) (n : α) (c : SCond α) (e : Err)
    (all : List (α × SCond α)) (h1 : OneOwner all)
    (hall : ∀ op ∈ ops ++ .add n (.structural c) :: more, ∀ f ∈ op.adds, f ∈ all)
    (hq : Quiet (Stack.new mode base st ow) ops s)
    (hl : ∀ op, ops.getLast? = some op → ¬ op.Removes)
    (hn : n ∉ c.nodes) (ha : s.addCondition n (.structural c) = (s1, some e))
    (hk : ∀ op ∈ more, op.Keeps (c.o :: (present ops).map (·.2.o))) :
    ∃ g, composed base (present ops) = .ok g ∧ c.apply n g = .error e ∧
      SInv base mode all (present ops ++ (n, c) :: more.foldl SchedOp.effect []) (present ops)
        (performed s1 more) := by
  have hi := SInv.applied h1 (fun op hop => hall op (List.mem_append_left _ hop)) hq hl
  obtain ⟨g, rest, eg, hc⟩ := hi.stack.tower.composed
  have hcall : ∀ f ∈ structEntries [(n, (.structural c : AnyCond α κ W))], f ∈ all :=
    hall (.add n (.structural c)) (by simp)
  have hin : ∀ f ∈ present ops ++ structEntries [(n, (.structural c : AnyCond α κ W))],
      f ∈ all := by
    intro f hf
    rcases List.mem_append.mp hf with hf | hf
    · exact hi.esAll f hf
    · exact hcall f hf
  obtain ⟨cs, hcs⟩ := add_ok n (.structural c) s.cset (fun f hf => by
    simp only [structEntries, List.mem_cons, List.not_mem_nil, or_false] at hf
    subst hf; exact hn)
  have hci := hi.cset.add (OneOwner.sub h1 hin) hcs
  have hs' : SInv base mode all (present ops ++ (n, c) :: []) (present ops)
      { s with cset := cs } :=
    ⟨⟨hi.stack.tower, hi.stack.queues, hi.stack.indices, hi.stack.last⟩, hci, hi.mode, hin,
      hi.lsAll⟩
  simp only [Stack.addCondition, hcs] at ha
  have hap : c.apply n g = .error e := by
    have := hs'.handle h1
    rw [composed_append, hc] at this
    cases hx : c.apply n g with
    | ok g' =>
      simp only [composed, hx] at this
      obtain ⟨t, ht, _⟩ := this
      rw [ha] at ht; simp at ht
    | error e' =>
      simp only [composed, hx] at this
      obtain ⟨t, ht⟩ := this
      rw [ha] at ht
      simp only [Prod.mk.injEq, Option.some.injEq] at ht
      rw [ht.2]
  have hst := hs'.stays hc hap
  rw [ha] at hst
  simp only [Prod.mk.injEq, and_true] at hst
  subst hst
  exact ⟨g, hc, hap, SInv.performed h1 hc hap more hs'
    (fun op hop => hall op (by simp [hop])) hk⟩

/-- C110.  If adding a structural condition raises (the last call before was not a
removal), then until it is removed every read of `graph`, `consideration_queue` and
`consideration_queue_indices` and every further addition raises the same exception, however
many conditions are added, or removed again, meanwhile. -/
theorem C110_blocked (mode : Mode) (base : Graph α) (st : Store α κ) (ow : OId → Option α)
    (ops more : List (SchedOp α κ W)) (s s1 : Stack α κ W) (n : α) (c : SCond α) (e : Err)
    (h1 : OneOwner ((ops ++ .add n (.structural c) :: more).flatMap SchedOp.adds))
    (hq : Quiet (Stack.new mode base st ow) ops s)
    (hl : ∀ op, ops.getLast? = some op → ¬ op.Removes)
    (hn : n ∉ c.nodes) (ha : s.addCondition n (.structural c) = (s1, some e))
    (hk : ∀ op ∈ more, op.Keeps (c.o :: (present ops).map (·.2.o))) :
    (performed s1 more).readGraph.2 = .error e ∧
    (performed s1 more).readQueue.2 = .error e ∧
    (performed s1 more).readIndices.2 = .error e ∧
    ∀ op : SchedOp α κ W, op.Adding → op.Keeps [] →
      OneOwner (((ops ++ .add n (.structural c) :: more) ++ [op]).flatMap SchedOp.adds) →
      (op.call (performed s1 more)).2 = some e := by
  have key : ∀ all : List (α × SCond α), OneOwner all →
      (∀ op ∈ ops ++ .add n (.structural c) :: more, ∀ f ∈ op.adds, f ∈ all) → _ :=
    fun all ho hall => blocked_state mode base st ow ops more s s1 n c e all ho hall hq hl hn ha hk
  obtain ⟨g, hg, hap, hi⟩ := key _ h1 fun op hop f hf => List.mem_flatMap.mpr ⟨op, hop, hf⟩
  have hst := hi.stays hg hap
  refine ⟨by simp only [Stack.readGraph, hst], by simp only [Stack.readQueue, hst],
    by simp only [Stack.readIndices, hst], ?_⟩
  intro op had hkp ho
  obtain ⟨g', hg', hap', hi'⟩ := key _ ho fun o hop f hf =>
    List.mem_flatMap.mpr ⟨o, List.mem_append_left _ hop, hf⟩
  refine (hi'.keeps ho hg' hap' (op := op)
    (fun f hf => List.mem_flatMap.mpr ⟨op, by simp, hf⟩) ?_).2 had
  cases op with
  | remove x => exact absurd had (by simp [SchedOp.Adding])
  | _ => exact hkp

/-- C110.  Nor can a run be started until then: `run` reads the graph first. -/
theorem C110_no_run (mode : Mode) (base : Graph α) (st : Store α κ) (ow : OId → Option α)
    (ops more : List (SchedOp α κ W)) (s s1 : Stack α κ W) (n : α) (c : SCond α) (e : Err)
    (h1 : OneOwner ((ops ++ .add n (.structural c) :: more).flatMap SchedOp.adds))
    (hq : Quiet (Stack.new mode base st ow) ops s)
    (hl : ∀ op, ops.getLast? = some op → ¬ op.Removes)
    (hn : n ∉ c.nodes) (ha : s.addCondition n (.structural c) = (s1, some e))
    (hk : ∀ op ∈ more, op.Keeps (c.o :: (present ops).map (·.2.o)))
    (w : Whole α κ W) (hw : w.stack = performed s1 more) : w.sys = .error e := by
  have h := (C110_blocked mode base st ow ops more s s1 n c e h1 hq hl hn ha hk).1
  simp only [Whole.sys, hw, h]

/-- C110.  And once it is removed, all is as if it had never been added: nothing of what
was added or removed meanwhile is lost, and later calls behave as they should. -/
theorem C110_recovers (mode : Mode) (base : Graph α) (st : Store α κ) (ow : OId → Option α)
    (ops more after : List (SchedOp α κ W)) (s s1 t u : Stack α κ W) (n : α) (c : SCond α) (e : Err)
    (h1 : OneOwner ((ops ++ .add n (.structural c) :: more ++ after).flatMap SchedOp.adds))
    (hq : Quiet (Stack.new mode base st ow) ops s)
    (hl : ∀ op, ops.getLast? = some op → ¬ op.Removes)
    (hn : n ∉ c.nodes) (hnew : c.o ∉ (present ops).map (·.2.o))
    (ha : s.addCondition n (.structural c) = (s1, some e))
    (hk : ∀ op ∈ more, op.Keeps (c.o :: (present ops).map (·.2.o)))
    (r : Except Err (Option (AnyCond α κ W)))
    (hr : (performed s1 more).removeCondition (.structural c) = (t, r))
    (hq' : Quiet t after u) :
    r = .ok (some (.structural c)) ∧
    u.readGraph.2 = composed base (present (ops ++ more ++ after)) ∧
    u.readQueue.2 = onGraph (queueFor mode) (composed base (present (ops ++ more ++ after))) ∧
    u.readIndices.2 = onGraph (fun g => queueIndices (queueOf g))
      (composed base (present (ops ++ more ++ after))) := by
  obtain ⟨g, hg, hap, hi⟩ := blocked_state mode base st ow ops more s s1 n c e _ h1
    (fun op hop f hf => List.mem_flatMap.mpr ⟨op, List.mem_append_left _ hop, hf⟩)
    hq hl hn ha hk
  have hpre : present ops ++ more.foldl SchedOp.effect [] = present (ops ++ more) := by
    unfold present
    rw [List.foldl_append]
    have := foldl_effect_append more (present ops) []
      (fun op hop => (hk op hop).mono fun o ho => List.mem_cons_of_mem _ ho)
    rw [List.append_nil] at this
    exact this.symm
  have her : eraseFirst c.o (present ops ++ (n, c) :: more.foldl SchedOp.effect []) =
      present (ops ++ more) := by
    rw [eraseFirst_append _ _ _ hnew, ← hpre]; simp [eraseFirst]
  have hown : (performed s1 more).cset.ownerOf (.structural c) = some n :=
    hi.cset.owners (n, c) (by simp)
  simp only [Stack.removeCondition, Prod.mk.injEq] at hr
  obtain ⟨rfl, rfl⟩ := hr
  refine ⟨?_, ?_⟩
  · simp only [CSet.removeCond, hown]
    split <;> rfl
  · have hci := hi.cset.remove_any (.structural c)
    simp only [SchedOp.effect, her] at hci
    have ht : SInv base mode _ (present (ops ++ more)) (present ops)
        { performed s1 more with cset := ((performed s1 more).cset.removeCond (.structural c)).1 } :=
      ⟨⟨hi.stack.tower, hi.stack.queues, hi.stack.indices, hi.stack.last⟩, hci, hi.mode,
        (fun f hf => hi.esAll f (mem_eraseFirst (o := c.o) (by rw [her]; exact hf))), hi.lsAll⟩
    obtain ⟨ls, hu⟩ := ht.quiet h1
      (fun op hop f hf => List.mem_flatMap.mpr ⟨op, List.mem_append_right _ hop, hf⟩) hq'
    have hp : after.foldl SchedOp.effect (present (ops ++ more)) = present (ops ++ more ++ after) := by
      unfold present; rw [List.foldl_append (l := ops ++ more)]
    rw [hp] at hu
    exact ⟨(readGraph_spec h1 hu).1, (readQueue_spec h1 hu).1, (readIndices_spec h1 hu).1⟩

/-- One condition, then a rejected one (object 2), and meanwhile two further additions, a
removal and a read. -/
def beforeReject : List (SchedOp Nat Nat Unit) := [.add 0 (.structural (addSenderTo 1 1))]

def meanwhile : List (SchedOp Nat Nat Unit) :=
  [.add 0 (.structural (addSenderTo 3 2)), .graph,
   .addSet [(1, [.basic (.leaf 9 .always), .structural (addSenderTo 4 2)])],
   .remove (.structural (addSenderTo 3 2)), .queue]

/-- The state after the rejection. -/
def rejected : Stack Nat Nat Unit :=
  ((afterOps freshStack beforeReject).addCondition 0 (.structural (failing 2))).1

theorem beforeReject_quiet : Quiet freshStack beforeReject (afterOps freshStack beforeReject) :=
  quiet_of _ _ (by decide)

theorem rejected_eq : (afterOps freshStack beforeReject).addCondition 0 (.structural (failing 2)) =
    (rejected, some .conditionError) := Prod.ext rfl (by decide +kernel)

theorem reject_owners (l : List (Nat × SCond Nat))
    (h : ∀ e ∈ l, e = (0, addSenderTo 1 1) ∨ e = (0, failing 2) ∨ e = (0, addSenderTo 3 2) ∨
      e = (1, addSenderTo 4 2)) : OneOwner l := by
  intro e he f hf ho
  rcases h e he with rfl | rfl | rfl | rfl <;> rcases h f hf with rfl | rfl | rfl | rfl <;>
    first | rfl | (simp [addSenderTo, failing] at ho)

theorem meanwhile_keeps : ∀ op ∈ meanwhile,
    op.Keeps ((failing 2).o :: (present beforeReject).map (·.2.o)) := by
  intro op hop
  simp only [meanwhile, List.mem_cons, List.not_mem_nil, or_false] at hop
  rcases hop with rfl | rfl | rfl | rfl | rfl <;>
    simp [SchedOp.Keeps, structEntries, listed, present, beforeReject, SchedOp.effect, SchedOp.adds,
      addSenderTo, failing]

theorem beforeReject_last (op : SchedOp Nat Nat Unit) (h : beforeReject.getLast? = some op) :
    ¬ op.Removes := by
  simp only [beforeReject, List.getLast?_singleton, Option.some.injEq] at h
  subst h; simp [SchedOp.Removes]

/-- The hypotheses are met: it is blocked in the example … -/
example := C110_blocked .standard threeNodes noOwners (fun _ => none) beforeReject meanwhile
  _ rejected 0 (failing 2) _ (reject_owners _ (by
    simp [beforeReject, meanwhile, SchedOp.adds, structEntries, listed]))
  beforeReject_quiet beforeReject_last (by simp [failing]) rejected_eq meanwhile_keeps

example (w : Whole Nat Nat Unit) (hw : w.stack = performed rejected meanwhile) :=
  C110_no_run .standard threeNodes noOwners (fun _ => none) beforeReject meanwhile
  _ rejected 0 (failing 2) _ (reject_owners _ (by
    simp [beforeReject, meanwhile, SchedOp.adds, structEntries, listed]))
  beforeReject_quiet beforeReject_last (by simp [failing]) rejected_eq meanwhile_keeps w hw

/-- … and recovers: the graph has the edges of objects 1 and 4. -/
example := C110_recovers .standard threeNodes noOwners (fun _ => none) beforeReject meanwhile
  [.graph] _ rejected _ _ 0 (failing 2) _ (reject_owners _ (by
    simp [beforeReject, meanwhile, SchedOp.adds, structEntries, listed]))
  beforeReject_quiet beforeReject_last (by simp [failing])
  (by simp [present, beforeReject, SchedOp.effect, SchedOp.adds, structEntries, addSenderTo, failing])
  rejected_eq meanwhile_keeps _ rfl (quiet_of _ [.graph] (by decide +kernel))

example :
    (performed rejected meanwhile).readQueue.2 = .error .conditionError ∧
    composed threeNodes (present (beforeReject ++ meanwhile)) = .ok [(0, []), (1, [0]), (2, [1])] ∧
    ((performed rejected meanwhile).removeCondition (.structural (failing 2))).1.readGraph.2 =
      .ok [(0, []), (1, [0]), (2, [1])] := by decide +kernel

/-- Why no condition that was applied before may be removed meanwhile: after such a removal
and a read, every read raises `IndexError`, also when the rejected condition is removed. -/
theorem C110_earlier_removed :
    let broken := (performed rejected [.remove (.structural (addSenderTo 1 1)), .graph,
      .remove (.structural (failing 2))])
    broken.cset.order.map (·.o) = [] ∧ broken.readGraph.2 = .error .indexError ∧
      broken.readGraph.1.readGraph.2 = .error .indexError := by
  decide +kernel

end GS.Props
