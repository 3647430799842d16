import Verif.RenameGSC
/-!
# Renaming nodes: condition sets and the graph stack
-/

set_option linter.unusedSectionVars false

namespace GS
open Spec
variable {α β κ W : Type _} [DecidableEq α] [DecidableEq β] [DecidableEq κ]

section
variable (r : Renaming α β)

theorem erase_renameDict {γ δ : Type _} (f : γ → δ) (d : Dict α γ) (k : α) :
    Dict.erase (renameDict r f d) (r.to k) = renameDict r f (Dict.erase d k) := by
  induction d with
  | nil => rfl
  | cons p d ih =>
    show Dict.erase ((r.to p.1, f p.2) :: renameDict r f d) (r.to k) = _
    unfold Dict.erase
    simp only [r.inj, ih]
    split <;> rfl

theorem removeObj_rename (o : OId) : ∀ l : List (SCond α),
    removeObj o (l.map (renameSCond r)) = (removeObj o l).map (List.map (renameSCond r))
  | [] => rfl
  | c :: cs => by
    rw [List.map_cons]
    unfold removeObj
    have : (renameSCond r c).o = c.o := rfl
    rw [this, removeObj_rename o cs]
    split
    · rfl
    · cases removeObj o cs <;> rfl

theorem oids_rename (l : List (SCond α)) : (l.map (renameSCond r)).map (·.o) = l.map (·.o) := by
  rw [List.map_map]; rfl

/-- A condition set and what a method returns. -/
def renameC {γ δ : Type _} (f : γ → δ) (x : CSet α κ W × γ) : CSet β κ W × δ := (renameCSet r x.1, f x.2)

theorem ownerOf_rename (s : CSet α κ W) (c : AnyCond α κ W) :
    (renameCSet r s).ownerOf (renameAny r c) = (s.ownerOf c).map r.to := by
  cases c with
  | basic c =>
    show (renameStore r s.store).owner (renameCond r c).oid = _
    rw [oid_rename]; rfl
  | structural c => rfl

theorem structsFor_rename (s : CSet α κ W) (n : α) :
    (renameCSet r s).structsFor (r.to n) = (s.structsFor n).map (renameSCond r) := by
  unfold CSet.structsFor
  have : Dict.get? (renameCSet r s).structural (r.to n) = _ :=
    get?_renameDict r (List.map (renameSCond r)) s.structural n
  rw [this]
  cases Dict.get? s.structural n <;> rfl

theorem addStructural_rename (s : CSet α κ W) (n : α) (c : SCond α) :
    (renameCSet r s).addStructural (r.to n) (renameSCond r c) = renameC r id (s.addStructural n c) := by
  unfold CSet.addStructural
  have hn : (renameSCond r c).nodes = c.nodes.map r.to := rfl
  rw [hn]
  simp only [r.mem, structsFor_rename]
  split
  · rfl
  · unfold renameC renameCSet
    simp only [id_eq, Prod.mk.injEq, CSet.mk.injEq, and_true, true_and]
    refine ⟨?_, by simp, ?_⟩
    · have := set_renameDict r (List.map (renameSCond r)) s.structural n (s.structsFor n ++ [c])
      rw [List.map_append] at this
      exact this
    · funext o
      show (if o = c.o then some (r.to n) else (s.owners o).map r.to) = _
      split <;> rfl

theorem addBasicC_rename (s : CSet α κ W) (n : α) (c : Cond α κ W) :
    (renameCSet r s).addBasic (r.to n) (renameCond r c) = renameCSet r (s.addBasic n c) := by
  unfold CSet.addBasic
  have h1 : setOwner (some (r.to n)) (renameCond r c) (renameCSet r s).store =
      renameStore r (setOwner (some n) c s.store) := setOwner_rename r (some n) c s.store
  have h2 : Dict.set (renameCSet r s).basic (r.to n) (renameCond r c) = _ :=
    set_renameDict r (renameCond r) s.basic n c
  rw [h1, h2]
  rfl

theorem addC_rename (s : CSet α κ W) (n : α) (c : AnyCond α κ W) :
    (renameCSet r s).add (r.to n) (renameAny r c) = renameC r id (s.add n c) := by
  cases c with
  | basic c => exact Prod.ext (addBasicC_rename r s n c) rfl
  | structural c => exact addStructural_rename r s n c

theorem addAll_rename (n : α) : ∀ (cs : List (AnyCond α κ W)) (s : CSet α κ W),
    (renameCSet r s).addAll (r.to n) (cs.map (renameAny r)) = renameC r id (s.addAll n cs)
  | [], _ => rfl
  | c :: cs, s => by
    rw [List.map_cons]
    unfold CSet.addAll
    rw [addC_rename]
    rcases s.add n c with ⟨s', _ | e⟩
    · exact addAll_rename n cs s'
    · rfl

theorem addSet_rename : ∀ (d : Dict α (List (AnyCond α κ W))) (s : CSet α κ W),
    (renameCSet r s).addSet (renameDict r (List.map (renameAny r)) d) = renameC r id (s.addSet d)
  | [], _ => rfl
  | (n, cs) :: d, s => by
    show (renameCSet r s).addSet ((r.to n, cs.map (renameAny r)) :: renameDict r (List.map (renameAny r)) d) = _
    unfold CSet.addSet
    rw [addAll_rename]
    rcases s.addAll n cs with ⟨s', _ | e⟩
    · exact addSet_rename d s'
    · rfl

theorem removeBasic_rename (s : CSet α κ W) (n : α) (c : Cond α κ W) :
    (renameCSet r s).removeBasic (r.to n) (renameCond r c) = renameCSet r (s.removeBasic n c) := by
  unfold CSet.removeBasic
  have h1 : setOwner none (renameCond r c) (renameCSet r s).store =
      renameStore r (setOwner none c s.store) := setOwner_rename r none c s.store
  have h2 : Dict.erase (renameCSet r s).basic (r.to n) = _ := erase_renameDict r (renameCond r) s.basic n
  rw [h1, h2]
  rfl

theorem removeStructural_rename (s : CSet α κ W) (n : α) (o : OId) :
    (renameCSet r s).removeStructural (r.to n) o = renameC r id (s.removeStructural n o) := by
  unfold CSet.removeStructural
  have h1 : Dict.get? (renameCSet r s).structural (r.to n) = _ :=
    get?_renameDict r (List.map (renameSCond r)) s.structural n
  have h2 : (renameCSet r s).order = s.order.map (renameSCond r) := rfl
  rw [h1, h2, removeObj_rename]
  cases Dict.get? s.structural n with
  | none => rfl
  | some l =>
    simp only [Option.map_some, removeObj_rename]
    cases removeObj o l with
    | none => rfl
    | some l' =>
      simp only [Option.map_some]
      have h3 : Dict.set (renameCSet r s).structural (r.to n) (l'.map (renameSCond r)) = _ :=
        set_renameDict r (List.map (renameSCond r)) s.structural n l'
      have h4 : Dict.erase (renameCSet r s).structural (r.to n) = _ :=
        erase_renameDict r (List.map (renameSCond r)) s.structural n
      cases removeObj o s.order with
      | none => simp only [Option.map_none, h3]; rfl
      | some m =>
        simp only [Option.map_some, h3, h4, List.map_eq_nil_iff]
        split <;> rfl

/-- The same result of a removal. -/
def renameRemoved (r : Renaming α β) :
    Except Err (Option (AnyCond α κ W)) → Except Err (Option (AnyCond β κ W)) :=
  renameOk (Option.map (renameAny r))

theorem removeCond_rename (s : CSet α κ W) (c : AnyCond α κ W) :
    (renameCSet r s).removeCond (renameAny r c) = renameC r (renameRemoved r) (s.removeCond c) := by
  unfold CSet.removeCond
  rw [ownerOf_rename]
  cases s.ownerOf c with
  | none => rfl
  | some n =>
    cases c with
    | basic b =>
      have h1 : Dict.get? (renameCSet r s).basic (r.to n) = _ := get?_renameDict r (renameCond r) s.basic n
      simp only [Option.map_some, renameAny, h1]
      cases Dict.get? s.basic n with
      | none => rfl
      | some b' =>
        simp only [Option.map_some, oid_rename, removeBasic_rename]
        split <;> rfl
    | structural d =>
      simp only [Option.map_some, renameAny]
      have h1 : (renameSCond r d).o = d.o := rfl
      rw [h1, removeStructural_rename]
      rcases s.removeStructural n d.o with ⟨s', _ | _⟩ <;> rfl

theorem removeOwner_rename (s : CSet α κ W) (n : α) :
    (renameCSet r s).removeOwner (r.to n) = renameC r (renameRemoved r) (s.removeOwner n) := by
  unfold CSet.removeOwner
  have h1 : Dict.get? (renameCSet r s).basic (r.to n) = _ := get?_renameDict r (renameCond r) s.basic n
  have h2 : Dict.get? (renameCSet r s).structural (r.to n) = _ :=
    get?_renameDict r (List.map (renameSCond r)) s.structural n
  rw [h1, h2]
  cases Dict.get? s.basic n with
  | some b =>
    cases Dict.get? s.structural n with
    | some l => rfl
    | none =>
      simp only [Option.map_some, Option.map_none, removeBasic_rename]
      rfl
  | none =>
    cases Dict.get? s.structural n with
    | none => rfl
    | some l =>
      match l with
      | [] => rfl
      | [c] =>
        show (((renameCSet r s).removeStructural (r.to n) c.o).1, _) = _
        rw [removeStructural_rename]; rfl
      | _ :: _ :: _ => rfl

theorem showStructural_rename (v : Dict α (Shown α κ W)) (n : α) (l : List (SCond α)) :
    CSet.showStructural (renameDict r (renameShown r) v) (r.to n) (l.map (renameSCond r)) =
      renameDict r (renameShown r) (CSet.showStructural v n l) := by
  have hm : (l.map (renameSCond r)).map (AnyCond.structural (κ := κ) (W := W)) =
      (l.map (AnyCond.structural (κ := κ) (W := W))).map (renameAny r) := by
    rw [List.map_map, List.map_map]; rfl
  have h1 := get?_renameDict r (renameShown (κ := κ) (W := W) r) v n
  have hset := fun x => set_renameDict r (renameShown (κ := κ) (W := W) r) v n x
  unfold CSet.showStructural
  rw [h1]
  cases Dict.get? v n with
  | none =>
    match l with
    | [] => exact hset (.many [])
    | [c] => exact hset (.one (.structural c))
    | c :: d :: l =>
      simp only [Option.map_none, List.map_cons] at hm ⊢
      rw [← hset]
      simp only [renameShown, List.map_cons, hm]
  | some x =>
    cases x with
    | one b =>
      simp only [Option.map_some, renameShown]
      rw [← hset, hm]
      rfl
    | many bs =>
      match l with
      | [] => exact hset (.many [])
      | [c] => exact hset (.one (.structural c))
      | c :: d :: l =>
        simp only [Option.map_some, renameShown, List.map_cons] at hm ⊢
        rw [← hset]
        simp only [renameShown, List.map_cons, hm]

theorem conditions_rename (s : CSet α κ W) :
    (renameCSet r s).conditions = renameCSet r s.conditions := by
  unfold CSet.conditions
  have h0 : (renameCSet r s).rebuild = s.rebuild := rfl
  rw [h0]
  split
  · have h1 : ((renameCSet r s).basic.map fun p => (p.1, Shown.one (.basic p.2))) =
        renameDict r (renameShown r) (s.basic.map fun p => (p.1, Shown.one (.basic p.2))) := by
      unfold renameCSet renameDict
      simp only [List.map_map]
      rfl
    have h2 := foldl_rename (φ := renameDict r (renameShown (κ := κ) (W := W) r))
      (ψ := fun p : α × List (SCond α) => (r.to p.1, p.2.map (renameSCond r)))
      (f := fun v p => CSet.showStructural v p.1 p.2) (f' := fun v p => CSet.showStructural v p.1 p.2)
      (fun v p => showStructural_rename r v p.1 p.2) s.structural
      (s.basic.map fun p => (p.1, Shown.one (.basic p.2)))
    have h3 : (renameCSet r s).structural =
      s.structural.map fun p : α × List (SCond α) => (r.to p.1, p.2.map (renameSCond r)) := rfl
    simp only [h1, h3, h2]
    rfl
  · rfl

theorem getItem_rename (s : CSet α κ W) (n : α) :
    (renameCSet r s).getItem (r.to n) = (s.getItem n).map (renameShown r) := by
  unfold CSet.getItem
  rw [conditions_rename]
  exact get?_renameDict r (renameShown r) s.conditions.view n

/-! ## The graph stack -/

theorem queueIndices_rename (q : List (List α)) :
    queueIndices (renameSets r q) = renameDict r id (queueIndices q) := by
  unfold queueIndices renameSets
  rw [List.zipIdx_map]
  refine foldl_rename (φ := renameDict r (id : Nat → Nat)) (ψ := Prod.map (List.map r.to) id) (fun d p => ?_) _ []
  exact foldl_rename (φ := renameDict r (id : Nat → Nat)) (ψ := r.to)
    (fun d n => set_renameDict r id d n p.2) p.1 d

/-- A stack and what a method returns. -/
def renameS {γ δ : Type _} (f : γ → δ) (x : Stack α κ W × γ) : Stack β κ W × δ := (renameStack r x.1, f x.2)

namespace Stack

theorem push_rename (s : Stack α κ W) (g : Graph α) :
    (renameStack r s).push (renameGraph r g) = renameStack r (s.push g) := by
  unfold push
  rw [queueOf_rename, queueIndices_rename]
  rfl

theorem popN_rename : ∀ (k : Nat) (s : Stack α κ W),
    popN k (renameStack r s) = renameS r id (popN k s)
  | 0, _ => rfl
  | k + 1, s => by
    unfold popN
    have h1 : (renameStack r s).graphs = s.graphs.map (renameGraph r) := rfl
    rw [h1]
    cases hg : s.graphs with
    | nil => rfl
    | cons g gs =>
      rw [List.map_cons]
      have := popN_rename k { s with graphs := gs, queues := s.queues.tail, indices := s.indices.tail }
      rw [← this]
      congr 1
      unfold renameStack
      simp

theorem modifyS_rename (s : Stack α κ W) (c : SCond α) (g : Graph α) :
    (renameStack r s).modify (renameSCond r c) (renameGraph r g) =
      renameOk (renameGraph r) (s.modify c g) := by
  unfold modify
  have h1 : (renameStack r s).cset.owners (renameSCond r c).o = (s.cset.owners c.o).map r.to := rfl
  rw [h1]
  cases s.cset.owners c.o with
  | none => rfl
  | some n =>
    show renameOk (renameGraph r) (c.apply (r.back (r.to n)) (renameGraph r.symm (renameGraph r g))) = _
    rw [r.back_to, r.graph_back]

theorem pushAll_rename : ∀ (cs : List (SCond α)) (s : Stack α κ W) (g : Graph α),
    (renameStack r s).pushAll (renameGraph r g) (cs.map (renameSCond r)) = renameS r id (s.pushAll g cs)
  | [], _, _ => rfl
  | c :: cs, s, g => by
    rw [List.map_cons]
    unfold pushAll
    rw [modifyS_rename]
    cases s.modify c g with
    | error e => rfl
    | ok g' =>
      show ((renameStack r s).push (renameGraph r g')).pushAll (renameGraph r g') (cs.map (renameSCond r)) = _
      rw [push_rename]
      exact pushAll_rename cs (s.push g') g'

theorem handle_rename (s : Stack α κ W) : (renameStack r s).handle = renameS r id s.handle := by
  unfold handle
  have h1 : (renameStack r s).cset.order = s.cset.order.map (renameSCond r) := rfl
  have h2 : (renameStack r s).last = s.last := rfl
  simp only [h1, h2, oids_rename, popN_rename]
  split
  · rfl
  · generalize commonWith s.last (s.cset.order.map fun x => x.o) = k
    generalize popN (numPops s.last k) s = x
    obtain ⟨s1, e⟩ := x
    cases e with
    | some e => rfl
    | none =>
      have h3 : (renameStack r s1).graphs = s1.graphs.map (renameGraph r) := rfl
      simp only [renameS, id_eq, h3]
      cases s1.graphs with
      | nil => rfl
      | cons g gs =>
        simp only [List.map_cons, ← List.map_drop, pushAll_rename]
        generalize s1.pushAll g (s.cset.order.drop k) = y
        obtain ⟨s2, e⟩ := y
        cases e <;> rfl

theorem new_renameS (mode : Mode) (base : Graph α) (st : Store α κ) (ow : OId → Option α) :
    Stack.new (W := W) mode (renameGraph r base) (renameStore r st) (fun o => (ow o).map r.to) =
      renameStack r (Stack.new mode base st ow) := by
  unfold Stack.new
  rw [← push_rename]
  rfl

theorem addCondition_rename (s : Stack α κ W) (n : α) (c : AnyCond α κ W) :
    (renameStack r s).addCondition (r.to n) (renameAny r c) = renameS r id (s.addCondition n c) := by
  unfold addCondition
  have h1 : (renameStack r s).cset.add (r.to n) (renameAny r c) = _ := addC_rename r s.cset n c
  rw [h1]
  rcases s.cset.add n c with ⟨cs, _ | e⟩
  · exact handle_rename r { s with cset := cs }
  · rfl

theorem addConditionSet_rename (s : Stack α κ W) (d : Dict α (List (AnyCond α κ W))) :
    (renameStack r s).addConditionSet (renameDict r (List.map (renameAny r)) d) =
      renameS r id (s.addConditionSet d) := by
  unfold addConditionSet
  have h1 : (renameStack r s).cset.addSet (renameDict r (List.map (renameAny r)) d) = _ :=
    addSet_rename r d s.cset
  rw [h1]
  rcases s.cset.addSet d with ⟨cs, _ | e⟩
  · exact handle_rename r { s with cset := cs }
  · rfl

theorem removeCondition_rename (s : Stack α κ W) (c : AnyCond α κ W) :
    (renameStack r s).removeCondition (renameAny r c) = renameS r (renameRemoved r) (s.removeCondition c) := by
  unfold removeCondition
  have h1 : (renameStack r s).cset.removeCond (renameAny r c) = _ := removeCond_rename r s.cset c
  rw [h1]
  rfl

theorem removeConditionOf_rename (s : Stack α κ W) (n : α) :
    (renameStack r s).removeConditionOf (r.to n) = renameS r (renameRemoved r) (s.removeConditionOf n) := by
  unfold removeConditionOf
  have h1 : (renameStack r s).cset.removeOwner (r.to n) = _ := removeOwner_rename r s.cset n
  rw [h1]
  rfl

theorem head_rename {γ δ : Type _} (f : γ → δ) (l : List γ) :
    orIndexError (l.map f).head? = renameOk f (orIndexError l.head?) := by
  cases l <;> rfl

theorem readGraph_rename (s : Stack α κ W) :
    (renameStack r s).readGraph = renameS r (renameOk (renameGraph r)) s.readGraph := by
  unfold readGraph
  rw [handle_rename]
  rcases s.handle with ⟨s', _ | e⟩
  · exact Prod.ext rfl (head_rename (renameGraph r) s'.graphs)
  · rfl

theorem readQueue_rename (s : Stack α κ W) :
    (renameStack r s).readQueue = renameS r (renameOk (renameSets r)) s.readQueue := by
  unfold readQueue
  rw [handle_rename]
  rcases s.handle with ⟨s', _ | e⟩
  · have hm : (renameStack r s').mode = s'.mode := rfl
    simp only [renameS, id_eq, hm, readGraph_rename]
    cases s'.mode with
    | exactTime =>
      simp only
      generalize s'.readGraph = x
      obtain ⟨s'', x⟩ := x
      cases x with
      | error e => rfl
      | ok g =>
        refine Prod.ext rfl ?_
        show Except.ok [Dict.keys (renameGraph r g)] = _
        rw [keys_rename]; rfl
    | standard => exact Prod.ext rfl (head_rename (renameSets r) s'.queues)
  · rfl

theorem readIndices_rename (s : Stack α κ W) :
    (renameStack r s).readIndices = renameS r (renameOk (renameDict r id)) s.readIndices := by
  unfold readIndices
  rw [handle_rename]
  rcases s.handle with ⟨s', _ | e⟩
  · exact Prod.ext rfl (head_rename (renameDict r id) s'.indices)
  · rfl

end Stack

theorem raised_rename {γ δ : Type _} (f : γ → δ) (x : Except Err γ) : raised (renameOk f x) = raised x := by
  cases x <;> rfl

theorem call_rename (s : Stack α κ W) (op : SchedOp α κ W) :
    (renameOp r op).call (renameStack r s) = renameS r id (op.call s) := by
  cases op with
  | add n c => exact Stack.addCondition_rename r s n c
  | addSet d => exact Stack.addConditionSet_rename r s d
  | remove c =>
    have := Stack.removeCondition_rename r s c
    unfold SchedOp.call renameOp
    simp only [this]
    exact Prod.ext rfl (raised_rename _ _)
  | removeOf n =>
    have := Stack.removeConditionOf_rename r s n
    unfold SchedOp.call renameOp
    simp only [this]
    exact Prod.ext rfl (raised_rename _ _)
  | graph =>
    unfold SchedOp.call renameOp
    simp only [Stack.readGraph_rename]
    exact Prod.ext rfl (raised_rename _ _)
  | queue =>
    unfold SchedOp.call renameOp
    simp only [Stack.readQueue_rename]
    exact Prod.ext rfl (raised_rename _ _)
  | indices =>
    unfold SchedOp.call renameOp
    simp only [Stack.readIndices_rename]
    exact Prod.ext rfl (raised_rename _ _)

theorem sys_rename (w : Whole α κ W) :
    (renameWhole r w).sys = renameOk (renameSys r) w.sys := by
  unfold Whole.sys
  have h1 : (renameWhole r w).stack = renameStack r w.stack := rfl
  rw [h1, Stack.readGraph_rename, Stack.readQueue_rename]
  rcases w.stack.readGraph with ⟨s1, e1 | g⟩
  · rfl
  · rcases w.stack.readQueue with ⟨s2, e2 | q⟩
    · rfl
    · rfl

theorem after_rename (w : Whole α κ W) (s : Sys α κ W) :
    (renameWhole r w).after (renameSys r s) = renameWhole r (w.after s) := by
  unfold Whole.after
  have h1 : (renameWhole r w).stack = renameStack r w.stack := rfl
  rw [h1, Stack.readQueue_rename]
  rfl

end
end GS
