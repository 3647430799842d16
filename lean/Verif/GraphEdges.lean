import Verif.StructuralUndo
import Verif.GSCMod
/-!
# Model of `add_graph_edge` and `remove_graph_edge` (scheduler.py:679-711)
-/

set_option linter.unusedSectionVars false

namespace GS
open Spec
variable {α κ W : Type _} [DecidableEq α] [DecidableEq κ]

/-- scheduler.py:679-694 `add_graph_edge`; `o` is the identity of the new condition, and
`cyc` is not used by `AddEdgeTo`. -/
def Stack.addGraphEdge (cyc : Graph α → List (List α)) (o : OId) (s : Stack α κ W)
    (sender receiver : α) : Stack α κ W × Option Err :=
  s.addCondition sender (.structural ((GSC.addEdgeTo receiver).toSCond cyc o))

/-- scheduler.py:696-711 `remove_graph_edge`; `o` is the identity of the new condition. -/
def Stack.removeGraphEdge (cyc : Graph α → List (List α)) (o : OId) (s : Stack α κ W)
    (sender receiver : α) : Stack α κ W × Option Err :=
  s.addCondition receiver (.structural ((GSC.removeEdgeFrom sender).toSCond cyc o))

/-! ## Objects in use -/

/-- All structural conditions that are present or were last handled are among `ids`. -/
def Uses (ids : List OId) (s : Stack α κ W) : Prop :=
  (∀ c ∈ s.cset.order, c.o ∈ ids) ∧ ∀ l, s.last = some l → ∀ o ∈ l, o ∈ ids

theorem Uses.mono {ids ids' : List OId} {s : Stack α κ W} (h : Uses ids s)
    (hi : ∀ o ∈ ids, o ∈ ids') : Uses ids' s :=
  ⟨fun c hc => hi _ (h.1 c hc), fun l hl o ho => hi _ (h.2 l hl o ho)⟩

theorem Uses.handle {ids : List OId} {s s' : Stack α κ W} (h : Uses ids s)
    (hh : s.handle = (s', none)) : Uses ids s' := by
  obtain ⟨h1, h2⟩ := Stack.handle_last hh
  refine ⟨fun c hc => h.1 c (h2 ▸ hc), fun l hl o ho => ?_⟩
  rw [h1] at hl
  cases hl
  obtain ⟨c, hc, rfl⟩ := List.mem_map.mp ho
  exact h.1 c hc

theorem order_add {s s' : CSet α κ W} {n : α} {c : AnyCond α κ W}
    (ha : s.add n c = (s', none)) :
    ∀ d ∈ s'.order, d ∈ s.order ∨ d ∈ (structEntries [(n, c)]).map Prod.snd := by
  cases c with
  | basic c =>
    simp only [CSet.add, CSet.addBasic, Prod.mk.injEq] at ha
    obtain ⟨rfl, _⟩ := ha
    exact fun d hd => .inl hd
  | structural c =>
    simp only [CSet.add, CSet.addStructural] at ha
    split at ha
    · simp at ha
    · simp only [Prod.mk.injEq] at ha
      obtain ⟨rfl, _⟩ := ha
      intro d hd
      rcases List.mem_append.mp hd with hd | hd
      · exact .inl hd
      · exact .inr (by simpa [structEntries] using hd)

theorem order_addAll (n : α) (cs : List (AnyCond α κ W)) :
    ∀ {s s' : CSet α κ W}, s.addAll n cs = (s', none) →
      ∀ d ∈ s'.order, d ∈ s.order ∨ d ∈ (structEntries (cs.map fun c => (n, c))).map Prod.snd := by
  induction cs with
  | nil =>
    intro s s' ha d hd
    simp only [CSet.addAll, Prod.mk.injEq] at ha
    rw [← ha.1] at hd; exact .inl hd
  | cons c cs ih =>
    intro s s' ha d hd
    unfold CSet.addAll at ha
    split at ha
    · simp at ha
    · next s1 he =>
      have e : structEntries ((c :: cs).map fun c => (n, c)) =
          structEntries [(n, c)] ++ structEntries (cs.map fun c => (n, c)) := by
        rw [← structEntries_append]; rfl
      rw [e, List.map_append, List.mem_append]
      rcases ih ha d hd with h | h
      · rcases order_add he d h with h | h
        · exact .inl h
        · exact .inr (.inl h)
      · exact .inr (.inr h)

theorem order_addSet (d : Dict α (List (AnyCond α κ W))) :
    ∀ {s s' : CSet α κ W}, s.addSet d = (s', none) →
      ∀ c ∈ s'.order, c ∈ s.order ∨ c ∈ (structEntries (listed d)).map Prod.snd := by
  induction d with
  | nil =>
    intro s s' ha c hc
    simp only [CSet.addSet, Prod.mk.injEq] at ha
    rw [← ha.1] at hc; exact .inl hc
  | cons p d ih =>
    obtain ⟨n, cs⟩ := p
    intro s s' ha c hc
    unfold CSet.addSet at ha
    split at ha
    · simp at ha
    · next s1 he =>
      have e : structEntries (listed ((n, cs) :: d)) =
          structEntries (cs.map fun c => (n, c)) ++ structEntries (listed d) := by
        rw [← structEntries_append]; rfl
      rw [e, List.map_append, List.mem_append]
      rcases ih ha c hc with h | h
      · rcases order_addAll n cs he c h with h | h
        · exact .inl h
        · exact .inr (.inl h)
      · exact .inr (.inr h)

theorem Uses.withSet {ids : List OId} {s : Stack α κ W} (h : Uses ids s) {cs : CSet α κ W}
    (ho : ∀ c ∈ cs.order, c.o ∈ ids) : Uses ids { s with cset := cs } := ⟨ho, h.2⟩

theorem Uses.step {ids : List OId} {s s' : Stack α κ W} {op : SchedOp α κ W}
    (h : Uses ids s) (hi : ∀ e ∈ op.adds, e.2.o ∈ ids) (hc : op.call s = (s', none)) :
    Uses ids s' := by
  cases op with
  | add n c =>
    simp only [SchedOp.call, Stack.addCondition] at hc
    split at hc
    · simp at hc
    · next cs hcs =>
      refine (h.withSet fun d hd => ?_).handle hc
      rcases order_add hcs d hd with h' | h'
      · exact h.1 d h'
      · obtain ⟨e, he, rfl⟩ := List.mem_map.mp h'
        exact hi e he
  | addSet d =>
    simp only [SchedOp.call, Stack.addConditionSet] at hc
    split at hc
    · simp at hc
    · next cs hcs =>
      refine (h.withSet fun d' hd => ?_).handle hc
      rcases order_addSet d hcs d' hd with h' | h'
      · exact h.1 d' h'
      · obtain ⟨e, he, rfl⟩ := List.mem_map.mp h'
        exact hi e he
  | remove c =>
    simp only [SchedOp.call, Stack.removeCondition, Prod.mk.injEq] at hc
    obtain ⟨rfl, hr⟩ := hc
    exact h.withSet fun d hd => h.1 d ((removeCond_order s.cset c).2 d hd)
  | removeOf n =>
    simp only [SchedOp.call, Stack.removeConditionOf, Prod.mk.injEq] at hc
    obtain ⟨rfl, hr⟩ := hc
    exact h.withSet fun d hd => h.1 d ((removeOwner_order s.cset n).2 d hd)
  | graph =>
    simp only [SchedOp.call, Prod.mk.injEq] at hc
    obtain ⟨rfl, hr⟩ := hc
    exact h.handle (readGraph_state s hr)
  | queue =>
    simp only [SchedOp.call, Prod.mk.injEq] at hc
    obtain ⟨rfl, hr⟩ := hc
    exact h.handle (readQueue_state s hr)
  | indices =>
    simp only [SchedOp.call, Prod.mk.injEq] at hc
    obtain ⟨rfl, hr⟩ := hc
    exact h.handle (readIndices_state s hr)

theorem Uses.quiet {ids : List OId} {s s' : Stack α κ W} {ops : List (SchedOp α κ W)}
    (h : Uses ids s) (hi : ∀ e ∈ ops.flatMap SchedOp.adds, e.2.o ∈ ids) (hq : Quiet s ops s') :
    Uses ids s' := by
  induction hq with
  | nil s => exact h
  | cons hc _ ih =>
    refine ih (h.step (fun e he => hi e ?_) hc) (fun e he => hi e ?_)
    · simp [he]
    · rw [List.flatMap_cons]; exact List.mem_append_right _ he

/-- Adding a new structural condition object applies it to the graph there was. -/
theorem added_graph {base : Graph α} {mode : Mode} {s : Stack α κ W} (hG : GInv base mode s)
    {ids : List OId} (hU : Uses ids s) {c : SCond α} (hn : c.o ∉ ids) {n : α}
    (hown : n ∉ c.nodes) {g : Graph α} (hg : s.readGraph.2 = .ok g) :
    (∀ g', c.apply n g = .ok g' → ∃ s1, s.addCondition n (.structural c) = (s1, none) ∧
      s1.readGraph.2 = .ok g') ∧
    (∀ e, c.apply n g = .error e → (s.addCondition n (.structural c)).2 = some e) := by
  obtain ⟨⟨ls, hl⟩, ho, hm⟩ := hG
  obtain ⟨es, e1, e2⟩ := ho.entries
  have hidl : ∀ o ∈ ls.map (·.2.o), o ∈ ids := by
    intro o ho
    rcases hl.last with hl' | ⟨_, hl'⟩
    · exact hU.2 _ hl' o ho
    · rw [hl'] at ho; cases ho
  have hne : ∀ e ∈ es, e.2.o ≠ c.o := by
    intro e he h
    refine hn (h ▸ hU.1 e.2 ?_)
    rw [e1]; exact List.mem_map.mpr ⟨e, he, rfl⟩
  -- the addition
  have hcs : s.cset.add n (.structural c) = ({ s.cset with
      owners := fun o => if o = c.o then some n else s.cset.owners o
      structural := Dict.set s.cset.structural n (s.cset.structsFor n ++ [c])
      order := s.cset.order ++ [c]
      rebuild := true }, none) := by
    simp only [CSet.add, CSet.addStructural, if_neg hown]
  generalize hcs' : ({ s.cset with
      owners := fun o => if o = c.o then some n else s.cset.owners o
      structural := Dict.set s.cset.structural n (s.cset.structsFor n ++ [c])
      order := s.cset.order ++ [c]
      rebuild := true } : CSet α κ W) = cs at hcs
  have f1 : ({ s with cset := cs } : Stack α κ W).cset.order = (es ++ [(n, c)]).map Prod.snd := by
    simp [← hcs', e1]
  have f2 : ∀ e ∈ es ++ [(n, c)],
      ({ s with cset := cs } : Stack α κ W).cset.owners e.2.o = some e.1 := by
    intro e he
    simp only [← hcs']
    rcases List.mem_append.mp he with he | he
    · rw [if_neg (hne e he)]; exact e2 e he
    · simp at he; subst he; simp
  have hsp := Stack.handle_spec (base := base) (ls := ls) (es := es ++ [(n, c)])
    (s := { s with cset := cs }) ⟨hl.tower, hl.queues, hl.indices, hl.last⟩ f1 f2
  have hr0 := (reads_spec hl e1 e2 _ rfl).1
  rw [hg] at hr0
  have hle := commonPrefix_le (ls.map (·.2.o)) (es.map (·.2.o))
  have hk : commonPrefix (ls.map (·.2.o)) ((es ++ [(n, c)]).map (·.2.o)) =
      commonPrefix (ls.map (·.2.o)) (es.map (·.2.o)) := by
    rw [List.map_append]
    show commonPrefix _ (es.map (·.2.o) ++ [c.o]) = _
    rcases commonPrefix_snoc (ls.map (·.2.o)) (es.map (·.2.o)) c.o with h | ⟨h1, h2⟩
    · exact h
    · exfalso
      have htk := commonPrefix_take (ls.map (·.2.o)) (es.map (·.2.o) ++ [c.o])
      have hlen := (commonPrefix_le (ls.map (·.2.o)) (es.map (·.2.o) ++ [c.o]))
      have hmem : c.o ∈ (ls.map (·.2.o)).take
          (commonPrefix (ls.map (·.2.o)) (es.map (·.2.o) ++ [c.o])) := by
        rw [htk]
        rw [List.take_of_length_le (by simp at h1 h2 hlen ⊢; omega)]
        simp
      exact hn (hidl _ (List.mem_of_mem_take hmem))
  simp only [hk] at hsp
  simp only [List.length_map] at hle
  generalize commonPrefix (ls.map (·.2.o)) (es.map (·.2.o)) = k at hr0 hsp hle
  rw [List.drop_append_of_le_length hle.2, ← List.append_assoc, composed_append, ← hr0] at hsp
  simp only [composed] at hsp
  constructor
  · intro g' hg'
    rw [hg'] at hsp
    simp only at hsp
    obtain ⟨s1, h1, _, h3, _⟩ := hsp
    refine ⟨s1, by simp only [Stack.addCondition, hcs]; exact h1, ?_⟩
    have h2 := Stack.handle_twice h1
    rw [(Stack.reads_handled h2).1]
    simp only [h3]; rfl
  · intro e he
    rw [he] at hsp
    simp only at hsp
    obtain ⟨s1, h1, _⟩ := hsp
    simp only [Stack.addCondition, hcs]; rw [h1]

/-! ## The two conditions on values -/

/-- What both do to a graph with the owner and the subject as keys. -/
theorem upd_clone_value {g : Graph α} (hw : Dict.WF g) (m : α) (hm : m ∈ Dict.keys g)
    (f : List α → List α) :
    Dict.WF ((HG.load g).clone.upd m f).value ∧
    Dict.keys ((HG.load g).clone.upd m f).value = Dict.keys g ∧
    ∀ x r, Edge ((HG.load g).clone.upd m f).value x r ↔
      if r = m then x ∈ f (Dict.getD g m) else Edge g x r := by
  have hok := HG.load_ok hw
  have C := HG.clone_spec hok
  have hmk : m ∈ Dict.keys (HG.load g).clone.graph := by rw [C.keys, HG.keys_load]; exact hm
  refine ⟨HG.wf_value (C.ok.upd _ _), ?_, fun x r => ?_⟩
  · rw [HG.keys_value, HG.graph_upd, C.keys, HG.keys_load]
  · rw [HG.edge_value (C.ok.upd _ _), HG.senders_upd_private C.ok hmk
      (fun r' ⟨a, h1, h2⟩ => (C.inj _ _ _ h1 h2).symm)]
    have hv : ∀ r, (HG.load g).clone.senders r = Dict.getD g r := fun r => by
      rw [← HG.getD_value, HG.clone_value hok, HG.load_value]
    split
    · rw [hv]
    · rw [← HG.edge_value C.ok, HG.clone_value hok, HG.load_value]

theorem addEdge_value (cyc : Graph α → List (List α)) {g : Graph α} (hw : Dict.WF g) (n m : α) :
    (n ∈ Dict.keys g ∧ m ∈ Dict.keys g → ∃ g', (GSC.addEdgeTo m).onValue cyc n g = .ok g' ∧
      Dict.WF g' ∧ Dict.keys g' = Dict.keys g ∧
      ∀ x r, Edge g' x r ↔ Edge g x r ∨ (x = n ∧ r = m)) ∧
    (¬ (n ∈ Dict.keys g ∧ m ∈ Dict.keys g) →
      (GSC.addEdgeTo m).onValue cyc n g = .error .conditionError) := by
  constructor
  · rintro ⟨h1, h2⟩
    have hin : (GSC.addEdgeTo m).inGraph n (HG.load g) = true := by
      simp [GSC.inGraph, GSC.nodes, HG.keys_load, h1, h2]
    obtain ⟨k1, k2, k3⟩ := upd_clone_value hw m h2 (setAdd n)
    refine ⟨_, ?_, k1, k2, fun x r => ?_⟩
    · simp only [GSC.onValue, GSC.modifyGraph, hin, Bool.true_eq_false, if_false]
    · rw [k3]
      split
      · next e =>
        subst e
        rw [mem_setAdd, mem_getD_edge hw]
        constructor
        · rintro (h | h)
          · exact .inr ⟨h, rfl⟩
          · exact .inl h
        · rintro (h | h)
          · exact .inr h
          · exact .inl h.1
      · next e => exact ⟨.inl, fun h => h.resolve_right fun h => e h.2⟩
  · intro h
    have hin : (GSC.addEdgeTo m).inGraph n (HG.load g) = false := by
      rw [Bool.eq_false_iff]
      simpa [GSC.inGraph, GSC.nodes, HG.keys_load] using h
    simp only [GSC.onValue, GSC.modifyGraph, hin, if_true]

theorem removeEdge_value (cyc : Graph α → List (List α)) {g : Graph α} (hw : Dict.WF g) (n m : α) :
    (n ∈ Dict.keys g ∧ m ∈ Dict.keys g → ∃ g', (GSC.removeEdgeFrom m).onValue cyc n g = .ok g' ∧
      Dict.WF g' ∧ Dict.keys g' = Dict.keys g ∧
      ∀ x r, Edge g' x r ↔ Edge g x r ∧ ¬ (x = m ∧ r = n)) ∧
    (¬ (n ∈ Dict.keys g ∧ m ∈ Dict.keys g) →
      (GSC.removeEdgeFrom m).onValue cyc n g = .error .conditionError) := by
  constructor
  · rintro ⟨h1, h2⟩
    have hin : (GSC.removeEdgeFrom m).inGraph n (HG.load g) = true := by
      simp [GSC.inGraph, GSC.nodes, HG.keys_load, h1, h2]
    obtain ⟨k1, k2, k3⟩ := upd_clone_value hw n h1 (setRemove m)
    refine ⟨_, ?_, k1, k2, fun x r => ?_⟩
    · simp only [GSC.onValue, GSC.modifyGraph, hin, Bool.true_eq_false, if_false]
    · rw [k3]
      split
      · next e =>
        subst e
        rw [mem_setRemove, mem_getD_edge hw]
        exact ⟨fun h => ⟨h.1, fun e => h.2 e.1⟩, fun h => ⟨h.1, fun e => h.2 ⟨e, rfl⟩⟩⟩
      · next e => exact ⟨fun h => ⟨h, fun h => e h.2⟩, fun h => h.1⟩
  · intro h
    have hin : (GSC.removeEdgeFrom m).inGraph n (HG.load g) = false := by
      rw [Bool.eq_false_iff]
      simpa [GSC.inGraph, GSC.nodes, HG.keys_load] using h
    simp only [GSC.onValue, GSC.modifyGraph, hin, if_true]

end GS
