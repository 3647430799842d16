import Verif.StrictLemmas
import Verif.Props.Structural
/-!
# C125: a warning filter that turns warnings into exceptions
-/

set_option linter.unusedSectionVars false

namespace GS
open GS.Spec
variable {α κ W : Type _} [DecidableEq α] [DecidableEq κ]

theorem Spec.Holds.store {s : CSet α κ W} {es : Entries α κ W} (h : Holds s es) (st : Store α κ) :
    Holds { s with store := st } es := by
  have e1 : ({ s with store := st } : CSet α κ W).conditions.view = s.conditions.view := by
    unfold CSet.conditions; cases s.rebuild <;> rfl
  refine ⟨h.basic, h.structural, h.order, fun n => ?_, h.basicWF, h.structuralWF, ?_⟩
  · rw [← h.view n]; unfold CSet.getItem; rw [e1]
  · rw [e1]; exact h.viewWF

theorem CSet.addS_warned {s s' : CSet α κ W} {n : α} {c : AnyCond α κ W} {f : Failure α}
    (h : s.addS n c = (s', some f)) : ∃ st, s' = { s with store := st } := by
  unfold addS at h
  split at h
  · split at h
    · cases h; exact ⟨_, rfl⟩
    · split at h
      · cases h; exact ⟨_, rfl⟩
      · cases h
  · split at h
    · next heq => cases h; exact ⟨s'.store, by rw [CSet.add_error (c := .structural _) heq]⟩
    · cases h

theorem CSet.addS_ok {s s' : CSet α κ W} {n : α} {c : AnyCond α κ W}
    (h : s.addS n c = (s', none)) : s.add n c = (s', none) := by
  have k := s.addS_cut n c
  rw [h] at k
  exact congrArg (·.1) k.quiet

theorem CSet.addAllS_kept (n : α) (cs : List (AnyCond α κ W)) :
    ∀ {s s' : CSet α κ W} {es : Entries α κ W} {r : Option (Failure α)}, Holds s es →
      s.addAllS n cs = (s', r) →
      (r = none ∧ Holds s' (es ++ cs.map (fun c => (n, c)))) ∨
      ∃ f done c rest t, r = some f ∧ cs = done ++ c :: rest ∧
        Holds t (es ++ done.map (fun c => (n, c))) ∧ Holds s' (es ++ done.map (fun c => (n, c))) ∧
        t.addS n c = (s', some f) := by
  induction cs with
  | nil =>
    intro s s' es r h ha
    cases ha
    exact .inl ⟨rfl, by simpa using h⟩
  | cons c cs ih =>
    intro s s' es r h ha
    unfold addAllS at ha
    cases hs : s.addS n c with
    | mk s1 o =>
      rw [hs] at ha
      cases o with
      | some f =>
        cases ha
        obtain ⟨st, e⟩ := addS_warned hs
        refine .inr ⟨f, [], c, cs, s, rfl, rfl, by simpa using h, ?_, hs⟩
        rw [e]; simpa using h.store st
      | none =>
        have h1 := h.add (addS_ok hs)
        rcases ih h1 ha with ⟨k1, k2⟩ | ⟨f, done, c', rest, t, k1, k2, k3, k4, k5⟩
        · exact .inl ⟨k1, by simpa using k2⟩
        · exact .inr ⟨f, c :: done, c', rest, t, k1, by rw [k2]; rfl, by simpa using k3,
            by simpa using k4, k5⟩

theorem CSet.addSetS_kept (d : Dict α (List (AnyCond α κ W))) :
    ∀ {s s' : CSet α κ W} {es : Entries α κ W} {r : Option (Failure α)}, Holds s es →
      s.addSetS d = (s', r) →
      (r = none ∧ Holds s' (es ++ listed d)) ∨
      ∃ f done x rest t, r = some f ∧ listed d = done ++ x :: rest ∧
        Holds t (es ++ done) ∧ Holds s' (es ++ done) ∧ t.addS x.1 x.2 = (s', some f) := by
  induction d with
  | nil =>
    intro s s' es r h ha
    cases ha
    exact .inl ⟨rfl, by simpa [listed] using h⟩
  | cons p d ih =>
    intro s s' es r h ha
    obtain ⟨n, cs⟩ := p
    have el : listed ((n, cs) :: d) = cs.map (fun c => (n, c)) ++ listed d := by simp [listed]
    unfold addSetS at ha
    cases hs : s.addAllS n cs with
    | mk s1 o =>
      rw [hs] at ha
      rcases addAllS_kept n cs h hs with ⟨k1, k2⟩ | ⟨f, done, c', rest, t, k1, k2, k3, k4, k5⟩
      · subst k1
        rcases ih k2 ha with ⟨q1, q2⟩ | ⟨f, done, x, rest, t, q1, q2, q3, q4, q5⟩
        · exact .inl ⟨q1, by rw [el]; simpa using q2⟩
        · exact .inr ⟨f, cs.map (fun c => (n, c)) ++ done, x, rest, t, q1,
            by rw [el, q2]; simp, by simpa using q3, by simpa using q4, q5⟩
      · subst k1
        cases ha
        exact .inr ⟨f, done.map (fun c => (n, c)), (n, c'), rest.map (fun c => (n, c)) ++ listed d, t,
          rfl, by rw [el, k2]; simp, k3, k4, k5⟩

theorem allStructs_of_structsOf {es : Entries α κ W} {n : α} {c : SCond α} (h : c ∈ structsOf n es) :
    c ∈ allStructs es := by
  induction es with
  | nil => cases h
  | cons e es ih =>
    obtain ⟨m, b | d⟩ := e
    · exact ih h
    · unfold structsOf at h
      unfold allStructs
      split at h
      · rcases List.mem_cons.1 h with rfl | h
        · exact List.mem_cons_self
        · exact List.mem_cons_of_mem _ (ih h)
      · exact List.mem_cons_of_mem _ (ih h)

theorem removeObj_some {o : OId} {l l' : List (SCond α)} (h : removeObj o l = some l') :
    ∃ c ∈ l, c.o = o := by
  induction l generalizing l' with
  | nil => cases h
  | cons c l ih =>
    unfold removeObj at h
    split at h
    · next e => exact ⟨c, List.mem_cons_self, e⟩
    · cases hr : removeObj o l with
      | none => rw [hr] at h; cases h
      | some l1 =>
        obtain ⟨d, hd, e⟩ := ih hr
        exact ⟨d, List.mem_cons_of_mem _ hd, e⟩

theorem removeObj_isSome {o : OId} {l : List (SCond α)} {c : SCond α} (hc : c ∈ l) (e : c.o = o) :
    ∃ l', removeObj o l = some l' := by
  induction l with
  | nil => cases hc
  | cons d l ih =>
    unfold removeObj
    split
    · exact ⟨_, rfl⟩
    · next hne =>
      rcases List.mem_cons.1 hc with rfl | hc
      · exact absurd e hne
      · obtain ⟨l', h⟩ := ih hc
        exact ⟨d :: l', by rw [h]; rfl⟩

theorem Spec.Holds.removeStructural_false {s : CSet α κ W} {es : Entries α κ W} (h : Holds s es) {n : α}
    {o : OId} (hr : (s.removeStructural n o).2 = false) : (s.removeStructural n o).1 = s := by
  unfold CSet.removeStructural at hr ⊢
  cases hs : Dict.get? s.structural n with
  | none => rfl
  | some l =>
    rw [hs] at hr
    simp only at hr ⊢
    cases h1 : removeObj o l with
    | none => rfl
    | some l' =>
      rw [h1] at hr
      obtain ⟨c, hc, e⟩ := removeObj_some h1
      have hl : l = structsOf n es := by
        have := h.structural n
        rw [hs] at this
        split at this
        · cases this
        · exact Option.some.inj this
      obtain ⟨o', ho⟩ := removeObj_isSome (allStructs_of_structsOf (hl ▸ hc)) e
      rw [← h.order] at ho
      rw [ho] at hr
      cases hr

end GS

namespace GS.Props
open GS Spec
variable {α κ W : Type _} [DecidableEq α] [DecidableEq κ]

/-- C125, `ConditionSet`.  If warnings raise, a call raises the first warning it would have given,
and its own exception if it would have given none; and a call that would have given none has the
same effect as without the filter. -/
theorem C125_set (s : CSet α κ W) (op : CondOp α κ W) :
    (op.callS s).2 = strictly (op.call s).2 (op.call s).1.2 ∧
    ((op.call s).2 = [] → (op.callS s).1 = (op.call s).1.1) :=
  op.callS_cut s

/-- C125, the methods and properties of a scheduler, likewise.  `sw o n g` are the warnings of the
`modify_graph` of the structural condition `o` of `n`. -/
theorem C125_scheduler (sw : OId → α → Graph α → List (Warning α)) (s : Stack α κ W)
    (op : SchedOp α κ W) :
    (op.callS sw s).2 = strictly (op.callW sw s).2 (op.callW sw s).1.2 ∧
    ((op.callW sw s).2 = [] → (op.callS sw s).1 = (op.callW sw s).1.1) :=
  op.callS_cut sw s

/-- C125, what the properties return: if no warning is given the same as without the filter. -/
theorem C125_values (sw : OId → α → Graph α → List (Warning α)) (s : Stack α κ W) :
    (∀ g, (s.readGraphS sw).2 = .ok g ↔ s.readGraph.2 = .ok g ∧ (s.readGraphW sw).2 = []) ∧
    (∀ q, (s.readQueueS sw).2 = .ok q ↔ s.readQueue.2 = .ok q ∧ (s.readQueueW sw).2 = []) ∧
    (∀ i, (s.readIndicesS sw).2 = .ok i ↔ s.readIndices.2 = .ok i ∧ (s.readIndicesW sw).2 = []) := by
  have k := s.handleS_cut sw
  cases hs : s.handleS sw with
  | mk s' o =>
    rw [hs] at k
    cases o with
    | none =>
      have hh := Stack.handleS_none sw hs
      have hw : (s.handleW sw).2 = [] := by rw [k.quiet]
      have r := Stack.reads_handled hh
      have r' := Stack.reads_handledS sw hs
      have e : (s.readQueueW sw).2 = [] := by
        unfold Stack.readQueueW
        simp only [hh, hw, Stack.handleW_twice sw hh]
        cases s'.mode <;> rfl
      refine ⟨fun g => ?_, fun q => ?_, fun i => ?_⟩
      · show _ ↔ _ ∧ (s.handleW sw).2 = []
        rw [r.1, r'.1, hw]
        cases s'.graphs.head? <;> simp [Stack.orIndexErrorS, orIndexError]
      · rw [r.2.2.2, r'.2.2.2, e]
        cases s'.mode with
        | standard => cases s'.queues.head? <;> simp [Stack.orIndexErrorS, orIndexError]
        | exactTime => cases s'.graphs.head? <;> simp [onGraph, orIndexError]
      · show _ ↔ _ ∧ (s.handleW sw).2 = []
        rw [r.2.1, r'.2.1, hw]
        cases s'.indices.head? <;> simp [Stack.orIndexErrorS, orIndexError]
    | some f =>
      have kg := s.readGraphS_cut sw
      have kq := s.readQueueS_cut sw
      have ki := s.readIndicesS_cut sw
      have eg : (s.readGraphS sw).2 = .error f := by simp only [Stack.readGraphS, hs]
      have eq : (s.readQueueS sw).2 = .error f := by simp only [Stack.readQueueS, hs]
      have ei : (s.readIndicesS sw).2 = .error f := by simp only [Stack.readIndicesS, hs]
      refine ⟨fun g => ?_, fun q => ?_, fun i => ?_⟩
      · rw [eg]
        refine ⟨(fun h => by cases h), fun ⟨h1, h2⟩ => ?_⟩
        have h2' : (s.handleW sw).2 = [] := h2
        have := kg.1
        rw [eg, h1, h2'] at this
        simp [failed, strictly, raised] at this
      · rw [eq]
        refine ⟨(fun h => by cases h), fun ⟨h1, h2⟩ => ?_⟩
        have := kq.1
        rw [eq, h1, h2] at this
        simp [failed, strictly, raised] at this
      · rw [ei]
        refine ⟨(fun h => by cases h), fun ⟨h1, h2⟩ => ?_⟩
        have h2' : (s.handleW sw).2 = [] := h2
        have := ki.1
        rw [ei, h1, h2'] at this
        simp [failed, strictly, raised] at this

/-- C125, nothing is half done: if a call other than `add_condition_set` raises a warning, the set
contains what it contained before. -/
theorem C125_unchanged (s s' : CSet α κ W) (es : Entries α κ W) (h : Holds s es) (op : CondOp α κ W)
    (hd : ∀ d, op ≠ .addSet d) (w : Warning α) (hop : op.callS s = (s', some (.warned w))) :
    Holds s' es := by
  cases op with
  | addSet d => exact absurd rfl (hd d)
  | add n c =>
    obtain ⟨st, rfl⟩ := CSet.addS_warned hop
    exact h.store st
  | setItem n c =>
    have h1 : s.setItemS n c = (s', some (.warned w)) := hop
    unfold CSet.setItemS at h1
    split at h1
    · cases h1
    · obtain ⟨st, rfl⟩ := CSet.addS_warned h1
      exact h.store st
  | remove c =>
    have h1 : s.removeCondS c = (s', some (.warned w)) := hop
    unfold CSet.removeCondS at h1
    split at h1
    · cases h1
    · cases h1
    · next s1 r w' l heq =>
      simp only [Prod.mk.injEq] at h1
      obtain ⟨rfl, _⟩ := h1
      unfold CSet.removeCondW at heq
      simp only [Prod.mk.injEq] at heq
      obtain ⟨e1, e2⟩ := heq
      unfold CSet.removeCond at e1
      cases ho : s.ownerOf c with
      | none => rw [ho] at e2; cases e2
      | some n =>
        rw [ho] at e1 e2
        cases c with
        | basic b =>
          simp only at e1 e2
          cases hb : Dict.get? s.basic n with
          | none => rw [hb] at e1; cases e1; exact h
          | some b' =>
            rw [hb] at e1 e2
            simp only at e1 e2
            split at e2
            · cases e2
            · next hne => rw [if_neg hne] at e1; cases e1; exact h
        | structural d =>
          simp only at e1 e2
          split at e2
          · cases e2
          · next hne =>
            have hf : (s.removeStructural n d.o).2 = false := by simpa using hne
            have hsame := h.removeStructural_false hf
            have : s.removeStructural n d.o = (s, false) := by
              rw [← hsame]; rw [hsame]; exact Prod.ext hsame hf
            rw [this] at e1
            cases e1
            exact h
  | removeOf n =>
    have h1 : s.removeOwnerS n = (s', some (.warned w)) := hop
    unfold CSet.removeOwnerS at h1
    split at h1
    · cases h1
    · cases h1
    · next s1 r w' l heq =>
      simp only [Prod.mk.injEq] at h1
      obtain ⟨rfl, _⟩ := h1
      unfold CSet.removeOwnerW at heq
      simp only [Prod.mk.injEq] at heq
      obtain ⟨e1, e2⟩ := heq
      unfold CSet.removeOwner at e1
      split at e2
      · next hb hs => simp only [hb, hs] at e1; cases e1; exact h
      · next hb hs => simp only [hb, hs] at e1; cases e1; exact h
      · cases e2

/-- C125, a bulk addition: if it raises, the set contains the conditions given before the one whose
addition raised, and no others. -/
theorem C125_bulk (s s' : CSet α κ W) (es : Entries α κ W) (h : Holds s es)
    (d : Dict α (List (AnyCond α κ W))) (f : Failure α)
    (hop : (CondOp.addSet d).callS s = (s', some f)) :
    ∃ done x rest t, listed d = done ++ x :: rest ∧ Holds t (es ++ done) ∧ Holds s' (es ++ done) ∧
      (CondOp.add x.1 x.2).callS t = (s', some f) := by
  rcases CSet.addSetS_kept d h hop with ⟨k, _⟩ | ⟨f', done, x, rest, t, k1, k2, k3, k4, k5⟩
  · cases k
  · cases k1
    exact ⟨done, x, rest, t, k2, k3, k4, k5⟩

/-- C125, structural conditions: if the graph has been read (or a condition added) since the last
removal, and adding a new structural condition raises, be it a warning or not, then after its
removal the graph, the consideration queue and the positions are those before the attempt.
`C125_after_removal` shows that the proviso is needed. -/
theorem C125_rejected (sw : OId → α → Graph α → List (Warning α)) (s s1 s2 s3 : Stack α κ W)
    (g : Graph α) (hg : s.readGraphS sw = (s1, .ok g)) (n : α) (c : SCond α)
    (hn : c.o ∉ s1.cset.order.map (·.o)) (f : Failure α)
    (ha : s1.addConditionS sw n (.structural c) = (s2, some f)) (r : Option (Failure α))
    (hr : s2.removeConditionS (.structural c) = (s3, r)) :
    (s3.readGraphS sw).2 = .ok g ∧ (s3.readQueueS sw).2 = (s.readQueueS sw).2 ∧
      (s3.readIndicesS sw).2 = (s.readIndicesS sw).2 := by
  have hh : s.handleS sw = (s1, none) := by
    unfold Stack.readGraphS at hg
    cases hs : s.handleS sw with
    | mk s' o =>
      rw [hs] at hg
      cases o with
      | some f => cases hg
      | none => simp only [Prod.mk.injEq] at hg; rw [hg.1]
  have hlast := Stack.handle_last (Stack.handleS_none sw hh)
  have hl1 : s1.last = some (s1.cset.order.map (·.o)) := by rw [hlast.1, hlast.2]
  have key : s3.graphs = s1.graphs → s3.queues = s1.queues → s3.indices = s1.indices →
      s3.mode = s1.mode → s3.last = s1.last → s3.cset.order = s1.cset.order →
      (s3.readGraphS sw).2 = .ok g ∧ (s3.readQueueS sw).2 = (s.readQueueS sw).2 ∧
        (s3.readIndicesS sw).2 = (s.readIndicesS sw).2 := by
    intro k1 k2 k3 k4 k5 k6
    have h3 : s3.handleS sw = (s3, none) := Stack.handleS_noop sw (by rw [k5, k6]; exact hl1)
    have r1 := Stack.reads_handledS sw hh
    have r3 := Stack.reads_handledS sw h3
    refine ⟨?_, ?_, ?_⟩
    · rw [r3.1, k1]
      rw [hg] at r1
      exact (congrArg Prod.snd r1.1).symm
    · rw [r3.2.2.2, r1.2.2.2, k1, k2, k4]
    · rw [r3.2.1, r1.2.1, k3]
  -- the state after the removal
  have hrm : ∀ cs : CSet α κ W, (cs.removeCondS (.structural c)).1 = (cs.removeCond (.structural c)).1 := by
    intro cs
    unfold CSet.removeCondS
    have e : (cs.removeCondW (.structural c)).1 = cs.removeCond (.structural c) := rfl
    rw [← e]
    split <;> next heq => rw [heq]
  have e3 : s3 = { s2 with cset := (s2.cset.removeCond (.structural c)).1 } := by
    unfold Stack.removeConditionS at hr
    simp only [Prod.mk.injEq] at hr
    rw [← hr.1, hrm]
  subst e3
  simp only [Stack.addConditionS] at ha
  split at ha
  · next cs f' hcs =>
    simp only [Prod.mk.injEq] at ha
    obtain ⟨rfl, _⟩ := ha
    obtain ⟨st, e⟩ := CSet.addS_warned hcs
    subst e
    refine key rfl rfl rfl rfl rfl ?_
    simp only [CSet.removeCond]
    split
    · rfl
    · simp only [CSet.removeStructural]
      have hnone := removeObj_none c.o s1.cset.order hn
      cases Dict.get? s1.cset.structural ‹α› with
      | none => rfl
      | some l =>
        simp only
        cases removeObj c.o l with
        | none => rfl
        | some l' => simp only [hnone]
  · next cs hcs =>
    obtain ⟨q1, q2, q3, q4, q5⟩ := add_remove_order hn (CSet.addS_ok hcs)
    have hid : cs.order.map (·.o) = s1.cset.order.map (·.o) ++ [c.o] := by simp [q4]
    have hne : ¬ s1.last = some (cs.order.map (·.o)) := by
      rw [hl1, hid]; simp
    have hk : commonWith s1.last (cs.order.map (·.o)) = s1.cset.order.length := by
      rw [hl1, hid]
      simp only [commonWith]
      have : ∀ (l m : List OId), commonPrefix l (l ++ m) = l.length := by
        intro l m
        induction l with
        | nil => cases m <;> rfl
        | cons a l ih => simp [commonPrefix, ih]
      rw [this]; simp
    have hp : numPops s1.last s1.cset.order.length = 0 := by
      rw [hl1]; simp [numPops]
    have hd : cs.order.drop s1.cset.order.length = [c] := by rw [q4]; simp
    simp only [Stack.handleS] at ha
    rw [if_neg hne, hk, hp, hd] at ha
    simp only [Stack.popN] at ha
    have done : s2 = { s1 with cset := cs } →
        (({ s2 with cset := (s2.cset.removeCond (.structural c)).1 } : Stack α κ W).readGraphS sw).2 = .ok g ∧
        (({ s2 with cset := (s2.cset.removeCond (.structural c)).1 } : Stack α κ W).readQueueS sw).2 =
          (s.readQueueS sw).2 ∧
        (({ s2 with cset := (s2.cset.removeCond (.structural c)).1 } : Stack α κ W).readIndicesS sw).2 =
          (s.readIndicesS sw).2 := by
      intro e
      subst e
      exact key rfl rfl rfl rfl rfl q2
    cases hgr : s1.graphs with
    | nil =>
      rw [hgr] at ha
      simp only [Prod.mk.injEq] at ha
      exact done (by rw [← ha.1, hgr])
    | cons g0 gs =>
      rw [hgr] at ha
      simp only at ha
      cases hps : Stack.pushAllS sw { s1 with cset := cs, graphs := g0 :: gs } g0 [c] with
      | mk s4 o =>
        rw [hps] at ha
        cases o with
        | none => simp at ha
        | some f4 =>
          simp only [Prod.mk.injEq] at ha
          rw [← ha.1]
          rw [← ha.1] at done
          refine done ?_
          simp only [Stack.pushAllS] at hps
          split at hps
          · simp only [Prod.mk.injEq] at hps; rw [← hps.1, hgr]
          · split at hps
            · simp only [Prod.mk.injEq] at hps; rw [← hps.1, hgr]
            · split at hps
              · next hpu =>
                simp only [Prod.mk.injEq] at hps
                unfold Stack.pushS at hpu
                split at hpu
                · simp at hpu
                · simp only [Prod.mk.injEq] at hpu
                  rw [← hps.1, ← hpu.1, hgr]
              · simp at hps

/-- The structural conditions of the examples: the edges `0 → 1` and `0 → 2` are added, and an edge
`1 → 0` is removed. -/
def strictConds (o : OId) : GSC Nat :=
  if o = 1 then .addEdgeTo 1 else if o = 2 then .addEdgeTo 2 else .removeEdgeFrom 1

/-- The same as condition objects. -/
def strictCond (o : OId) : SCond Nat := (strictConds o).toSCond (fun _ => []) o

/-- Their warnings. -/
def strictWarnings (o : OId) (n : Nat) (g : Graph Nat) : List (Warning Nat) :=
  (strictConds o).warningsOn o n g

/-- The state after some operations when warnings raise. -/
def afterStrict (s : Stack Nat Nat Unit) (ops : List (SchedOp Nat Nat Unit)) : Stack Nat Nat Unit :=
  ops.foldl (fun s op => (op.callS strictWarnings s).1) s

/-- The first condition is added, and then the third, whose warning says that there is no edge. -/
def strictOps : List (SchedOp Nat Nat Unit) :=
  [.add 0 (.structural (strictCond 1)), .graph]

example :
    ((afterStrict freshStack strictOps).readGraphS strictWarnings).2 = .ok [(0, []), (1, [0]), (2, [])] ∧
    ((SchedOp.add 0 (.structural (strictCond 3))).callS strictWarnings (afterStrict freshStack strictOps)).2 =
      some (.warned (.noEdge 3 1 0)) ∧
    ((afterStrict freshStack (strictOps ++ [.add 0 (.structural (strictCond 3)),
      .remove (.structural (strictCond 3))])).readGraphS strictWarnings).2 =
        .ok [(0, []), (1, [0]), (2, [])] ∧
    ((SchedOp.add 0 (.structural (strictCond 3))).callW strictWarnings (afterStrict freshStack strictOps)).1.2 =
      none := by
  decide +kernel

/-- Two conditions are added, the first is removed, and a third is added, which raises a warning, and
removed. -/
def strictRemoval : List (SchedOp Nat Nat Unit) :=
  [.add 0 (.structural (strictCond 1)), .add 0 (.structural (strictCond 2)),
   .remove (.structural (strictCond 1))]

/-- `C125_rejected` needs its proviso: if a structural condition was removed and the graph not read
since, a mere warning leaves the scheduler without a graph: after the removal of the condition that
caused it every read raises `IndexError`. -/
theorem C125_after_removal :
    ((afterStrict freshStack strictRemoval).readGraphS strictWarnings).2 =
      .ok [(0, []), (1, []), (2, [0])] ∧
    ((SchedOp.add 0 (.structural (strictCond 3))).callS strictWarnings
      (afterStrict freshStack strictRemoval)).2 = some (.warned (.noEdge 3 1 0)) ∧
    ((afterStrict freshStack (strictRemoval ++ [.add 0 (.structural (strictCond 3)),
      .remove (.structural (strictCond 3))])).readGraphS strictWarnings).2 =
        .error (.err .indexError) := by
  decide +kernel

/-- A basic condition that names the node `n`. -/
def ownCall (o : OId) (n : Nat) : Cond Nat Nat Unit := .leaf o (.everyNCalls n 1)

/-- An empty set. -/
def strictSet : CSet Nat Nat Unit := CSet.empty noOwners (fun _ => none)

example : Holds strictSet [] := holds_empty _ _

example :
    ((CondOp.add 0 (.basic (ownCall 1 0))).callS strictSet).2 = some (.warned (.ownDependency 1 0)) ∧
    ((CondOp.add 0 (.basic (ownCall 1 0))).call strictSet).1.2 = none ∧
    ((CondOp.add 0 (.basic (ownCall 1 1))).callS strictSet).2 = none ∧
    ((CondOp.addSet [(0, [.basic (ownCall 1 1), .basic (ownCall 2 2)]), (1, [.basic (ownCall 3 0)])]).callS
      strictSet).2 = some (.warned (.replacing 0 1 2)) ∧
    ((CondOp.removeOf 0).callS strictSet).2 = some (.warned (.notFound 0)) := by
  decide +kernel

end GS.Props
