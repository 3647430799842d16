import Verif.Spec.Strict
import Verif.WarnLemmas
import Verif.StructuralUndo
/-!
# Lemmas about warnings that raise
-/

set_option linter.unusedSectionVars false

namespace GS
open GS.Spec
variable {α κ W : Type _} [DecidableEq α] [DecidableEq κ]

mutual
theorem setOwnerS_spec (v : Option α) : ∀ (c : Cond α κ W) (st : Store α κ),
    (setOwnerS v c st).2 = (ownerWarnings v c st).head? ∧
    (ownerWarnings v c st = [] → (setOwnerS v c st).1 = setOwner v c st)
  | .leaf o k, st => by
    unfold setOwnerS ownerWarnings setOwner
    cases leafWarnings v o k <;> simp
  | .whileNot o f, st => by
    unfold setOwnerS ownerWarnings setOwner; simp
  | .all o cs, st => by
    unfold setOwnerS ownerWarnings setOwner; exact setOwnersS_spec v cs _
  | .any o cs, st => by
    unfold setOwnerS ownerWarnings setOwner; exact setOwnersS_spec v cs _
  | .not o c, st => by
    unfold setOwnerS ownerWarnings setOwner; exact setOwnerS_spec v c _
  | .nwhen o c n, st => by
    unfold setOwnerS ownerWarnings setOwner; exact setOwnerS_spec v c _
theorem setOwnersS_spec (v : Option α) : ∀ (cs : List (Cond α κ W)) (st : Store α κ),
    (setOwnersS v cs st).2 = (ownersWarnings v cs st).head? ∧
    (ownersWarnings v cs st = [] → (setOwnersS v cs st).1 = setOwners v cs st)
  | [], st => by unfold setOwnersS ownersWarnings setOwners; simp
  | c :: cs, st => by
    unfold setOwnersS ownersWarnings setOwners
    cases st.owner c.oid with
    | some _ => exact setOwnersS_spec v cs st
    | none =>
      have h := setOwnerS_spec v c st
      simp only
      cases hs : setOwnerS v c st with
      | mk st' o =>
        rw [hs] at h
        cases o with
        | some w =>
          cases hw : ownerWarnings v c st with
          | nil => rw [hw] at h; simp at h
          | cons w' l => rw [hw] at h; simpa using h.1
        | none =>
          cases hw : ownerWarnings v c st with
          | cons w' l => rw [hw] at h; simp at h
          | nil =>
            have : st' = setOwner v c st := h.2 hw
            subst this
            exact setOwnersS_spec v cs _
end

/-- A strict call is the plain one cut at its first warning. -/
def Cut {X : Type _} (p : (X × Option Err) × List (Warning α)) (q : X × Option (Failure α)) : Prop :=
  q.2 = strictly p.2 p.1.2 ∧ (p.2 = [] → q.1 = p.1.1)

theorem Cut.quiet {X : Type _} {p : (X × Option Err) × List (Warning α)} {x : X}
    (h : Cut p (x, none)) : p = ((x, none), []) := by
  obtain ⟨⟨y, e⟩, ws⟩ := p
  obtain ⟨h1, h2⟩ := h
  cases ws with
  | cons w l => simp [strictly] at h1
  | nil =>
    cases e with
    | some e => simp [strictly] at h1
    | none => have := h2 rfl; simp only at this; rw [this]

/-- After a part that raises the rest is not reached. -/
theorem Cut.stop {X : Type _} {p : (X × Option Err) × List (Warning α)} {x : X} {f : Failure α}
    (h : Cut p (x, some f)) (he : p.1.2 = none) (y : X) (e : Option Err) (ws : List (Warning α)) :
    Cut ((y, e), p.2 ++ ws) (x, some f) := by
  obtain ⟨⟨z, e'⟩, l⟩ := p
  obtain ⟨h1, h2⟩ := h
  simp only at he; subst he
  cases l with
  | nil => simp [strictly] at h1
  | cons w l =>
    refine ⟨by simpa [strictly] using h1, fun hn => by simp at hn⟩

namespace CSet

theorem addS_cut (s : CSet α κ W) (n : α) (c : AnyCond α κ W) : Cut (s.addW n c) (s.addS n c) := by
  cases c with
  | structural c =>
    unfold addW addS add
    cases h : s.addStructural n c with
    | mk s' e => cases e <;> simp [Cut, strictly, h]
  | basic c =>
    have h := setOwnerS_spec (some n) c s.store
    unfold addW addS add addBasic
    simp only
    cases hs : setOwnerS (some n) c s.store with
    | mk st o =>
      rw [hs] at h
      cases o with
      | some w =>
        cases hw : ownerWarnings (some n) c s.store with
        | nil => rw [hw] at h; simp at h
        | cons w' l => rw [hw] at h; simp at h; simp [Cut, strictly, h]
      | none =>
        cases hw : ownerWarnings (some n) c s.store with
        | cons w' l => rw [hw] at h; simp at h
        | nil =>
          have : st = setOwner (some n) c s.store := h.2 hw
          subst this
          cases Dict.get? s.basic n <;> simp [Cut, strictly]

theorem addAllS_cut (n : α) (cs : List (AnyCond α κ W)) : ∀ s : CSet α κ W,
    Cut (s.addAllW n cs) (s.addAllS n cs) := by
  induction cs with
  | nil => intro s; simp [addAllW, addAllS, Cut, strictly]
  | cons c cs ih =>
    intro s
    have h := addS_cut s n c
    unfold addAllW addAllS
    cases hs : s.addS n c with
    | mk s' o =>
      rw [hs] at h
      cases o with
      | none => rw [h.quiet]; simpa using ih s'
      | some f =>
        cases hw : s.addW n c with
        | mk p ws =>
          obtain ⟨y, e⟩ := p
          cases e with
          | some e => rw [hw] at h; exact h
          | none => rw [hw] at h; exact h.stop rfl _ _ _

theorem addSetS_cut (d : Dict α (List (AnyCond α κ W))) : ∀ s : CSet α κ W,
    Cut (s.addSetW d) (s.addSetS d) := by
  induction d with
  | nil => intro s; simp [addSetW, addSetS, Cut, strictly]
  | cons e d ih =>
    intro s
    obtain ⟨n, cs⟩ := e
    have h := addAllS_cut n cs s
    unfold addSetW addSetS
    cases hs : s.addAllS n cs with
    | mk s' o =>
      rw [hs] at h
      cases o with
      | none => rw [h.quiet]; simpa using ih s'
      | some f =>
        cases hw : s.addAllW n cs with
        | mk p ws =>
          obtain ⟨y, e⟩ := p
          cases e with
          | some e => rw [hw] at h; exact h
          | none => rw [hw] at h; exact h.stop rfl _ _ _

theorem setItemS_cut (s : CSet α κ W) (n : α) (c : AnyCond α κ W) :
    Cut (s.setItemW n c) (s.setItemS n c) := by
  unfold setItemW setItemS
  rcases Dict.get? s.structural n with _ | (_ | _)
  · exact addS_cut s n c
  · exact addS_cut s n c
  · simp [Cut, strictly]

/-- A removal that raises gives no warning. -/
theorem removeCondW_silent (s : CSet α κ W) (c : AnyCond α κ W) (e : Err)
    (h : (s.removeCondW c).1.2 = .error e) : (s.removeCondW c).2 = [] := by
  unfold removeCondW removeCond at *
  cases ho : s.ownerOf c with
  | none => rfl
  | some n =>
    rw [ho] at h
    cases c with
    | basic b =>
      simp only at h
      cases hb : Dict.get? s.basic n with
      | none => rw [hb] at h; cases h
      | some b' =>
        rw [hb] at h; simp only at h
        split at h <;> cases h
    | structural d =>
      simp only at h
      split at h <;> cases h

theorem removeOwnerW_silent (s : CSet α κ W) (n : α) (e : Err)
    (h : (s.removeOwnerW n).1.2 = .error e) : (s.removeOwnerW n).2 = [] := by
  unfold removeOwnerW removeOwner at *
  simp only at h ⊢
  split at h <;> simp_all

theorem removeCondS_cut (s : CSet α κ W) (c : AnyCond α κ W) :
    Cut (((s.removeCondW c).1.1, raised (s.removeCondW c).1.2), (s.removeCondW c).2) (s.removeCondS c) := by
  have h := removeCondW_silent s c
  unfold removeCondS
  revert h
  obtain ⟨⟨s', r⟩, ws⟩ := s.removeCondW c
  intro h
  cases r with
  | error e => have := h e rfl; simp only at this; subst this; simp [Cut, strictly, raised]
  | ok x => cases ws <;> simp [Cut, strictly, raised]

theorem removeOwnerS_cut (s : CSet α κ W) (n : α) :
    Cut (((s.removeOwnerW n).1.1, raised (s.removeOwnerW n).1.2), (s.removeOwnerW n).2) (s.removeOwnerS n) := by
  have h := removeOwnerW_silent s n
  unfold removeOwnerS
  revert h
  obtain ⟨⟨s', r⟩, ws⟩ := s.removeOwnerW n
  intro h
  cases r with
  | error e => have := h e rfl; simp only at this; subst this; simp [Cut, strictly, raised]
  | ok x => cases ws <;> simp [Cut, strictly, raised]

end CSet

theorem Spec.CondOp.callS_cut (s : CSet α κ W) (op : CondOp α κ W) : Cut (op.call s) (op.callS s) := by
  cases op with
  | add n c => exact s.addS_cut n c
  | addSet d => exact CSet.addSetS_cut d s
  | setItem n c => exact s.setItemS_cut n c
  | remove c => exact s.removeCondS_cut c
  | removeOf n => exact s.removeOwnerS_cut n

namespace Stack
variable (sw : OId → α → Graph α → List (Warning α))

theorem pushS_cut (s : Stack α κ W) (g : Graph α) :
    Cut (((s.pushW g).1, none), (s.pushW g).2) (s.pushS g) := by
  unfold pushW pushS
  cases toposort g <;> simp [Cut, strictly]

theorem pushAllS_cut (cs : List (SCond α)) : ∀ (s : Stack α κ W) (g : Graph α),
    Cut (s.pushAllW sw g cs) (s.pushAllS sw g cs) := by
  induction cs with
  | nil => intro s g; simp [pushAllW, pushAllS, Cut, strictly]
  | cons c cs ih =>
    intro s g
    unfold pushAllW pushAllS
    cases ho : s.cset.owners c.o with
    | none => simp [Stack.modify, ho, Cut, strictly]
    | some n =>
      simp only
      cases sw c.o n g with
      | cons w l => cases s.modify c g <;> simp [Cut, strictly]
      | nil =>
        cases s.modify c g with
        | error e => simp [Cut, strictly]
        | ok g' =>
          have h := pushS_cut s g'
          simp only [List.nil_append]
          cases hs : s.pushS g' with
          | mk s' o =>
            rw [hs] at h
            cases o with
            | some f => exact h.stop rfl _ _ _
            | none =>
              have e := h.quiet
              simp only [Prod.mk.injEq] at e
              rw [e.1.1, e.2]
              simpa using ih s' g'

theorem handleS_cut (s : Stack α κ W) : Cut (s.handleW sw) (s.handleS sw) := by
  unfold handleW handleS
  simp only
  split
  · simp [Cut, strictly]
  · split
    · rename_i hp; rw [hp]; simp [Cut, strictly]
    · rename_i s1 hp
      rw [hp]
      simp only
      cases s1.graphs with
      | nil => simp [Cut, strictly]
      | cons g gs =>
        simp only
        have h := pushAllS_cut sw (s.cset.order.drop (commonWith s.last (s.cset.order.map (·.o)))) s1 g
        cases hs : s1.pushAllS sw g (s.cset.order.drop (commonWith s.last (s.cset.order.map (·.o)))) with
        | mk s' o =>
          rw [hs] at h
          cases o with
          | none => rw [h.quiet]; simp [Cut, strictly]
          | some f =>
            revert h
            cases s1.pushAllW sw g (s.cset.order.drop (commonWith s.last (s.cset.order.map (·.o)))) with
            | mk p ws =>
              obtain ⟨y, e⟩ := p
              cases e with
              | some e => intro h; exact h
              | none => intro h; simpa using h.stop rfl { y with last := some (s.cset.order.map (·.o)) } none []

theorem addConditionS_cut (s : Stack α κ W) (n : α) (c : AnyCond α κ W) :
    Cut (s.addConditionW sw n c) (s.addConditionS sw n c) := by
  have h := s.cset.addS_cut n c
  unfold addConditionW addConditionS
  revert h
  cases s.cset.addS n c with
  | mk cs o =>
    cases o with
    | none =>
      intro h; rw [h.quiet]; simpa using handleS_cut sw { s with cset := cs }
    | some f =>
      cases s.cset.addW n c with
      | mk p ws =>
        obtain ⟨y, e⟩ := p
        intro h
        have h' : Cut (({ s with cset := y }, e), ws) ({ s with cset := cs }, some f) :=
          ⟨h.1, fun hn => by have := h.2 hn; simp only at this; rw [this]⟩
        cases e with
        | some e => exact h'
        | none => exact h'.stop rfl _ _ _

theorem addConditionSetS_cut (s : Stack α κ W) (d : Dict α (List (AnyCond α κ W))) :
    Cut (s.addConditionSetW sw d) (s.addConditionSetS sw d) := by
  have h := CSet.addSetS_cut d s.cset
  unfold addConditionSetW addConditionSetS
  revert h
  cases s.cset.addSetS d with
  | mk cs o =>
    cases o with
    | none =>
      intro h; rw [h.quiet]; simpa using handleS_cut sw { s with cset := cs }
    | some f =>
      cases s.cset.addSetW d with
      | mk p ws =>
        obtain ⟨y, e⟩ := p
        intro h
        have h' : Cut (({ s with cset := y }, e), ws) ({ s with cset := cs }, some f) :=
          ⟨h.1, fun hn => by have := h.2 hn; simp only at this; rw [this]⟩
        cases e with
        | some e => exact h'
        | none => exact h'.stop rfl _ _ _

theorem handleS_none {s s' : Stack α κ W} (h : s.handleS sw = (s', none)) : s.handle = (s', none) := by
  have k := handleS_cut sw s
  rw [h] at k
  rw [← handleW_fst sw, k.quiet]

theorem handleW_noop {s : Stack α κ W} (h : s.last = some (s.cset.order.map (·.o))) :
    s.handleW sw = ((s, none), []) := by
  simp only [handleW, if_pos h]

theorem handleS_noop {s : Stack α κ W} (h : s.last = some (s.cset.order.map (·.o))) :
    s.handleS sw = (s, none) := by
  simp only [handleS, if_pos h]

theorem handleS_twice {s s' : Stack α κ W} (h : s.handleS sw = (s', none)) :
    s'.handleS sw = (s', none) := by
  have := handle_last (handleS_none sw h)
  exact handleS_noop sw (by rw [this.1, this.2])

theorem handleW_twice {s s' : Stack α κ W} (h : s.handle = (s', none)) :
    s'.handleW sw = ((s', none), []) := by
  have := handle_last h
  exact handleW_noop sw (by rw [this.1, this.2])

theorem failed_orIndexErrorS {β : Type _} (o : Option β) :
    failed (α := α) (orIndexErrorS o) = strictly [] (raised (orIndexError o)) := by
  cases o <;> rfl

theorem handleW_split (s : Stack α κ W) : s.handleW sw = (s.handle, (s.handleW sw).2) := by
  rw [← handleW_fst sw]

theorem readGraphS_cut (s : Stack α κ W) :
    Cut ((s.readGraph.1, raised s.readGraph.2), (s.handleW sw).2)
      ((s.readGraphS sw).1, failed (s.readGraphS sw).2) := by
  have k := handleS_cut sw s
  unfold readGraphS readGraph
  cases hs : s.handleS sw with
  | mk s' o =>
    rw [hs] at k
    cases o with
    | none =>
      rw [handleS_none sw hs, k.quiet]
      exact ⟨failed_orIndexErrorS _, fun _ => rfl⟩
    | some f =>
      rw [handleW_split] at k
      revert k
      cases s.handle with
      | mk y e =>
        cases e with
        | some e => intro k; exact k
        | none => intro k; simpa [failed] using k.stop rfl y _ []

theorem readIndicesS_cut (s : Stack α κ W) :
    Cut ((s.readIndices.1, raised s.readIndices.2), (s.handleW sw).2)
      ((s.readIndicesS sw).1, failed (s.readIndicesS sw).2) := by
  have k := handleS_cut sw s
  unfold readIndicesS readIndices
  cases hs : s.handleS sw with
  | mk s' o =>
    rw [hs] at k
    cases o with
    | none =>
      rw [handleS_none sw hs, k.quiet]
      exact ⟨failed_orIndexErrorS _, fun _ => rfl⟩
    | some f =>
      rw [handleW_split] at k
      revert k
      cases s.handle with
      | mk y e =>
        cases e with
        | some e => intro k; exact k
        | none => intro k; simpa [failed] using k.stop rfl y _ []

/-- What the properties return once everything is handled. -/
theorem reads_handledS {s s' : Stack α κ W} (h : s.handleS sw = (s', none)) :
    s.readGraphS sw = (s', orIndexErrorS s'.graphs.head?) ∧
    s.readIndicesS sw = (s', orIndexErrorS s'.indices.head?) ∧
    (s.readQueueS sw).1 = s' ∧
    (s.readQueueS sw).2 = (match s'.mode with
      | .exactTime => (match s'.graphs.head? with
        | some g => .ok [Dict.keys g]
        | none => .error (.err .indexError))
      | .standard => orIndexErrorS s'.queues.head?) := by
  have h2 := handleS_twice sw h
  refine ⟨by simp only [readGraphS, h], by simp only [readIndicesS, h], ?_, ?_⟩
  · simp only [readQueueS, h]
    cases s'.mode with
    | standard => rfl
    | exactTime =>
      simp only [readGraphS, h2]
      cases s'.graphs.head? <;> rfl
  · simp only [readQueueS, h]
    cases s'.mode with
    | standard => rfl
    | exactTime =>
      simp only [readGraphS, h2]
      cases s'.graphs.head? <;> rfl

theorem readQueueS_cut (s : Stack α κ W) :
    Cut ((s.readQueue.1, raised s.readQueue.2), (s.readQueueW sw).2)
      ((s.readQueueS sw).1, failed (s.readQueueS sw).2) := by
  have k := handleS_cut sw s
  cases hs : s.handleS sw with
  | mk s' o =>
    rw [hs] at k
    cases o with
    | none =>
      have hh := handleS_none sw hs
      have e : (s.readQueueW sw).2 = [] := by
        unfold readQueueW
        simp only [hh, k.quiet, handleW_twice sw hh]
        cases s'.mode <;> rfl
      have r := reads_handled hh
      have r' := reads_handledS sw hs
      rw [e, r.2.2.1, r.2.2.2, r'.2.2.1, r'.2.2.2]
      refine ⟨?_, fun _ => rfl⟩
      simp only
      cases s'.mode with
      | standard => exact failed_orIndexErrorS _
      | exactTime => cases s'.graphs.head? <;> rfl
    | some f =>
      rw [handleW_split] at k
      unfold readQueueW
      have e2 : s.readQueueS sw = (s', .error f) := by simp only [readQueueS, hs]
      rw [e2]
      unfold readQueue
      revert k
      cases s.handle with
      | mk y e =>
        cases e with
        | some e => intro k; simpa [raised, failed] using k
        | none => intro k; exact k.stop rfl _ _ _

theorem removeConditionS_cut (s : Stack α κ W) (c : AnyCond α κ W) :
    Cut (((s.removeConditionW c).1.1, raised (s.removeConditionW c).1.2), (s.removeConditionW c).2)
      (s.removeConditionS c) := by
  have k := s.cset.removeCondS_cut c
  exact ⟨k.1, fun h => congrArg (fun x => { s with cset := x }) (k.2 h)⟩

theorem removeConditionOfS_cut (s : Stack α κ W) (n : α) :
    Cut (((s.removeConditionOfW n).1.1, raised (s.removeConditionOfW n).1.2), (s.removeConditionOfW n).2)
      (s.removeConditionOfS n) := by
  have k := s.cset.removeOwnerS_cut n
  exact ⟨k.1, fun h => congrArg (fun x => { s with cset := x }) (k.2 h)⟩

end Stack

theorem Spec.SchedOp.callS_cut (sw : OId → α → Graph α → List (Warning α)) (s : Stack α κ W)
    (op : SchedOp α κ W) : Cut (op.callW sw s) (op.callS sw s) := by
  cases op with
  | add n c => exact s.addConditionS_cut sw n c
  | addSet d => exact s.addConditionSetS_cut sw d
  | remove c => exact s.removeConditionS_cut c
  | removeOf n => exact s.removeConditionOfS_cut n
  | graph => exact s.readGraphS_cut sw
  | queue => exact s.readQueueS_cut sw
  | indices => exact s.readIndicesS_cut sw

end GS
