import Verif.Spec.Warn
import Verif.StructuralUndo
import Verif.GSCHeap
/-!
# Lemmas about warnings
-/

set_option linter.unusedSectionVars false

namespace GS
open Spec
variable {α κ W : Type _} [DecidableEq α] [DecidableEq κ]

/-! ## Without the warnings the functions are those of the model -/

theorem CSet.addAllW_fst (owner : α) (cs : List (AnyCond α κ W)) :
    ∀ s : CSet α κ W, (s.addAllW owner cs).1 = s.addAll owner cs := by
  induction cs with
  | nil => intro s; rfl
  | cons c cs ih =>
    intro s
    unfold addAllW addAll addW
    cases h : s.add owner c with
    | mk s' e => cases e with
      | none => exact ih s'
      | some e => rfl

theorem CSet.addSetW_fst (d : Dict α (List (AnyCond α κ W))) :
    ∀ s : CSet α κ W, (s.addSetW d).1 = s.addSet d := by
  induction d with
  | nil => intro s; rfl
  | cons p d ih =>
    intro s
    obtain ⟨n, cs⟩ := p
    have h := addAllW_fst n cs s
    unfold addSetW addSet
    rw [← h]
    cases h : s.addAllW n cs with
    | mk r ws =>
      obtain ⟨s', e⟩ := r
      cases e with
      | none => exact ih s'
      | some e => rfl

theorem CSet.setItemW_fst (s : CSet α κ W) (n : α) (c : AnyCond α κ W) :
    (s.setItemW n c).1 = s.setItem n c := by
  unfold setItemW setItem
  rcases Dict.get? s.structural n with _ | (_ | _) <;> rfl

theorem Stack.pushAllW_fst (sw : OId → α → Graph α → List (Warning α)) (cs : List (SCond α)) :
    ∀ (s : Stack α κ W) (g : Graph α), (s.pushAllW sw g cs).1 = s.pushAll g cs := by
  induction cs with
  | nil => intro s g; rfl
  | cons c cs ih =>
    intro s g
    unfold pushAllW pushAll
    cases s.modify c g with
    | error e => rfl
    | ok g' => exact ih _ _

theorem Stack.handleW_fst (sw : OId → α → Graph α → List (Warning α)) (s : Stack α κ W) :
    (s.handleW sw).1 = s.handle := by
  unfold handleW handle
  simp only
  split
  · rfl
  · split
    · rename_i h; rw [h]
    · rename_i s1 h
      rw [h]
      simp only
      cases s1.graphs with
      | nil => rfl
      | cons g gs =>
        simp only
        have k := pushAllW_fst sw (s.cset.order.drop (commonWith s.last (s.cset.order.map (·.o)))) s1 g
        rw [← k]
        cases hp : s1.pushAllW sw g (s.cset.order.drop (commonWith s.last (s.cset.order.map (·.o)))) with
        | mk r ws =>
          obtain ⟨s2, e⟩ := r
          cases e <;> rfl

theorem Spec.SchedOp.callW_fst (sw : OId → α → Graph α → List (Warning α)) (s : Stack α κ W)
    (op : SchedOp α κ W) : (op.callW sw s).1 = op.call s := by
  cases op with
  | add n c =>
    show (s.addConditionW sw n c).1 = s.addCondition n c
    unfold Stack.addConditionW Stack.addCondition CSet.addW
    cases s.cset.add n c with
    | mk cs e => cases e with
      | none => exact Stack.handleW_fst sw _
      | some e => rfl
  | addSet d =>
    show (s.addConditionSetW sw d).1 = s.addConditionSet d
    unfold Stack.addConditionSetW Stack.addConditionSet
    rw [← CSet.addSetW_fst]
    cases s.cset.addSetW d with
    | mk r ws =>
      obtain ⟨cs, e⟩ := r
      cases e with
      | none => exact Stack.handleW_fst sw _
      | some e => rfl
  | remove c => rfl
  | removeOf n => rfl
  | graph => rfl
  | queue => rfl
  | indices => rfl

end GS

namespace GS
open Spec
variable {α κ W : Type _} [DecidableEq α] [DecidableEq κ]

theorem get?_erase_ne {β : Type _} (d : Dict α β) {k k' : α} (h : k ≠ k') :
    Dict.get? (Dict.erase d k) k' = Dict.get? d k' := by
  induction d with
  | nil => rfl
  | cons kv d ih =>
    obtain ⟨a, b⟩ := kv
    unfold Dict.erase
    by_cases e : a = k
    · subst e
      simp only [if_true, Dict.get?_cons, h, if_false]
    · simp only [e, if_false, Dict.get?_cons, ih]

/-! ## Owners -/

mutual
/-- The setters of owners give only warnings about dependencies. -/
theorem ownerWarnings_names (n : α) : ∀ (c : Cond α κ W) (st : Store α κ) (x : Warning α),
    x ∈ ownerWarnings (some n) c st → ∃ o, x = .ownDependency o n ∧ Names n o c
  | .leaf o k, st, x, h => by
    unfold ownerWarnings leafWarnings at h
    simp only at h
    split at h
    · rename_i hk
      rw [List.mem_singleton] at h
      refine ⟨o, h, rfl, ?_⟩
      cases k <;> simp only [firstDeps, namedNodes, List.not_mem_nil] at hk ⊢ <;>
        first | exact hk | exact List.mem_of_mem_take hk
    · cases h
  | .whileNot _ _, _, x, h => by unfold ownerWarnings at h; cases h
  | .all o cs, st, x, h => by unfold ownerWarnings at h; exact ownersWarnings_names n cs _ x h
  | .any o cs, st, x, h => by unfold ownerWarnings at h; exact ownersWarnings_names n cs _ x h
  | .not o c, st, x, h => by unfold ownerWarnings at h; exact ownerWarnings_names n c _ x h
  | .nwhen o c _, st, x, h => by unfold ownerWarnings at h; exact ownerWarnings_names n c _ x h
/-- The same for a list. -/
theorem ownersWarnings_names (n : α) : ∀ (cs : List (Cond α κ W)) (st : Store α κ) (x : Warning α),
    x ∈ ownersWarnings (some n) cs st → ∃ o, x = .ownDependency o n ∧ NamesAny n o cs
  | [], _, x, h => by unfold ownersWarnings at h; cases h
  | c :: cs, st, x, h => by
    unfold ownersWarnings at h
    split at h
    · rcases List.mem_append.1 h with h | h
      · obtain ⟨o, h1, h2⟩ := ownerWarnings_names n c st x h
        exact ⟨o, h1, .inl h2⟩
      · obtain ⟨o, h1, h2⟩ := ownersWarnings_names n cs _ x h
        exact ⟨o, h1, .inr h2⟩
    · obtain ⟨o, h1, h2⟩ := ownersWarnings_names n cs _ x h
      exact ⟨o, h1, .inr h2⟩
end

theorem ownerWarnings_only (n : α) (c : Cond α κ W) (st : Store α κ) (x : Warning α)
    (hx : ∀ o m, x ≠ .ownDependency o m) : x ∉ ownerWarnings (some n) c st := by
  intro h
  obtain ⟨o, e, _⟩ := ownerWarnings_names n c st x h
  exact hx o n e

mutual
theorem setOwner_apart (v : Option α) : ∀ (c : Cond α κ W) (st : Store α κ) (x : OId),
    x ∉ objects c → (setOwner v c st).owner x = st.owner x
  | .leaf o k, st, x, h => by
    simp only [objects, List.mem_singleton] at h
    simp [setOwner, Store.putOwner, h]
  | .whileNot o f, st, x, h => by
    simp only [objects, List.mem_singleton] at h
    simp [setOwner, Store.putOwner, h]
  | .all o cs, st, x, h => by
    simp only [objects, List.mem_cons, not_or] at h
    unfold setOwner
    rw [setOwners_apart v cs _ x h.2]
    simp [Store.putOwner, h.1]
  | .any o cs, st, x, h => by
    simp only [objects, List.mem_cons, not_or] at h
    unfold setOwner
    rw [setOwners_apart v cs _ x h.2]
    simp [Store.putOwner, h.1]
  | .not o c, st, x, h => by
    simp only [objects, List.mem_cons, not_or] at h
    unfold setOwner
    rw [setOwner_apart v c _ x h.2]
    simp [Store.putOwner, h.1]
  | .nwhen o c _, st, x, h => by
    simp only [objects, List.mem_cons, not_or] at h
    unfold setOwner
    rw [setOwner_apart v c _ x h.2]
    simp [Store.putOwner, h.1]
theorem setOwners_apart (v : Option α) : ∀ (cs : List (Cond α κ W)) (st : Store α κ) (x : OId),
    x ∉ objectsOf cs → (setOwners v cs st).owner x = st.owner x
  | [], _, _, _ => rfl
  | c :: cs, st, x, h => by
    simp only [objectsOf, List.mem_append, not_or] at h
    unfold setOwners
    split
    · rw [setOwners_apart v cs _ x h.2, setOwner_apart v c _ x h.1]
    · exact setOwners_apart v cs _ x h.2
end

theorem oid_objects (c : Cond α κ W) : c.oid ∈ objects c := by
  cases c <;> simp [objects, Cond.oid]

mutual
/-- A part with this node as its only dependency is warned about. -/
theorem ownerWarnings_complete (n : α) (o : OId) : ∀ (c : Cond α κ W) (st : Store α κ),
    (objects c).Nodup → (∀ x ∈ objects c, x ≠ c.oid → st.owner x = none) → NamesOnly n o c →
      .ownDependency o n ∈ ownerWarnings (some n) c st
  | .leaf o' k, st, _, _, h => by
    have h2 : o' = o ∧ n ∈ firstDeps k := by
      cases k <;> simp only [NamesOnly, namedNodes, firstDeps] at h ⊢ <;>
        first
          | exact h.elim
          | (obtain ⟨h1, h2⟩ := h; first | (cases h2; done) | (refine ⟨h1, ?_⟩; rw [h2]; simp))
    unfold ownerWarnings leafWarnings
    simp only
    rw [if_pos h2.2, h2.1]
    exact List.mem_singleton.2 rfl
  | .whileNot _ _, _, _, _, h => by unfold NamesOnly at h; exact h.elim
  | .all x cs, st, hd, hn, h => by
    unfold objects at hd hn
    unfold ownerWarnings
    have hd := List.nodup_cons.1 hd
    refine ownersWarnings_complete n o cs _ hd.2 (fun y hy => ?_) (by unfold NamesOnly at h; exact h)
    have hne : y ≠ x := fun e => hd.1 (e ▸ hy)
    simp only [Store.putOwner, hne, if_false]
    exact hn y (List.mem_cons_of_mem _ hy) hne
  | .any x cs, st, hd, hn, h => by
    unfold objects at hd hn
    unfold ownerWarnings
    have hd := List.nodup_cons.1 hd
    refine ownersWarnings_complete n o cs _ hd.2 (fun y hy => ?_) (by unfold NamesOnly at h; exact h)
    have hne : y ≠ x := fun e => hd.1 (e ▸ hy)
    simp only [Store.putOwner, hne, if_false]
    exact hn y (List.mem_cons_of_mem _ hy) hne
  | .not x c, st, hd, hn, h => by
    unfold objects at hd hn
    unfold ownerWarnings
    have hd := List.nodup_cons.1 hd
    refine ownerWarnings_complete n o c _ hd.2 (fun y hy _ => ?_) (by unfold NamesOnly at h; exact h)
    have hne : y ≠ x := fun e => hd.1 (e ▸ hy)
    simp only [Store.putOwner, hne, if_false]
    exact hn y (List.mem_cons_of_mem _ hy) hne
  | .nwhen x c _, st, hd, hn, h => by
    unfold objects at hd hn
    unfold ownerWarnings
    have hd := List.nodup_cons.1 hd
    refine ownerWarnings_complete n o c _ hd.2 (fun y hy _ => ?_) (by unfold NamesOnly at h; exact h)
    have hne : y ≠ x := fun e => hd.1 (e ▸ hy)
    simp only [Store.putOwner, hne, if_false]
    exact hn y (List.mem_cons_of_mem _ hy) hne
theorem ownersWarnings_complete (n : α) (o : OId) : ∀ (cs : List (Cond α κ W)) (st : Store α κ),
    (objectsOf cs).Nodup → (∀ x ∈ objectsOf cs, st.owner x = none) → NamesOnlyAny n o cs →
      .ownDependency o n ∈ ownersWarnings (some n) cs st
  | [], _, _, _, h => by unfold NamesOnlyAny at h; exact h.elim
  | c :: cs, st, hd, hn, h => by
    unfold objectsOf at hd hn
    obtain ⟨hd1, hd2, hd3⟩ := List.nodup_append.1 hd
    unfold ownersWarnings
    rw [hn c.oid (List.mem_append_left _ (oid_objects c))]
    simp only
    unfold NamesOnlyAny at h
    rcases h with h | h
    · exact List.mem_append_left _ (ownerWarnings_complete n o c st hd1
        (fun x hx _ => hn x (List.mem_append_left _ hx)) h)
    · refine List.mem_append_right _ (ownersWarnings_complete n o cs _ hd2 (fun x hx => ?_) h)
      rw [setOwner_apart _ _ _ _ fun hx' => hd3 x hx' x hx rfl]
      exact hn x (List.mem_append_right _ hx)
end

end GS
