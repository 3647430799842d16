import Verif.Convenience
import Verif.WarnLemmas
import Verif.Props.CondSet
import Verif.Props.Structural
import Verif.Props.GSC
import Verif.Props.Whole
/-!
# C84, C86: what warnings say about conditions

Specification: `Verif/Spec/Warn.lean`.
-/

set_option linter.unusedSectionVars false

namespace GS.Props
open Spec
variable {α κ W : Type _} [DecidableEq α] [DecidableEq κ]
variable {s s' t : CSet α κ W} {ops : List (CondOp α κ W)} {ws : List (Warning α)}

/-- A basic condition with the identity `o` is the one of `n`. -/
def HasBasic (s : CSet α κ W) (n : α) (o : OId) : Prop := ∃ c, Dict.get? s.basic n = some c ∧ c.oid = o

theorem hasBasic_add {n : α} {o : OId} (m : α) (c : AnyCond α κ W) (h : HasBasic s n o) :
    HasBasic (s.addW m c).1.1 n o ∨ ∃ new, .replacing n o new ∈ (s.addW m c).2 := by
  obtain ⟨d, hd, rfl⟩ := h
  cases c with
  | structural c =>
    refine .inl ⟨d, ?_, rfl⟩
    show Dict.get? (s.addStructural m c).1.basic n = some d
    unfold CSet.addStructural
    split <;> exact hd
  | basic c =>
    by_cases e : m = n
    · subst e
      refine .inr ⟨c.oid, ?_⟩
      show _ ∈ _ ++ _
      rw [hd]
      simp
    · refine .inl ⟨d, ?_, rfl⟩
      show Dict.get? (Dict.set s.basic m c) n = some d
      rw [Dict.get?_set, if_neg e]; exact hd

theorem hasBasic_addAll {n : α} {o : OId} (m : α) (cs : List (AnyCond α κ W)) :
    ∀ {s : CSet α κ W}, HasBasic s n o →
      HasBasic (s.addAllW m cs).1.1 n o ∨ ∃ new, .replacing n o new ∈ (s.addAllW m cs).2 := by
  induction cs with
  | nil => intro s h; exact .inl h
  | cons c cs ih =>
    intro s h
    have k := hasBasic_add m c h
    unfold CSet.addAllW
    cases hc : s.addW m c with
    | mk r ws =>
      obtain ⟨s', e⟩ := r
      rw [hc] at k
      cases e with
      | some e => exact k
      | none =>
        rcases k with k | ⟨new, k⟩
        · rcases ih k with k | ⟨new, k⟩
          · exact .inl k
          · exact .inr ⟨new, List.mem_append_right _ k⟩
        · exact .inr ⟨new, List.mem_append_left _ k⟩

theorem hasBasic_addSet {n : α} {o : OId} (d : Dict α (List (AnyCond α κ W))) :
    ∀ {s : CSet α κ W}, HasBasic s n o →
      HasBasic (s.addSetW d).1.1 n o ∨ ∃ new, .replacing n o new ∈ (s.addSetW d).2 := by
  induction d with
  | nil => intro s h; exact .inl h
  | cons p d ih =>
    intro s h
    obtain ⟨m, cs⟩ := p
    have k := hasBasic_addAll m cs h
    unfold CSet.addSetW
    cases hc : s.addAllW m cs with
    | mk r ws =>
      obtain ⟨s', e⟩ := r
      rw [hc] at k
      cases e with
      | some e => exact k
      | none =>
        rcases k with k | ⟨new, k⟩
        · rcases ih k with k | ⟨new, k⟩
          · exact .inl k
          · exact .inr ⟨new, List.mem_append_right _ k⟩
        · exact .inr ⟨new, List.mem_append_left _ k⟩

theorem removeStructural_basic (s : CSet α κ W) (n : α) (o : OId) :
    (s.removeStructural n o).1.basic = s.basic := by
  unfold CSet.removeStructural
  repeat' split
  all_goals rfl

theorem hasBasic_call {n : α} {o : OId} (op : CondOp α κ W) (h : HasBasic s n o) :
    HasBasic (op.call s).1.1 n o ∨ (∃ new, .replacing n o new ∈ (op.call s).2) ∨
      op = .removeOf n ∨ ∃ b, op = .remove (.basic b) ∧ b.oid = o := by
  cases op with
  | add m c => exact (hasBasic_add m c h).imp_right .inl
  | addSet d => exact (hasBasic_addSet d h).imp_right .inl
  | setItem m c =>
    show HasBasic (s.setItemW m c).1.1 n o ∨ (∃ new, .replacing n o new ∈ (s.setItemW m c).2) ∨ _
    unfold CSet.setItemW
    split
    · exact .inl h
    · exact (hasBasic_add m c h).imp_right .inl
  | remove c =>
    show HasBasic (s.removeCond c).1 n o ∨ _
    obtain ⟨d, hd, rfl⟩ := h
    unfold CSet.removeCond
    split
    · exact .inl ⟨d, hd, rfl⟩
    · rename_i m hm
      cases c with
      | basic b =>
        simp only
        split
        · exact .inl ⟨d, hd, rfl⟩
        · rename_i b' hb'
          split
          · by_cases e : m = n
            · subst e
              rw [hd] at hb'
              rename_i e'
              injection hb' with hb'
              subst hb'
              exact .inr (.inr (.inr ⟨b, rfl, e'⟩))
            · refine .inl ⟨d, ?_, rfl⟩
              show Dict.get? (Dict.erase s.basic m) n = some d
              rw [get?_erase_ne _ e]; exact hd
          · exact .inl ⟨d, hd, rfl⟩
      | structural c =>
        refine .inl ⟨d, ?_, rfl⟩
        have k := removeStructural_basic s m c.o
        simp only
        cases hr : s.removeStructural m c.o with
        | mk s1 b =>
          rw [hr] at k
          simp only at k
          cases b
          · show Dict.get? s1.basic n = some d
            rw [k]; exact hd
          · show Dict.get? s1.basic n = some d
            rw [k]; exact hd
  | removeOf m =>
    by_cases e : m = n
    · subst e; exact .inr (.inr (.inl rfl))
    · obtain ⟨d, hd, rfl⟩ := h
      refine .inl ⟨d, ?_, rfl⟩
      show Dict.get? (s.removeOwner m).1.basic n = some d
      unfold CSet.removeOwner
      split
      · exact hd
      · show Dict.get? (Dict.erase s.basic m) n = some d
        rw [get?_erase_ne _ e]; exact hd
      · exact hd
      · rename_i c _ _
        show Dict.get? (s.removeStructural m c.o).1.basic n = some d
        rw [removeStructural_basic]; exact hd
      · exact hd
      · exact hd

/-- C84: a basic condition never gets lost silently.  Whatever is done with a condition set,
also if calls raise: a node keeps its condition, or a warning says that this condition of this
node is replaced, or the user asks for the removal of this condition or of the condition of
this node. -/
theorem C84_kept (ht : Told s ops ws t) (n : α) (c : Cond α κ W) (hc : Dict.get? s.basic n = some c) :
    (∃ c', Dict.get? t.basic n = some c' ∧ c'.oid = c.oid) ∨
    (∃ new, .replacing n c.oid new ∈ ws) ∨ .removeOf n ∈ ops ∨
    ∃ b, .remove (.basic b) ∈ ops ∧ b.oid = c.oid := by
  have key : HasBasic s n c.oid := ⟨c, hc, rfl⟩
  generalize c.oid = o at key ⊢
  clear hc
  induction ht with
  | nil => exact .inl key
  | @cons s s' t op ops e ws ws' hop _ ih =>
    have k := hasBasic_call op key
    rw [hop] at k
    rcases k with k | ⟨new, k⟩ | rfl | ⟨b, rfl, hb⟩
    · rcases ih k with k | ⟨new, k⟩ | k | ⟨b, k, hb⟩
      · exact .inl k
      · exact .inr (.inl ⟨new, List.mem_append_right _ k⟩)
      · exact .inr (.inr (.inl (List.mem_cons_of_mem _ k)))
      · exact .inr (.inr (.inr ⟨b, List.mem_cons_of_mem _ k, hb⟩))
    · exact .inr (.inl ⟨new, List.mem_append_left _ k⟩)
    · exact .inr (.inr (.inl List.mem_cons_self))
    · exact .inr (.inr (.inr ⟨b, List.mem_cons_self, hb⟩))

/-- C84: the warning about a replaced condition is given exactly if the node has a basic
condition, and it names that condition and the new one. -/
theorem C84_replacing (s : CSet α κ W) (n : α) (c : Cond α κ W) (m : α) (old new : OId) :
    .replacing m old new ∈ (s.addW n (.basic c)).2 ↔
      m = n ∧ new = c.oid ∧ ∃ d, Dict.get? s.basic n = some d ∧ d.oid = old := by
  have h0 : .replacing m old new ∉ ownerWarnings (some n) c s.store := ownerWarnings_only _ _ _ _ (by simp)
  show .replacing m old new ∈ ownerWarnings (some n) c s.store ++ _ ↔ _
  rw [List.mem_append]
  cases hd : Dict.get? s.basic n with
  | none => simp [h0]
  | some d =>
    simp only [h0, false_or, List.mem_singleton, Warning.replacing.injEq, Option.some.injEq,
      exists_eq_left']
    constructor
    · rintro ⟨rfl, rfl, rfl⟩; exact ⟨rfl, rfl, rfl⟩
    · rintro ⟨rfl, rfl, rfl⟩; exact ⟨rfl, rfl, rfl⟩

theorem told_of_add {n : α} {c : AnyCond α κ W} : Told s [.add n c] ((s.addW n c).2 ++ []) (s.addW n c).1.1 :=
  .cons rfl (.nil _)

example : (someSet.addW 0 (.basic (.all 9 []))).2 = [.replacing 0 4 9] := by decide

/-- The case of `C84_kept`: the condition 4 of the node 0 is replaced, and that is said. -/
example : ∃ ws t, Told someSet [.add 0 (.basic (.all 9 [])), .remove (.basic (.any 4 []))] ws t ∧
    (Dict.get? someSet.basic 0).map Cond.oid = some 4 ∧ (Dict.get? t.basic 0).map Cond.oid = some 9 ∧
    ws = [.replacing 0 4 9, .notFound 0] :=
  ⟨_, _, .cons rfl (.cons rfl (.nil _)), by decide⟩

/-! ## Structural conditions -/

theorem removeObj_keeps {o o' : OId} (l l' : List (SCond α)) (h : removeObj o' l = some l') (hne : o' ≠ o)
    (ho : o ∈ l.map (·.o)) : o ∈ l'.map (·.o) := by
  induction l generalizing l' with
  | nil => cases ho
  | cons c l ih =>
    unfold removeObj at h
    split at h
    · rename_i e
      injection h with h; subst h
      rcases List.mem_cons.1 ho with h | h
      · exact absurd (e.symm.trans h.symm) hne
      · exact h
    · cases hr : removeObj o' l with
      | none => rw [hr] at h; cases h
      | some l'' =>
        rw [hr] at h
        injection h with h; subst h
        rcases List.mem_cons.1 ho with h | h
        · exact List.mem_cons.2 (.inl h)
        · exact List.mem_cons_of_mem _ (ih l'' hr h)

theorem order_removeStructural {o : OId} (m : α) (o' : OId) (h : o ∈ s.order.map (·.o)) :
    o ∈ (s.removeStructural m o').1.order.map (·.o) ∨ o' = o := by
  unfold CSet.removeStructural
  split
  · exact .inl h
  split
  · exact .inl h
  split
  · exact .inl h
  · rename_i hr
    by_cases e : o' = o
    · exact .inr e
    · exact .inl (removeObj_keeps _ _ hr e h)

theorem order_add {o : OId} (m : α) (c : AnyCond α κ W) (h : o ∈ s.order.map (·.o)) :
    o ∈ (s.addW m c).1.1.order.map (·.o) := by
  cases c with
  | basic c => exact h
  | structural c =>
    show o ∈ (s.addStructural m c).1.order.map (·.o)
    unfold CSet.addStructural
    split
    · exact h
    · simp only [List.map_append]
      exact List.mem_append_left _ h

theorem order_addAll {o : OId} (m : α) (cs : List (AnyCond α κ W)) :
    ∀ {s : CSet α κ W}, o ∈ s.order.map (·.o) → o ∈ (s.addAllW m cs).1.1.order.map (·.o) := by
  induction cs with
  | nil => intro s h; exact h
  | cons c cs ih =>
    intro s h
    have k := order_add m c h
    unfold CSet.addAllW
    cases hc : s.addW m c with
    | mk r ws =>
      obtain ⟨s', e⟩ := r
      rw [hc] at k
      cases e with
      | some e => exact k
      | none => exact ih k

theorem order_addSet {o : OId} (d : Dict α (List (AnyCond α κ W))) :
    ∀ {s : CSet α κ W}, o ∈ s.order.map (·.o) → o ∈ (s.addSetW d).1.1.order.map (·.o) := by
  induction d with
  | nil => intro s h; exact h
  | cons p d ih =>
    intro s h
    obtain ⟨m, cs⟩ := p
    have k := order_addAll m cs h
    unfold CSet.addSetW
    cases hc : s.addAllW m cs with
    | mk r ws =>
      obtain ⟨s', e⟩ := r
      rw [hc] at k
      cases e with
      | some e => exact k
      | none => exact ih k

theorem order_call {o : OId} (op : CondOp α κ W) (h : o ∈ s.order.map (·.o)) :
    o ∈ (op.call s).1.1.order.map (·.o) ∨ (∃ b, op = .remove (.structural b) ∧ b.o = o) ∨
      ∃ n c, op = .removeOf n ∧ Dict.get? s.structural n = some [c] ∧ c.o = o := by
  cases op with
  | add m c => exact .inl (order_add m c h)
  | addSet d => exact .inl (order_addSet d h)
  | setItem m c =>
    left
    show o ∈ (s.setItemW m c).1.1.order.map (·.o)
    unfold CSet.setItemW
    split
    · exact h
    · exact order_add m c h
  | remove c =>
    show o ∈ (s.removeCond c).1.order.map (·.o) ∨ _
    unfold CSet.removeCond
    split
    · exact .inl h
    · rename_i m hm
      cases c with
      | basic b =>
        left
        simp only
        repeat' split
        all_goals exact h
      | structural c =>
        have k := order_removeStructural m c.o h
        simp only
        cases hr : s.removeStructural m c.o with
        | mk s1 b =>
          rw [hr] at k
          rcases k with k | k
          · left; cases b <;> exact k
          · exact .inr (.inl ⟨c, rfl, k⟩)
  | removeOf m =>
    show o ∈ (s.removeOwner m).1.order.map (·.o) ∨ _
    unfold CSet.removeOwner
    split
    · exact .inl h
    · exact .inl h
    · exact .inl h
    · rename_i c _ hs
      rcases order_removeStructural m c.o h with k | k
      · exact .inl k
      · exact .inr (.inr ⟨m, c, rfl, hs, k⟩)
    · exact .inl h
    · exact .inl h

/-- C84: a structural condition never gets lost without a request: it stays in the order in
which the conditions are applied, or the user asks for its removal, or, in a call
`remove_condition(n)`, for the removal of the only structural condition of a node. -/
theorem C84_kept_structural (ht : Told s ops ws t) (o : OId) (ho : o ∈ s.order.map (·.o)) :
    o ∈ t.order.map (·.o) ∨ (∃ b, .remove (.structural b) ∈ ops ∧ b.o = o) ∨
      ∃ n, .removeOf n ∈ ops := by
  induction ht with
  | nil => exact .inl ho
  | @cons s s' t op ops e ws ws' hop _ ih =>
    have k := order_call op ho
    rw [hop] at k
    rcases k with k | ⟨b, rfl, hb⟩ | ⟨n, c, rfl, _⟩
    · rcases ih k with k | ⟨b, k, hb⟩ | ⟨n, k⟩
      · exact .inl k
      · exact .inr (.inl ⟨b, List.mem_cons_of_mem _ k, hb⟩)
      · exact .inr (.inr ⟨n, List.mem_cons_of_mem _ k⟩)
    · exact .inr (.inl ⟨b, List.mem_cons_self, hb⟩)
    · exact .inr (.inr ⟨n, List.mem_cons_self⟩)

example : ∃ ws t, Told someSet [.add 0 (.basic (.all 9 [])), .remove (.structural (keepGraph 3))] ws t ∧
    someSet.order.map (·.o) = [2, 3, 5] ∧ t.order.map (·.o) = [2, 5] :=
  ⟨_, _, .cons rfl (.cons rfl (.nil _)), by decide⟩

/-! ## Removals -/

/-- C84: `remove_condition(c)` for a basic condition of `n` warns exactly if `c` is not the
condition of `n`. -/
theorem C84_removal_basic (s : CSet α κ W) (es : Entries α κ W) (h : Holds s es) (n : α)
    (c : Cond α κ W) (ho : s.ownerOf (.basic c) = some n) (w : Warning α) :
    w ∈ (s.removeCondW (.basic c)).2 ↔
      w = .notFound n ∧ ∀ d, (basicsOf n es).getLast? = some d → d.oid ≠ c.oid := by
  unfold CSet.removeCondW
  simp only [ho, h.basic n]
  cases hg : (basicsOf n es).getLast? with
  | none => simp
  | some d =>
    simp only [Option.some.injEq, forall_eq']
    by_cases e : c.oid = d.oid
    · rw [if_pos e]; simp [e]
    · rw [if_neg e]; simp [Ne.symm e]

example : (someSet.removeCondW (.basic (.any 4 []))).2 = [] ∧
    ((someSet.removeCond (.basic (.any 4 []))).1.removeCondW (.structural (keepGraph 2))).2 = [] ∧
    ((someSet.removeCond (.structural (keepGraph 2))).1.removeCondW (.structural (keepGraph 2))).2 =
      [.notFound 0] := by decide

/-- C84: the same for a structural condition. -/
theorem C84_removal_structural (s : CSet α κ W) (es : Entries α κ W) (h : Holds s es) (n : α)
    (c : SCond α) (ho : s.ownerOf (.structural c) = some n)
    (hn : ((allStructs es).map (·.o)).Nodup) (w : Warning α) :
    w ∈ (s.removeCondW (.structural c)).2 ↔
      w = .notFound n ∧ ∀ d, (n, .structural d) ∈ es → d.o ≠ c.o := by
  unfold CSet.removeCondW
  simp only [ho]
  by_cases hc : ∃ d, (n, .structural d) ∈ es ∧ d.o = c.o
  · obtain ⟨d, hd, e⟩ := hc
    obtain ⟨s', e', _⟩ := h.removeStructural hn hd
    rw [← e, e']
    simp only [if_true, List.not_mem_nil, false_iff, not_and]
    intro _ k
    exact k d hd rfl
  · have hc' : ∀ d, (n, .structural d) ∈ es → d.o ≠ c.o := fun d hd e => hc ⟨d, hd, e⟩
    have : s.removeStructural n c.o = (s, false) := by
      unfold CSet.removeStructural
      rw [h.structural n]
      by_cases he : structsOf n es = []
      · rw [if_pos he]
      · rw [if_neg he]
        simp only
        rw [removeObj_none]
        intro hin
        obtain ⟨d, hd, e⟩ := List.mem_map.mp hin
        exact hc' d (mem_structsOf.mp hd) e
    rw [this]
    simp only [Bool.false_eq_true, if_false, List.mem_singleton]
    exact ⟨fun k => ⟨k, hc'⟩, fun k => k.1⟩

example (w : Warning Nat) : w ∈ (someSet.removeCondW (.structural (keepGraph 2))).2 ↔
    w = .notFound 0 ∧ ∀ d, (0, .structural d) ∈ someAdditions.flatMap SetOp.adds → d.o ≠ 2 :=
  C84_removal_structural someSet _ someSet_holds 0 (keepGraph 2) rfl (by decide) w

/-- C84: `remove_condition(n)` warns exactly if `n` has no condition. -/
theorem C84_removal_owner (s : CSet α κ W) (es : Entries α κ W) (h : Holds s es) (n : α) (w : Warning α) :
    w ∈ (s.removeOwnerW n).2 ↔ w = .notFound n ∧ ∀ c, (n, c) ∉ es := by
  have hv := (C43_view s es h n).2
  rw [h.view n] at hv
  unfold CSet.removeOwnerW
  simp only [h.basic n, h.structural n]
  rw [← hv]
  cases hg : (basicsOf n es).getLast? with
  | some b =>
    cases hs : structsOf n es with
    | nil => simp [shown]
    | cons d l => simp [shown]
  | none =>
    cases hs : structsOf n es with
    | nil => simp [shown]
    | cons d l => cases l <;> simp [shown]

example : (someSet.removeOwnerW 7).2 = [.notFound 7] ∧ (someSet.removeOwnerW 0).2 = [] := by decide

/-! ## Conditions that depend on their owner -/

/-- C86: a warning that a condition depends on its owner is true: the condition named is a
part of the one that is assigned, and it names the node. -/
theorem C86_self_sound (s : CSet α κ W) (n : α) (c : Cond α κ W) (o : OId) (m : α)
    (h : .ownDependency o m ∈ (s.addW n (.basic c)).2) : m = n ∧ Names n o c := by
  rcases List.mem_append.1 h with h | h
  · obtain ⟨o', e, hn⟩ := ownerWarnings_names n c _ _ h
    injection e with e1 e2
    exact ⟨e2, e1 ▸ hn⟩
  · cases hd : Dict.get? s.basic n with
    | none => rw [hd] at h; cases h
    | some d => rw [hd] at h; simp at h

/-- C86, part of the converse.  If no part of the new condition has an owner yet and no
object occurs in it twice, every part of a class with a single dependency (other than
`Threshold`) that names the node is warned about.  `C86_self_missed` shows that nothing is
said about the others. -/
theorem C86_self_partial (s : CSet α κ W) (n : α) (c : Cond α κ W) (o : OId)
    (hd : (objects c).Nodup) (hn : ∀ x ∈ objects c, s.store.owner x = none) (h : NamesOnly n o c) :
    .ownDependency o n ∈ (s.addW n (.basic c)).2 :=
  List.mem_append_left _ (ownerWarnings_complete n o c _ hd (fun x hx _ => hn x hx) h)

example : ((CSet.empty noOwners (fun _ => none) : CSet Nat Nat Unit).addW 0
      (.basic (.all 1 [.leaf 2 (.justRan 1), .not 3 (.leaf 4 (.justRan 0))]))).2 = [.ownDependency 4 0] ∧
    NamesOnly (κ := Nat) (W := Unit) 0 4 (.all 1 [.leaf 2 (.justRan 1), .not 3 (.leaf 4 (.justRan 0))]) :=
  ⟨by decide, .inr (.inl ⟨rfl, rfl⟩)⟩

/-- C86 as stated fails: no warning for a second dependency, none for a part that has an
owner already, and none for a `Threshold`, although they name the node. -/
theorem C86_self_missed :
    (∃ (s : CSet Nat Nat Unit) (c : Cond Nat Nat Unit), Names 0 1 c ∧ (s.addW 0 (.basic c)).2 = []) ∧
    (∃ (s : CSet Nat Nat Unit) (c : Cond Nat Nat Unit), NamesOnly 0 2 c ∧ (s.addW 0 (.basic c)).2 = []) ∧
    (∃ (s : CSet Nat Nat Unit) (c : Cond Nat Nat Unit),
      newThreshold demoWorld 1 0 0 0 "<" .none 0 0 none (some fun _ _ => .ok ()) = .ok c ∧
      Names 0 1 c ∧ (s.addW 0 (.basic c)).2 = []) := by
  refine ⟨⟨CSet.empty noOwners fun _ => none, .leaf 1 (.allHaveRun [1, 0] .pass), ⟨rfl, by simp [namedNodes]⟩, by decide⟩,
    ⟨((CSet.empty noOwners fun _ => none).addW 1 (.basic (.leaf 2 (.justRan 0)))).1.1,
      .all 3 [.leaf 2 (.justRan 0)], .inl ⟨rfl, rfl⟩, by decide⟩,
    ⟨CSet.empty noOwners fun _ => none, .leaf 1 (.threshold 0 0 0 .lt none 0 0 none), rfl,
      ⟨rfl, by simp [namedNodes]⟩, by decide⟩⟩

end GS.Props
