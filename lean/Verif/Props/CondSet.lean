import Verif.CondSetLemmas
/-!
# Properties of `ConditionSet` (C43, C44)
-/

set_option linter.unusedSectionVars false

namespace GS.Props
open GS Spec
variable {α κ W : Type _} [DecidableEq α] [DecidableEq κ]

/-- What a user can do with a condition set, apart from removing. -/
inductive SetOp (α κ W : Type _) where
  | add (n : α) (c : AnyCond α κ W)            -- add_condition(n, c)
  | addSet (d : Dict α (List (AnyCond α κ W))) -- add_condition_set(d)
  | setItem (n : α) (c : AnyCond α κ W)        -- set[n] = c
  | read                                       -- set.conditions

/-- The call of the modelled method. -/
def SetOp.call (s : CSet α κ W) : SetOp α κ W → CSet α κ W × Option Err
  | .add n c => s.add n c
  | .addSet d => s.addSet d
  | .setItem n c => s.setItem n c
  | .read => (s.conditions, none)

/-- What it adds. -/
def SetOp.adds : SetOp α κ W → Entries α κ W
  | .add n c => [(n, c)]
  | .addSet d => listed d
  | .setItem n c => [(n, c)]
  | .read => []

/-- Calls one after the other, none of which raises. -/
inductive Calls' : CSet α κ W → List (SetOp α κ W) → CSet α κ W → Prop where
  | nil (s : CSet α κ W) : Calls' s [] s
  | cons {s s' t : CSet α κ W} {op : SetOp α κ W} {ops : List (SetOp α κ W)} :
      op.call s = (s', none) → Calls' s' ops t → Calls' s (op :: ops) t

theorem holds_call {s s' : CSet α κ W} {es : Entries α κ W} (h : Holds s es)
    {op : SetOp α κ W} {r : Option Err} (hc : op.call s = (s', r)) :
    ∃ done rest, op.adds = done ++ rest ∧ Holds s' (es ++ done) ∧ (r = none → rest = []) := by
  have one : ∀ n c, s.add n c = (s', r) →
      ∃ done rest, [(n, c)] = done ++ rest ∧ Holds s' (es ++ done) ∧ (r = none → rest = []) := by
    intro n c ha
    cases r with
    | none => exact ⟨[(n, c)], [], rfl, h.add ha, fun _ => rfl⟩
    | some e => exact ⟨[], [(n, c)], rfl, by rw [CSet.add_error ha]; simpa using h, by simp⟩
  cases op with
  | add n c => exact one n c hc
  | addSet d => exact h.addSet d hc
  | setItem n c =>
    simp only [SetOp.call, CSet.setItem] at hc
    split at hc
    · simp only [Prod.mk.injEq] at hc
      obtain ⟨rfl, rfl⟩ := hc
      exact ⟨[], _, rfl, by simpa using h, by simp⟩
    · exact one n c hc
  | read =>
    simp only [SetOp.call, Prod.mk.injEq] at hc
    obtain ⟨rfl, rfl⟩ := hc
    exact ⟨[], [], rfl, by simpa using h.conditions, fun _ => rfl⟩

/-- C43.  After any sequence of additions (single, in bulk, by assignment, with any reads
in between), the set contains exactly the added conditions: every node's basic condition
is the last one added for it, its structural conditions are those added for it in order,
`structural_condition_order` is the order of addition, and the combined view lists the
basic condition first (`Spec.Holds`). -/
theorem C43_additions (st : Store α κ) (ow : OId → Option α) (ops : List (SetOp α κ W)) (s : CSet α κ W)
    (h : Calls' (CSet.empty st ow) ops s) : Holds s (ops.flatMap SetOp.adds) := by
  have gen : ∀ (s0 : CSet α κ W) es, Holds s0 es → ∀ ops s, Calls' s0 ops s →
      Holds s (es ++ ops.flatMap SetOp.adds) := by
    intro s0 es h0 ops s hc
    induction hc generalizing es with
    | nil s => simpa using h0
    | cons hop _ ih =>
      obtain ⟨done, rest, e, hh, hr⟩ := holds_call h0 hop
      have := hr rfl; subst this
      simp only [List.append_nil] at e
      have := ih _ hh
      rw [List.flatMap_cons, e]
      simpa using this
  simpa using gen _ _ (holds_empty st ow) ops s h

/-- C43.  The same for additions to any set, and also if one of them raises: then what
was added before the failing condition is in the set and the rest is not. -/
theorem C43_one_call (s s' : CSet α κ W) (es : Entries α κ W) (h : Holds s es)
    (op : SetOp α κ W) (r : Option Err) (hc : op.call s = (s', r)) :
    ∃ done rest, op.adds = done ++ rest ∧ Holds s' (es ++ done) ∧ (r = none → rest = []) :=
  holds_call h hc

/-- The combined view, read off `Spec.Holds`. -/
theorem C43_view (s : CSet α κ W) (es : Entries α κ W) (h : Holds s es) (n : α) :
    s.getItem n = shown (basicsOf n es).getLast? (structsOf n es) ∧
      (s.getItem n = none ↔ ∀ c, (n, c) ∉ es) := by
  refine ⟨h.view n, ?_⟩
  rw [h.view n]
  have hb : ∀ es : Entries α κ W, basicsOf n es = [] ↔ ∀ c, (n, .basic c) ∉ es := by
    intro es
    induction es with
    | nil => simp [basicsOf]
    | cons e es ih =>
      obtain ⟨k, c | c⟩ := e
      · simp only [basicsOf]
        by_cases hk : k = n
        · subst hk; simp; exact ⟨c, fun hh => absurd rfl hh⟩
        · have : ¬ n = k := fun e => hk e.symm
          simp [hk, this, ih]
      · simp [basicsOf, ih]
  constructor
  · intro hs c hc
    cases c with
    | basic c =>
      have : basicsOf n es ≠ [] := fun e => (hb es).mp e c hc
      obtain ⟨b, hb'⟩ := Option.isSome_iff_exists.mp (List.getLast?_isSome.mpr this)
      rw [hb'] at hs
      cases hst : structsOf n es <;> rw [hst] at hs <;> simp [shown] at hs
    | structural c =>
      have hm := mem_structsOf.mpr hc
      match hst : structsOf n es with
      | [] => rw [hst] at hm; simp at hm
      | [d] =>
        rw [hst] at hs
        cases hg : (basicsOf n es).getLast? <;> rw [hg] at hs <;> simp [shown] at hs
      | d :: e :: l =>
        rw [hst] at hs
        cases hg : (basicsOf n es).getLast? <;> rw [hg] at hs <;> simp [shown] at hs
  · intro hn
    have h1 : basicsOf n es = [] := (hb es).mpr fun c => hn _
    have h2 : structsOf n es = [] := by
      cases hst : structsOf n es with
      | nil => rfl
      | cons d l => exact absurd (mem_structsOf.mp (by rw [hst]; simp)) (hn (.structural d))
    rw [h1, h2]; rfl

/-- A structural condition that changes nothing. -/
def keepGraph (o : OId) : SCond Nat := { o := o, nodes := [], apply := fun _ g => .ok g }

/-- A store without owners. -/
def noOwners : Store Nat Nat := { owner := fun _ => none, sat := fun _ _ => 0, fresh := 100 }

/-- Two basic and three structural conditions for two nodes, in several calls. -/
def someAdditions : List (SetOp Nat Nat Unit) :=
  [.add 0 (.basic (.all 1 [])), .add 0 (.structural (keepGraph 2)), .read,
   .addSet [(1, [.structural (keepGraph 3)]), (0, [.basic (.any 4 []), .structural (keepGraph 5)])]]

/-- The set after them. -/
def someSet : CSet Nat Nat Unit :=
  ((someAdditions.foldl (fun s op => (op.call s).1) (CSet.empty noOwners (fun _ => none))))

theorem someSet_calls : Calls' (CSet.empty noOwners (fun _ => none)) someAdditions someSet :=
  .cons (s' := (SetOp.call (CSet.empty noOwners (fun _ => none)) (.add 0 (.basic (.all 1 [])))).1) rfl
    (.cons rfl (.cons rfl (.cons rfl (.nil _))))

theorem someSet_holds : Holds someSet (someAdditions.flatMap SetOp.adds) :=
  C43_additions _ _ _ _ someSet_calls

example : someSet.order.map (·.o) = [2, 3, 5] ∧
    (Dict.get? someSet.basic 0).map Cond.oid = some 4 := by decide

/-- C44.  `remove_condition(c)` for a structural condition `c` in the set, owned by `n`:
it is returned, exactly it is removed, and everything else stays in place.  (No
condition object may be in the set twice.) -/
theorem C44_structural_partial (s : CSet α κ W) (es : Entries α κ W) (h : Holds s es) (n : α)
    (c : SCond α) (hm : (n, .structural c) ∈ es) (hn : ((allStructs es).map (·.o)).Nodup)
    (ho : s.ownerOf (.structural c) = some n) :
    ∃ s', s.removeCond (.structural c) = (s', .ok (some (.structural c))) ∧
      Holds s' (dropStruct c.o es) := by
  obtain ⟨s', e, _, _, _, _, hh⟩ := h.removeStructural hn hm
  refine ⟨{ s' with rebuild := true }, ?_, hh⟩
  simp only [CSet.removeCond, ho, e]

example : (someSet.removeCond (.structural (keepGraph 2))).1.order.map (·.o) = [3, 5] := by decide
example : someSet.owners 2 = some 0 ∧
    ((allStructs (someAdditions.flatMap SetOp.adds)).map (·.o)).Nodup := by decide

mutual
theorem setOwner_none_keeps {x : OId} : ∀ (c : Cond α κ W) (st : Store α κ), st.owner x = none →
    (setOwner none c st).owner x = none
  | .leaf o _, st, h => by simp only [setOwner, Store.putOwner]; split <;> simp [h]
  | .whileNot o _, st, h => by simp only [setOwner, Store.putOwner]; split <;> simp [h]
  | .all o args, st, h => by
    simp only [setOwner]; exact setOwners_none_keeps args _ (by simp [Store.putOwner, h])
  | .any o args, st, h => by
    simp only [setOwner]; exact setOwners_none_keeps args _ (by simp [Store.putOwner, h])
  | .not o c, st, h => by
    simp only [setOwner]; exact setOwner_none_keeps c _ (by simp [Store.putOwner, h])
  | .nwhen o c _, st, h => by
    simp only [setOwner]; exact setOwner_none_keeps c _ (by simp [Store.putOwner, h])
theorem setOwners_none_keeps {x : OId} : ∀ (cs : List (Cond α κ W)) (st : Store α κ),
    st.owner x = none → (setOwners none cs st).owner x = none
  | [], _, h => h
  | c :: cs, st, h => by
    simp only [setOwners]
    split
    · exact setOwners_none_keeps cs _ (setOwner_none_keeps c st h)
    · exact setOwners_none_keeps cs _ h
end

theorem setOwner_none (c : Cond α κ W) (st : Store α κ) : (setOwner none c st).owner c.oid = none := by
  cases c with
  | leaf o k => simp [setOwner, Store.putOwner, Cond.oid]
  | whileNot o k => simp [setOwner, Store.putOwner, Cond.oid]
  | all o args => simp only [setOwner, Cond.oid]; exact setOwners_none_keeps args _ (by simp [Store.putOwner])
  | any o args => simp only [setOwner, Cond.oid]; exact setOwners_none_keeps args _ (by simp [Store.putOwner])
  | not o c => simp only [setOwner, Cond.oid]; exact setOwner_none_keeps c _ (by simp [Store.putOwner])
  | nwhen o c n => simp only [setOwner, Cond.oid]; exact setOwner_none_keeps c _ (by simp [Store.putOwner])

/-- C44.  `remove_condition(c)` for the basic condition of `n`; afterwards it has no owner. -/
theorem C44_basic_partial (s : CSet α κ W) (es : Entries α κ W) (h : Holds s es) (n : α)
    (c : Cond α κ W) (hm : (basicsOf n es).getLast? = some c)
    (ho : s.ownerOf (.basic c) = some n) :
    ∃ s', s.removeCond (.basic c) = (s', .ok (some (.basic c))) ∧ Holds s' (dropBasic n es) ∧
      s'.ownerOf (.basic c) = none := by
  refine ⟨_, ?_, h.removeBasic n c, setOwner_none c _⟩
  have hb := h.basic n
  rw [hm] at hb
  simp only [CSet.removeCond, ho, hb, if_true]

example : (Dict.get? (someSet.removeCond (.basic (.any 4 []))).1.basic 0).isNone ∧
    someSet.store.owner 4 = some 0 := by decide

/-- C44.  `remove_condition(n)` for a node that owns just a basic condition removes it.
The returned value is `None`, not the condition (`C44_owner_returns_none`). -/
theorem C44_owner_basic_partial (s : CSet α κ W) (es : Entries α κ W) (h : Holds s es) (n : α)
    (c : Cond α κ W) (hm : (basicsOf n es).getLast? = some c) (hs : structsOf n es = []) :
    ∃ s', s.removeOwner n = (s', .ok none) ∧ Holds s' (dropBasic n es) ∧
      s'.ownerOf (.basic c) = none := by
  refine ⟨_, ?_, h.removeBasic n c, setOwner_none c _⟩
  have hb := h.basic n
  have hst := h.structural n
  rw [hm] at hb
  rw [if_pos hs] at hst
  simp only [CSet.removeOwner, hb, hst]

/-- C44.  `remove_condition(n)` for a node without conditions changes nothing and returns
`None`. -/
theorem C44_owner_nothing (s : CSet α κ W) (es : Entries α κ W) (h : Holds s es) (n : α)
    (hn : ∀ c, (n, c) ∉ es) : s.removeOwner n = (s, .ok none) := by
  have h1 := (C43_view s es h n).2.mpr hn
  have hb := h.basic n
  have hst := h.structural n
  have h2 : structsOf n es = [] := by
    cases hst : structsOf n es with
    | nil => rfl
    | cons d l => exact absurd (mem_structsOf.mp (by rw [hst]; simp)) (hn (.structural d))
  rw [h.view n, h2] at h1
  have h3 : (basicsOf n es).getLast? = none := by
    cases hg : (basicsOf n es).getLast? with
    | none => rfl
    | some b => rw [hg] at h1; simp [shown] at h1
  rw [if_pos h2] at hst
  rw [h3] at hb
  simp only [CSet.removeOwner, hb, hst]

/-- C44.  An owner of several conditions: `ConditionError`, and nothing changes. -/
theorem C44_ambiguous (s : CSet α κ W) (es : Entries α κ W) (h : Holds s es) (n : α)
    (hm : ((basicsOf n es).getLast? ≠ none ∧ structsOf n es ≠ []) ∨
      1 < (structsOf n es).length) : s.removeOwner n = (s, .error .conditionError) := by
  have hb := h.basic n
  have hst := h.structural n
  have hne : structsOf n es ≠ [] := by
    rcases hm with h | h
    · exact h.2
    · intro e; rw [e] at h; simp at h
  rw [if_neg hne] at hst
  simp only [CSet.removeOwner, hb, hst]
  cases hg : (basicsOf n es).getLast? with
  | some b => rfl
  | none =>
    rcases hm with h | h
    · exact absurd hg h.1
    · match hl : structsOf n es, h with
      | _ :: _ :: _, _ => rfl
      | [_], h => simp at h
      | [], h => simp at h

example : (someSet.removeOwner 0).2.toOption.isNone := by decide

/-- C44.  A condition without an owner: `ConditionError`, and nothing changes. -/
theorem C44_ownerless (s : CSet α κ W) (c : AnyCond α κ W) (h : s.ownerOf c = none) :
    s.removeCond c = (s, .error .conditionError) := by
  simp only [CSet.removeCond, h]

/-- C44.  A condition that is not in the set: nothing changes.  The returned value is the
condition, not `None` (`C44_absent_returned`). -/
theorem C44_absent_partial (s : CSet α κ W) (es : Entries α κ W) (h : Holds s es)
    (c : AnyCond α κ W) (n : α) (ho : s.ownerOf c = some n)
    (hc : match c with
      | .basic b => ∀ d, (basicsOf n es).getLast? = some d → d.oid ≠ b.oid
      | .structural b => ∀ d, (n, .structural d) ∈ es → d.o ≠ b.o) :
    s.removeCond c = (s, .ok (some c)) := by
  cases c with
  | basic b =>
    simp only [CSet.removeCond, ho, h.basic n]
    cases hg : (basicsOf n es).getLast? with
    | none => rfl
    | some d => simp only; rw [if_neg (fun e => hc d hg e.symm)]
  | structural b =>
    have : s.removeStructural n b.o = (s, false) := by
      unfold CSet.removeStructural
      rw [h.structural n]
      by_cases he : structsOf n es = []
      · rw [if_pos he]
      · rw [if_neg he]
        simp only
        rw [removeObj_none]
        intro hin
        obtain ⟨d, hd, e⟩ := List.mem_map.mp hin
        exact hc d (mem_structsOf.mp hd) e
    simp only [CSet.removeCond, ho, this]

/-- C44 as stated fails: `remove_condition(owner)` removes the owner's condition but
returns `None`. -/
theorem C44_owner_returns_none :
    ∃ (s : CSet Nat Nat Unit) (es : Entries Nat Nat Unit) (c : Cond Nat Nat Unit),
      Holds s es ∧ es = [(0, .basic c)] ∧ (s.removeOwner 0).2 = .ok none ∧
        Holds (s.removeOwner 0).1 [] := by
  let ops : List (SetOp Nat Nat Unit) := [.add 0 (.basic (.all 1 []))]
  refine ⟨_, _, .all 1 [], C43_additions noOwners (fun _ => none) ops _ (.cons rfl (.nil _)), rfl, rfl, ?_⟩
  have h := C43_additions noOwners (fun _ => none) ops _ (.cons rfl (.nil _))
  obtain ⟨s', e, hh⟩ := C44_owner_basic_partial _ _ h 0 (.all 1 []) rfl rfl
  rw [e]; exact hh.1

/-- C44 as stated fails: if the owner's only condition is structural,
`remove_condition(owner)` raises `IndexError` after it has removed the condition from
`conditions_structural` and the order, and the combined view still shows it. -/
theorem C44_owner_structural_raises :
    ∃ (s : CSet Nat Nat Unit) (c : SCond Nat), Holds s [(0, .structural c)] ∧
      (s.removeOwner 0).2 = .error .indexError ∧ (s.removeOwner 0).1.order = [] ∧
      Dict.get? (s.removeOwner 0).1.structural 0 = none ∧
      (s.removeOwner 0).1.getItem 0 = some (.one (.structural c)) := by
  let ops : List (SetOp Nat Nat Unit) := [.add 0 (.structural (keepGraph 1)), .read]
  exact ⟨_, keepGraph 1, C43_additions noOwners (fun _ => none) ops _ (.cons rfl (.cons rfl (.nil _))), rfl, rfl,
    rfl, rfl⟩

/-- C44 as stated fails: a condition that is not in the set any more is returned although
nothing was removed. -/
theorem C44_absent_returned :
    ∃ (s : CSet Nat Nat Unit) (c : SCond Nat), Holds s [] ∧
      s.removeCond (.structural c) = (s, .ok (some (.structural c))) := by
  let ops : List (SetOp Nat Nat Unit) := [.add 0 (.structural (keepGraph 1))]
  have h := C43_additions noOwners (fun _ => none) ops _ (.cons rfl (.nil _))
  obtain ⟨s', e, hh⟩ := C44_structural_partial _ _ h 0 (keepGraph 1) (.head _)
    (by simp [ops, SetOp.adds, allStructs]) rfl
  have hs' : s' = (CSet.removeCond _ (.structural (keepGraph 1))).1 := (congrArg Prod.fst e).symm
  exact ⟨s', keepGraph 1, hh, by rw [hs']; rfl⟩

/-- C43: assigning to a node that has structural conditions raises `TypeError`
(`remove_condition` is called with two arguments) and changes nothing. -/
theorem C43_setitem_structural (s : CSet α κ W) (es : Entries α κ W) (h : Holds s es) (n : α)
    (hs : structsOf n es ≠ []) (c : AnyCond α κ W) : s.setItem n c = (s, some .typeError) := by
  have hst := h.structural n
  rw [if_neg hs] at hst
  simp only [CSet.setItem, hst]
  match hl : structsOf n es, hs with
  | _ :: _, _ => rfl

/-- The owner attribute names the node for which the object was added last. -/
theorem C43_owner (s s' : CSet α κ W) (n : α) (c : AnyCond α κ W)
    (h : s.add n c = (s', none)) : s'.ownerOf c = some n := by
  cases c with
  | basic c =>
    simp only [CSet.add, CSet.addBasic, Prod.mk.injEq, and_true] at h
    subst h
    exact setOwner_self (some n) c s.store
  | structural c =>
    simp only [CSet.add, CSet.addStructural] at h
    split at h
    · simp at h
    · simp only [Prod.mk.injEq, and_true] at h
      subst h
      simp [CSet.ownerOf]

end GS.Props
