import Verif.StructuralUndo
/-!
# A `ConditionSet` given to `add_condition_set` (condition.py:850-882)
-/

set_option linter.unusedSectionVars false

namespace GS
variable {α κ W : Type _} [DecidableEq α] [DecidableEq κ]

/-- condition.py:878-882: the conditions that are added for one value of the `conditions`
view: those of a list, or the single one. -/
def Shown.list : Shown α κ W → List (AnyCond α κ W)
  | .one c => [c]
  | .many cs => cs

namespace CSet

/-- condition.py:700-704, 877-882: what `for owner in conditions` and `conditions[owner]` give
for a `ConditionSet`: the entries of its `conditions` view (886-924), in its order.  The set is
not the one that conditions are added to (for that see `AddPC`), so it does not change. -/
def asDict (t : CSet α κ W) : Dict α (List (AnyCond α κ W)) :=
  t.conditions.view.map fun p => (p.1, p.2.list)

/-- Where `add_condition_set` is when the argument is the set itself (condition.py:877-882). -/
inductive AddPC (α κ W : Type _) where
  /-- At the head of the outer loop, with the owners still to come. -/
  | owners (rest : List α)
  /-- In the loop over `conditions_structural[owner]` itself: the list that is appended to. -/
  | live (owner : α) (i : Nat) (rest : List α)
  /-- In the loop over a list made for the view. -/
  | copied (owner : α) (cs : List (AnyCond α κ W)) (rest : List α)
  | done
  | raised (e : Err)

/-- One addition; `pc` is where the loop goes on. -/
def addThen (s : CSet α κ W) (owner : α) (c : AnyCond α κ W) (pc : AddPC α κ W) :
    CSet α κ W × AddPC α κ W :=
  match s.add owner c with
  | (s', some e) => (s', .raised e)
  | (s', none) => (s', pc)

/-- condition.py:877-882 `add_condition_set(self)`, one step: the next owner, or the next
condition of its list.  The outer loop iterates over the keys of the view as it was at the
start; `conditions[owner]` is the view of now.  Its value is the list
`conditions_structural[owner]` itself if the owner has no basic condition (918), and a new list
if it has one (910).  A list iterator gives the element at its index as long as there is one. -/
def selfStep (s : CSet α κ W) : AddPC α κ W → CSet α κ W × AddPC α κ W
  | .owners [] => (s, .done)
  | .owners (n :: rest) =>
    match Dict.get? s.conditions.view n with
    | none => (s.conditions, .raised .keyError)
    | some (.one c) => s.conditions.addThen n c (.owners rest)
    | some (.many cs) =>
      match Dict.get? s.conditions.basic n with
      | some _ => (s.conditions, .copied n cs rest)
      | none => (s.conditions, .live n 0 rest)
  | .live n i rest =>
    match (s.structsFor n)[i]? with
    | none => (s, .owners rest)
    | some c => s.addThen n (.structural c) (.live n (i + 1) rest)
  | .copied _ [] rest => (s, .owners rest)
  | .copied n (c :: cs) rest => s.addThen n c (.copied n cs rest)
  | .done => (s, .done)
  | .raised e => (s, .raised e)

/-- `k` steps. -/
def selfSteps : Nat → CSet α κ W × AddPC α κ W → CSet α κ W × AddPC α κ W
  | 0, p => p
  | k + 1, p => selfSteps k (selfStep p.1 p.2)

/-- The state after `k` steps of `s.add_condition_set(s)`. -/
def addSelf (s : CSet α κ W) (k : Nat) : CSet α κ W × AddPC α κ W :=
  selfSteps k (s.conditions, .owners (Dict.keys s.conditions.view))

end CSet

/-- scheduler.py:463-509: `Scheduler(graph, conditions=t)`, up to the conditions, for a
`ConditionSet` `t` of an earlier scheduler. -/
def Stack.adopt (mode : Mode) (base : Graph α) (t : CSet α κ W) : Stack α κ W × Option Err :=
  (Stack.new mode base t.store t.owners).addConditionSet t.asDict

/-! ## Sets as they are after calls -/

/-- What holds of every set in use: keys once, no empty lists, and the view shows the
attributes. -/
structure CSet.Sane (t : CSet α κ W) : Prop where
  basicWF : Dict.WF t.basic
  structWF : Dict.WF t.structural
  viewWF : Dict.WF t.conditions.view
  full : ∀ n, Dict.get? t.structural n ≠ some []
  legit : ∀ n, ∀ c ∈ t.structsFor n, n ∉ c.nodes
  view : ∀ n, t.getItem n = Spec.shown (Dict.get? t.basic n) (t.structsFor n)

open Spec

theorem basicsOf_map_basic (d : Dict α (Cond α κ W)) (hd : Dict.WF d) (n : α) :
    basicsOf n (d.map fun p => (p.1, (AnyCond.basic p.2 : AnyCond α κ W))) =
      (Dict.get? d n).toList := by
  induction d with
  | nil => rfl
  | cons p d ih =>
    obtain ⟨k, c⟩ := p
    simp only [Dict.WF, Dict.keys_cons, List.nodup_cons] at hd
    simp only [List.map_cons, basicsOf, Dict.get?_cons, ih hd.2]
    by_cases h : k = n
    · subst h; rw [if_pos rfl, if_pos rfl, Dict.get?_eq_none.mpr hd.1]; rfl
    · rw [if_neg h, if_neg h]

theorem structsOf_map_basic (d : Dict α (Cond α κ W)) (n : α) :
    structsOf n (d.map fun p => (p.1, (AnyCond.basic p.2 : AnyCond α κ W))) = [] := by
  induction d with
  | nil => rfl
  | cons p d ih => simp only [List.map_cons, structsOf, ih]

/-- The basic conditions of a list. -/
def basicsIn : List (AnyCond α κ W) → List (Cond α κ W)
  | [] => []
  | .basic c :: cs => c :: basicsIn cs
  | .structural _ :: cs => basicsIn cs

/-- The structural conditions of a list. -/
def structsIn : List (AnyCond α κ W) → List (SCond α)
  | [] => []
  | .basic _ :: cs => structsIn cs
  | .structural c :: cs => c :: structsIn cs

theorem structsIn_map (l : List (SCond α)) :
    structsIn (l.map (AnyCond.structural (κ := κ) (W := W))) = l := by
  induction l with
  | nil => rfl
  | cons c l ih => simp [structsIn, ih]

theorem basicsIn_map (l : List (SCond α)) :
    basicsIn (l.map (AnyCond.structural (κ := κ) (W := W))) = [] := by
  induction l with
  | nil => rfl
  | cons c l ih => simp [basicsIn, ih]

theorem structsOf_map (m n : α) (cs : List (AnyCond α κ W)) :
    structsOf n (cs.map fun c => (m, c)) = if m = n then structsIn cs else [] := by
  induction cs with
  | nil => simp [structsOf, structsIn]
  | cons c cs ih =>
    cases c with
    | basic c => simp only [List.map_cons, structsOf, structsIn, ih]
    | structural c =>
      simp only [List.map_cons, structsOf, structsIn, ih]
      by_cases h : m = n
      · rw [if_pos h, if_pos h, if_pos h]
      · rw [if_neg h, if_neg h, if_neg h]

theorem basicsOf_map (m n : α) (cs : List (AnyCond α κ W)) :
    basicsOf n (cs.map fun c => (m, c)) = if m = n then basicsIn cs else [] := by
  induction cs with
  | nil => simp [basicsOf, basicsIn]
  | cons c cs ih =>
    cases c with
    | structural c => simp only [List.map_cons, basicsOf, basicsIn, ih]
    | basic c =>
      simp only [List.map_cons, basicsOf, basicsIn, ih]
      by_cases h : m = n
      · rw [if_pos h, if_pos h, if_pos h]
      · rw [if_neg h, if_neg h, if_neg h]

/-- A list that may be missing. -/
def orNil {β : Type _} : Option (List β) → List β
  | some l => l
  | none => []

theorem structsOf_listed (d : Dict α (List (AnyCond α κ W))) (hd : Dict.WF d) (n : α) :
    structsOf n (listed d) = structsIn (orNil (Dict.get? d n)) := by
  induction d with
  | nil => rfl
  | cons p d ih =>
    obtain ⟨k, cs⟩ := p
    simp only [Dict.WF, Dict.keys_cons, List.nodup_cons] at hd
    have e : listed ((k, cs) :: d) = cs.map (fun c => (k, c)) ++ listed d := rfl
    rw [e, structsOf_append, structsOf_map, ih hd.2, Dict.get?_cons]
    by_cases h : k = n
    · subst h
      rw [if_pos rfl, if_pos rfl, Dict.get?_eq_none.mpr hd.1]
      simp [orNil, structsIn]
    · rw [if_neg h, if_neg h]; rfl

theorem basicsOf_listed (d : Dict α (List (AnyCond α κ W))) (hd : Dict.WF d) (n : α) :
    basicsOf n (listed d) = basicsIn (orNil (Dict.get? d n)) := by
  induction d with
  | nil => rfl
  | cons p d ih =>
    obtain ⟨k, cs⟩ := p
    simp only [Dict.WF, Dict.keys_cons, List.nodup_cons] at hd
    have e : listed ((k, cs) :: d) = cs.map (fun c => (k, c)) ++ listed d := rfl
    rw [e, basicsOf_append, basicsOf_map, ih hd.2, Dict.get?_cons]
    by_cases h : k = n
    · subst h
      rw [if_pos rfl, if_pos rfl, Dict.get?_eq_none.mpr hd.1]
      simp [orNil, basicsIn]
    · rw [if_neg h, if_neg h]; rfl

theorem get?_mapSnd {β γ : Type _} (f : β → γ) (d : Dict α β) (n : α) :
    Dict.get? (d.map fun p => (p.1, f p.2)) n = (Dict.get? d n).map f := by
  induction d with
  | nil => rfl
  | cons p d ih =>
    obtain ⟨k, c⟩ := p
    simp only [List.map_cons, Dict.get?_cons, ih]
    split <;> rfl

theorem wf_mapSnd {β γ : Type _} (f : β → γ) (d : Dict α β) (h : Dict.WF d) :
    Dict.WF (d.map fun p => (p.1, f p.2)) := by
  have : Dict.keys (d.map fun p => (p.1, f p.2)) = Dict.keys d := by
    simp [Dict.keys, List.map_map, Function.comp_def]
  unfold Dict.WF; rw [this]; exact h

/-- The entries of the two dicts. -/
def CSet.entries (t : CSet α κ W) : Entries α κ W :=
  (t.basic.map fun p => (p.1, .basic p.2)) ++
    listed (t.structural.map fun p => (p.1, p.2.map .structural))

theorem CSet.basicsOf_entries (t : CSet α κ W) (hb : Dict.WF t.basic) (hs : Dict.WF t.structural)
    (n : α) : basicsOf n t.entries = (Dict.get? t.basic n).toList := by
  unfold CSet.entries
  rw [basicsOf_append, basicsOf_map_basic _ hb, basicsOf_listed _ (wf_mapSnd _ _ hs),
    get?_mapSnd (fun l : List (SCond α) => l.map (AnyCond.structural (κ := κ) (W := W)))]
  cases Dict.get? t.structural n with
  | none => simp [orNil, basicsIn]
  | some l => simp [orNil, basicsIn_map]

theorem CSet.structsOf_entries (t : CSet α κ W) (hs : Dict.WF t.structural)
    (n : α) : structsOf n t.entries = t.structsFor n := by
  unfold CSet.entries CSet.structsFor
  rw [structsOf_append, structsOf_map_basic, structsOf_listed _ (wf_mapSnd _ _ hs),
    get?_mapSnd (fun l : List (SCond α) => l.map (AnyCond.structural (κ := κ) (W := W)))]
  cases Dict.get? t.structural n with
  | none => simp [orNil, structsIn]
  | some l => simp [orNil, structsIn_map]

/-- After a change the view is made anew, from the attributes. -/
theorem CSet.Sane.rebuilt {t : CSet α κ W} (hr : t.rebuild = true) (hb : Dict.WF t.basic)
    (hs : Dict.WF t.structural) (hf : ∀ n, Dict.get? t.structural n ≠ some [])
    (hl : ∀ n, ∀ c ∈ t.structsFor n, n ∉ c.nodes) : t.Sane := by
  have h := CSet.rebuild_view t hr hb hs t.entries
    (fun n => by rw [t.basicsOf_entries hb hs]; cases Dict.get? t.basic n <;> rfl)
    (fun n => by
      rw [t.structsOf_entries hs]
      have := hf n
      unfold CSet.structsFor
      cases e : Dict.get? t.structural n with
      | none => simp
      | some l =>
        rw [e] at this
        have : l ≠ [] := fun x => this (by rw [x])
        simp [this])
  refine ⟨hb, hs, h.2, hf, hl, fun n => ?_⟩
  rw [h.1 n, t.basicsOf_entries hb hs, t.structsOf_entries hs]
  cases Dict.get? t.basic n <;> rfl

theorem CSet.Sane.empty (st : Store α κ) (ow : OId → Option α) :
    (CSet.empty st ow : CSet α κ W).Sane := by
  refine ⟨?_, ?_, ?_, ?_, ?_, ?_⟩ <;>
    simp [CSet.empty, CSet.conditions, Dict.WF, CSet.structsFor, CSet.getItem, shown]

theorem CSet.structsFor_set (t : CSet α κ W) (n m : α) (l : List (SCond α)) :
    CSet.structsFor { t with structural := Dict.set t.structural n l } m =
      if n = m then l else t.structsFor m := by
  unfold CSet.structsFor
  simp only [Dict.get?_set]
  by_cases h : n = m
  · simp [h]
  · simp [h]

theorem CSet.Sane.add {t t' : CSet α κ W} (h : t.Sane) {n : α} {c : AnyCond α κ W} {r : Option Err}
    (ha : t.add n c = (t', r)) : t'.Sane := by
  cases c with
  | basic c =>
    simp only [CSet.add, CSet.addBasic, Prod.mk.injEq] at ha
    rw [← ha.1]
    exact .rebuilt rfl (h.basicWF.set _ _) h.structWF h.full h.legit
  | structural c =>
    simp only [CSet.add, CSet.addStructural] at ha
    split at ha
    · simp only [Prod.mk.injEq] at ha; rw [← ha.1]; exact h
    · next hn =>
      simp only [Prod.mk.injEq] at ha
      rw [← ha.1]
      refine .rebuilt rfl h.basicWF (h.structWF.set _ _) ?_ ?_
      · intro m
        simp only [Dict.get?_set]
        by_cases hm : n = m
        · simp [hm]
        · rw [if_neg hm]; exact h.full m
      · intro m d hd
        have e := CSet.structsFor_set t n m (t.structsFor n ++ [c])
        have hd' : d ∈ if n = m then t.structsFor n ++ [c] else t.structsFor m := by
          rw [← e]; exact hd
        by_cases hm : n = m
        · subst hm
          rw [if_pos rfl] at hd'
          rcases List.mem_append.mp hd' with x | x
          · exact h.legit n d x
          · simp at x; subst x; exact hn
        · rw [if_neg hm] at hd'; exact h.legit m d hd'

theorem CSet.Sane.addAll (n : α) (cs : List (AnyCond α κ W)) : ∀ {t t' : CSet α κ W}
    {r : Option Err}, t.Sane → t.addAll n cs = (t', r) → t'.Sane := by
  induction cs with
  | nil =>
    intro t t' r h ha
    simp only [CSet.addAll, Prod.mk.injEq] at ha
    rw [← ha.1]; exact h
  | cons c cs ih =>
    intro t t' r h ha
    unfold CSet.addAll at ha
    split at ha
    · next t1 e he => simp only [Prod.mk.injEq] at ha; rw [← ha.1]; exact h.add he
    · next t1 he => exact ih (h.add he) ha

theorem CSet.Sane.addSet (d : Dict α (List (AnyCond α κ W))) : ∀ {t t' : CSet α κ W}
    {r : Option Err}, t.Sane → t.addSet d = (t', r) → t'.Sane := by
  induction d with
  | nil =>
    intro t t' r h ha
    simp only [CSet.addSet, Prod.mk.injEq] at ha
    rw [← ha.1]; exact h
  | cons p d ih =>
    obtain ⟨n, cs⟩ := p
    intro t t' r h ha
    unfold CSet.addSet at ha
    split at ha
    · next t1 e he => simp only [Prod.mk.injEq] at ha; rw [← ha.1]; exact h.addAll n cs he
    · next t1 he => exact ih (h.addAll n cs he) ha

theorem CSet.conditions_eq (t : CSet α κ W) :
    t.conditions.basic = t.basic ∧ t.conditions.structural = t.structural ∧
    t.conditions.order = t.order ∧ t.conditions.conditions = t.conditions := by
  refine ⟨?_, ?_, ?_, ?_⟩
  · unfold CSet.conditions; split <;> rfl
  · unfold CSet.conditions; split <;> rfl
  · unfold CSet.conditions; split <;> rfl
  · unfold CSet.conditions; split <;> simp_all

theorem CSet.Sane.conditions {t : CSet α κ W} (h : t.Sane) : t.conditions.Sane := by
  obtain ⟨e1, e2, e3, e4⟩ := t.conditions_eq
  have e5 : ∀ n, t.conditions.structsFor n = t.structsFor n := by
    intro n; unfold CSet.structsFor; rw [e2]
  refine ⟨by rw [e1]; exact h.basicWF, by rw [e2]; exact h.structWF, by rw [e4]; exact h.viewWF,
    by rw [e2]; exact h.full, fun n => by rw [e5]; exact h.legit n, fun n => ?_⟩
  rw [e1, e5, ← h.view n]; unfold CSet.getItem; rw [e4]

theorem CSet.Sane.removeStructural {t t' : CSet α κ W} (h : t.Sane) {n : α} {o : OId}
    (hr : t.removeStructural n o = (t', true)) : ({ t' with rebuild := true } : CSet α κ W).Sane := by
  unfold CSet.removeStructural at hr
  split at hr
  · simp at hr
  · next l hl =>
    split at hr
    · simp at hr
    · next l' hl' =>
      split at hr
      · simp at hr
      · next order' _ =>
        simp only [Prod.mk.injEq, and_true] at hr
        subst hr
        have hsub : ∀ c ∈ l', n ∉ c.nodes := fun c hc => h.legit n c (by
          unfold CSet.structsFor; rw [hl]; exact removeObj_mem hl' c hc)
        refine .rebuilt rfl h.basicWF ?_ ?_ ?_
        · simp only; split
          · exact h.structWF.erase _
          · exact h.structWF.set _ _
        · intro m
          simp only; split
          · rw [Dict.get?_erase h.structWF]
            by_cases hm : n = m
            · simp [hm]
            · rw [if_neg hm]; exact h.full m
          · next hx =>
            rw [Dict.get?_set]
            by_cases hm : n = m
            · simp [hm, hx]
            · rw [if_neg hm]; exact h.full m
        · intro m c hc
          simp only [CSet.structsFor] at hc
          split at hc
          · next l1 hl1 =>
            split at hl1
            · rw [Dict.get?_erase h.structWF] at hl1
              by_cases hm : n = m
              · simp [hm] at hl1
              · rw [if_neg hm] at hl1
                exact h.legit m c (by unfold CSet.structsFor; rw [hl1]; exact hc)
            · rw [Dict.get?_set] at hl1
              by_cases hm : n = m
              · subst hm; simp at hl1; subst hl1; exact hsub c hc
              · rw [if_neg hm] at hl1
                exact h.legit m c (by unfold CSet.structsFor; rw [hl1]; exact hc)
          · simp at hc

/-- When nothing is found, nothing has been removed. -/
theorem CInv.removeStructural_false {t t' : CSet α κ W} {es : List (α × SCond α)} (h : CInv t es)
    {n : α} {o : OId} (hr : t.removeStructural n o = (t', false)) : t' = t := by
  unfold CSet.removeStructural at hr
  split at hr
  · simp at hr; exact hr.symm
  · next l hl =>
    split at hr
    · simp at hr; exact hr.symm
    · next l' hl' =>
      split at hr
      · next ho =>
        exfalso
        rw [h.order, removeObj_snd] at ho
        split at ho
        · simp at ho
        · next hm =>
          rw [h.structural n] at hl
          split at hl
          · simp at hl
          · simp at hl
            rw [← hl, removeObj_snd] at hl'
            split at hl'
            · next hx =>
              obtain ⟨e, he, heo⟩ := List.mem_map.mp hx
              exact hm (List.mem_map.mpr ⟨e, (List.mem_filter.mp he).1, heo⟩)
            · simp at hl'
      · simp at hr

theorem CSet.Sane.removeBasic {t : CSet α κ W} (h : t.Sane) (n : α) (b : Cond α κ W) :
    ({ t.removeBasic n b with rebuild := true } : CSet α κ W).Sane :=
  .rebuilt rfl (h.basicWF.erase _) h.structWF h.full h.legit

theorem CSet.Sane.remove {t : CSet α κ W} {es : List (α × SCond α)} (h : t.Sane) (hc : CInv t es)
    (c : AnyCond α κ W) : (t.removeCond c).1.Sane := by
  unfold CSet.removeCond
  split
  · exact h
  · next n hn =>
    split
    · next b =>
      split
      · exact h
      · split
        · exact h.removeBasic n b
        · exact h
    · next d =>
      split
      · next t' ht => exact h.removeStructural ht
      · next t' ht => rw [hc.removeStructural_false ht]; exact h

theorem CSet.Sane.removeOf {t : CSet α κ W} (h : t.Sane) (n : α)
    (hr : raised (t.removeOwner n).2 = none) : (t.removeOwner n).1.Sane := by
  unfold CSet.removeOwner at hr ⊢
  split
  · exact h
  · exact h.removeBasic n _
  · exact h
  · simp_all [raised]
  · exact h
  · exact h

/-! ## Graph operations leave the set alone -/

namespace Stack

theorem handle_cset (s : Stack α κ W) : s.handle.1.cset = s.cset := by
  unfold handle
  simp only
  split
  · rfl
  · have h1 := popN_cset (numPops s.last (commonWith s.last (s.cset.order.map (·.o)))) s
    split
    · next s1 e he => rw [he] at h1; exact h1
    · next s1 he =>
      rw [he] at h1
      split
      · exact h1
      · next g gs _ =>
        have h2 := pushAll_cset
          (s.cset.order.drop (commonWith s.last (s.cset.order.map (·.o)))) s1 g
        split
        · next s2 e he2 => rw [he2] at h2; exact h2.trans h1
        · next s2 he2 => rw [he2] at h2; exact h2.trans h1

theorem readGraph_cset (s : Stack α κ W) : s.readGraph.1.cset = s.cset := by
  have := handle_cset s
  unfold readGraph
  split <;> simp_all

theorem readQueue_cset (s : Stack α κ W) : s.readQueue.1.cset = s.cset := by
  have h := handle_cset s
  unfold readQueue
  split
  · simp_all
  · next s' he =>
    rw [he] at h
    split
    · have h2 := readGraph_cset s'
      split <;> simp_all
    · exact h

theorem readIndices_cset (s : Stack α κ W) : s.readIndices.1.cset = s.cset := by
  have := handle_cset s
  unfold readIndices
  split <;> simp_all

end Stack

theorem CSet.Sane.call {s s' : Stack α κ W} {es : List (α × SCond α)} (h : s.cset.Sane)
    (hi : CInv s.cset es) {op : SchedOp α κ W} (hc : op.call s = (s', none)) : s'.cset.Sane := by
  cases op with
  | add n c =>
    simp only [SchedOp.call, Stack.addCondition] at hc
    split at hc
    · simp at hc
    · next cs hcs =>
      have := Stack.handle_cset { s with cset := cs }
      rw [hc] at this
      rw [this]; exact h.add hcs
  | addSet d =>
    simp only [SchedOp.call, Stack.addConditionSet] at hc
    split at hc
    · simp at hc
    · next cs hcs =>
      have := Stack.handle_cset { s with cset := cs }
      rw [hc] at this
      rw [this]; exact h.addSet d hcs
  | remove c =>
    simp only [SchedOp.call, Stack.removeCondition, Prod.mk.injEq] at hc
    rw [← hc.1]; exact h.remove hi c
  | removeOf n =>
    simp only [SchedOp.call, Stack.removeConditionOf, Prod.mk.injEq] at hc
    rw [← hc.1]; exact h.removeOf n hc.2
  | graph =>
    simp only [SchedOp.call, Prod.mk.injEq] at hc
    rw [← hc.1, Stack.readGraph_cset]; exact h
  | queue =>
    simp only [SchedOp.call, Prod.mk.injEq] at hc
    rw [← hc.1, Stack.readQueue_cset]; exact h
  | indices =>
    simp only [SchedOp.call, Prod.mk.injEq] at hc
    rw [← hc.1, Stack.readIndices_cset]; exact h

theorem CSet.Sane.quiet {base : Graph α} {mode : Mode} {all es ls : List (α × SCond α)}
    {s s' : Stack α κ W} {ops : List (SchedOp α κ W)} (h1 : OneOwner all)
    (hi : SInv base mode all es ls s) (hsub : ∀ op ∈ ops, ∀ e ∈ op.adds, e ∈ all)
    (h : s.cset.Sane) (hq : Quiet s ops s') : s'.cset.Sane := by
  induction hq generalizing es ls with
  | nil s => exact h
  | cons hc _ ih =>
    obtain ⟨ls1, h'⟩ := hi.step h1 (hsub _ (.head _)) hc
    exact ih h' (fun op hop => hsub op (.tail _ hop)) (h.call hi.cset hc)

/-! ## The entries handed over -/

theorem CSet.Sane.get?_asDict {t : CSet α κ W} (h : t.Sane) (n : α) :
    orNil (Dict.get? t.asDict n) =
      (Dict.get? t.basic n).toList.map .basic ++ (t.structsFor n).map .structural := by
  unfold CSet.asDict
  rw [get?_mapSnd Shown.list]
  have := h.view n
  unfold CSet.getItem at this
  rw [this]
  cases Dict.get? t.basic n with
  | none =>
    match t.structsFor n with
    | [] => rfl
    | [c] => rfl
    | c :: d :: l => rfl
  | some b =>
    match t.structsFor n with
    | [] => rfl
    | c :: l => rfl

theorem CSet.Sane.asDictWF {t : CSet α κ W} (h : t.Sane) : Dict.WF t.asDict :=
  wf_mapSnd _ _ h.viewWF

theorem structsIn_append (a b : List (AnyCond α κ W)) :
    structsIn (a ++ b) = structsIn a ++ structsIn b := by
  induction a with
  | nil => rfl
  | cons c a ih => cases c <;> simp [structsIn, ih]

theorem basicsIn_append (a b : List (AnyCond α κ W)) :
    basicsIn (a ++ b) = basicsIn a ++ basicsIn b := by
  induction a with
  | nil => rfl
  | cons c a ih => cases c <;> simp [basicsIn, ih]

theorem CSet.Sane.structs_listed {t : CSet α κ W} (h : t.Sane) (n : α) :
    structsOf n (listed t.asDict) = t.structsFor n := by
  rw [structsOf_listed _ h.asDictWF, h.get?_asDict, structsIn_append, structsIn_map]
  cases Dict.get? t.basic n <;> simp [structsIn]

theorem CSet.Sane.basics_listed {t : CSet α κ W} (h : t.Sane) (n : α) :
    basicsOf n (listed t.asDict) = (Dict.get? t.basic n).toList := by
  rw [basicsOf_listed _ h.asDictWF, h.get?_asDict, basicsIn_append, basicsIn_map]
  cases Dict.get? t.basic n <;> simp [basicsIn]

/-- Adding entries none of which has a subject node as its owner does not raise. -/
theorem CSet.addAll_ok (n : α) (cs : List (AnyCond α κ W))
    (h : ∀ c ∈ structsIn cs, n ∉ c.nodes) : ∀ t : CSet α κ W, ∃ t', t.addAll n cs = (t', none) := by
  induction cs with
  | nil => exact fun t => ⟨t, rfl⟩
  | cons c cs ih =>
    intro t
    cases c with
    | basic c =>
      simp only [CSet.addAll, CSet.add]
      exact ih h _
    | structural c =>
      have hn := h c (.head _)
      simp only [CSet.addAll, CSet.add, CSet.addStructural, if_neg hn]
      exact ih (fun d hd => h d (.tail _ hd)) _

theorem CSet.addSet_ok (d : Dict α (List (AnyCond α κ W)))
    (h : ∀ p ∈ d, ∀ c ∈ structsIn p.2, p.1 ∉ c.nodes) :
    ∀ t : CSet α κ W, ∃ t', t.addSet d = (t', none) := by
  induction d with
  | nil => exact fun t => ⟨t, rfl⟩
  | cons p d ih =>
    obtain ⟨n, cs⟩ := p
    intro t
    obtain ⟨t1, e1⟩ := CSet.addAll_ok n cs (h _ (.head _)) t
    simp only [CSet.addSet, e1]
    exact ih (fun q hq => h q (.tail _ hq)) t1

theorem CSet.Sane.addSet_none {t : CSet α κ W} (h : t.Sane) (s : CSet α κ W) :
    ∃ s', s.addSet t.asDict = (s', none) := by
  refine CSet.addSet_ok _ (fun p hp c hc => ?_) s
  have e := Dict.get?_of_mem h.asDictWF (k := p.1) (v := p.2) hp
  have := h.get?_asDict p.1
  rw [e] at this
  simp only [orNil] at this
  rw [this, structsIn_append, structsIn_map] at hc
  refine h.legit p.1 c ?_
  cases hb : Dict.get? t.basic p.1 <;> simpa [hb, structsIn] using hc

/-! ## Reordering across owners -/

/-- A step of the composition. -/
theorem composed_bind (g : Graph α) (a b : List (α × SCond α)) :
    composed g (a ++ b) = (composed g a).bind fun g' => composed g' b := by
  induction a generalizing g with
  | nil => rfl
  | cons e a ih =>
    obtain ⟨n, c⟩ := e
    simp only [List.cons_append, composed]
    cases c.apply n g with
    | ok g' => exact ih g'
    | error x => rfl

theorem composed_front {e : α × SCond α} (pre post : List (α × SCond α))
    (h : ∀ f ∈ pre, ∀ g, composed g [e, f] = composed g [f, e]) (g : Graph α) :
    composed g (pre ++ e :: post) = composed g (e :: pre ++ post) := by
  induction pre generalizing g with
  | nil => rfl
  | cons f pre ih =>
    have h1 : composed g (f :: pre ++ e :: post) = composed g ([f] ++ (e :: pre ++ post)) := by
      show composed g ([f] ++ (pre ++ e :: post)) = _
      rw [composed_bind, composed_bind]
      congr 1; funext g'
      exact ih (fun f' hf' => h f' (.tail _ hf')) g'
    rw [h1]
    show composed g ([f, e] ++ (pre ++ post)) = composed g ([e, f] ++ (pre ++ post))
    rw [composed_bind, composed_bind, h f (.head _) g]

/-- Two lists with the same entries for each owner compose to the same, if entries of
different owners commute. -/
theorem composed_shuffle (es : List (α × SCond α)) : ∀ (fs : List (α × SCond α)),
    (∀ n, es.filter (fun e => e.1 = n) = fs.filter (fun e => e.1 = n)) →
    (∀ e ∈ es, ∀ f ∈ es, e.1 ≠ f.1 → ∀ g, composed g [e, f] = composed g [f, e]) →
    ∀ g, composed g es = composed g fs := by
  induction es with
  | nil =>
    intro fs hf _ g
    cases fs with
    | nil => rfl
    | cons f fs =>
      have := hf f.1
      simp at this
  | cons e es ih =>
    intro fs hf hc g
    have he := hf e.1
    rw [List.filter_cons, if_pos (by simp)] at he
    obtain ⟨pre, post, rfl, hpre, _, hpost⟩ := List.filter_eq_cons_iff.mp he.symm
    have hmem : ∀ f ∈ pre, f ∈ e :: es := by
      intro f hfp
      have : f ∈ (e :: es).filter (fun x => x.1 = f.1) := by
        rw [hf f.1]; exact List.mem_filter.mpr ⟨List.mem_append_left _ hfp, by simp⟩
      exact (List.mem_filter.mp this).1
    have hne : ∀ f ∈ pre, e.1 ≠ f.1 := by
      intro f hfp x
      exact hpre f hfp (by simp [x])
    rw [composed_front pre post (fun f hfp => hc e (.head _) f (hmem f hfp) (hne f hfp)) g]
    show composed g ([e] ++ es) = composed g ([e] ++ (pre ++ post))
    rw [composed_bind, composed_bind]
    congr 1; funext g'
    refine ih (pre ++ post) (fun n => ?_) (fun a ha b hb => hc a (.tail _ ha) b (.tail _ hb)) g'
    by_cases hn : e.1 = n
    · subst hn
      have hp : pre.filter (fun x => decide (x.1 = e.1)) = [] :=
        List.filter_eq_nil_iff.mpr hpre
      rw [List.filter_append, hp, List.nil_append]
      exact hpost.symm
    · have := hf n
      rw [List.filter_cons, if_neg (by simpa using hn), List.filter_append, List.filter_cons,
        if_neg (by simpa using hn)] at this
      rw [List.filter_append]; exact this

end GS
