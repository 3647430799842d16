import Verif.StructuralUndo
import Verif.Spec.Blocked
/-! # A scheduler with a rejected structural condition -/

set_option linter.unusedSectionVars false

namespace GS
open Spec
variable {α κ W : Type _} [DecidableEq α] [DecidableEq κ]

/-- Everything is handled after a call that does not remove. -/
theorem handled_of_call {s s' : Stack α κ W} {op : SchedOp α κ W} (hr : ¬ op.Removes)
    (hc : op.call s = (s', none)) : s'.handle = (s', none) := by
  cases op with
  | add n c =>
    simp only [SchedOp.call, Stack.addCondition] at hc
    split at hc
    · simp at hc
    · exact Stack.handle_twice hc
  | addSet d =>
    simp only [SchedOp.call, Stack.addConditionSet] at hc
    split at hc
    · simp at hc
    · exact Stack.handle_twice hc
  | remove c => exact absurd trivial hr
  | removeOf n => exact absurd trivial hr
  | graph =>
    simp only [SchedOp.call, Prod.mk.injEq] at hc
    obtain ⟨rfl, hx⟩ := hc
    exact Stack.handle_twice (readGraph_state s hx)
  | queue =>
    simp only [SchedOp.call, Prod.mk.injEq] at hc
    obtain ⟨rfl, hx⟩ := hc
    exact Stack.handle_twice (readQueue_state s hx)
  | indices =>
    simp only [SchedOp.call, Prod.mk.injEq] at hc
    obtain ⟨rfl, hx⟩ := hc
    exact Stack.handle_twice (readIndices_state s hx)

theorem Spec.Quiet.snoc {s t : Stack α κ W} {ops : List (SchedOp α κ W)} {op : SchedOp α κ W}
    (h : Quiet s (ops ++ [op]) t) : ∃ u, Quiet s ops u ∧ op.call u = (t, none) := by
  induction ops generalizing s with
  | nil =>
    cases h with
    | cons hc hq => cases hq; exact ⟨s, .nil s, hc⟩
  | cons o ops ih =>
    cases h with
    | cons hc hq =>
      obtain ⟨u, h1, h2⟩ := ih hq
      exact ⟨u, .cons hc h1, h2⟩

/-- All present conditions are applied, unless the last call was a removal. -/
theorem SInv.applied {base : Graph α} {mode : Mode} {all : List (α × SCond α)}
    {st : Store α κ} {ow : OId → Option α} {ops : List (SchedOp α κ W)} {s : Stack α κ W}
    (h1 : OneOwner all) (hsub : ∀ op ∈ ops, ∀ e ∈ op.adds, e ∈ all)
    (hq : Quiet (Stack.new mode base st ow) ops s)
    (hl : ∀ op, ops.getLast? = some op → ¬ op.Removes) :
    SInv base mode all (present ops) (present ops) s := by
  rcases List.eq_nil_or_concat ops with rfl | ⟨ops', op, rfl⟩
  · cases hq; exact SInv.new base mode st ow all
  · rw [List.concat_eq_append] at *
    obtain ⟨ls, h⟩ := (SInv.new base mode st ow all).quiet h1 hsub hq
    obtain ⟨u, _, hc⟩ := hq.snoc
    exact h.handle_none h1 (handled_of_call (hl op (by simp)) hc)

/-- Handling does nothing but raise while the first condition that is not applied yet
raises. -/
theorem SInv.stays {base : Graph α} {mode : Mode} {all L m : List (α × SCond α)} {n : α}
    {c : SCond α} {g : Graph α} {e : Err} {s : Stack α κ W}
    (h : SInv base mode all (L ++ (n, c) :: m) L s) (hg : composed base L = .ok g)
    (he : c.apply n g = .error e) : s.handle = (s, some e) := by
  have hio : s.cset.order.map (·.o) = L.map (·.2.o) ++ c.o :: m.map (·.2.o) := by
    rw [h.cset.order]; simp [Function.comp_def]
  have hord : s.cset.order = L.map Prod.snd ++ c :: m.map Prod.snd := by
    rw [h.cset.order]; simp
  have hne : s.last ≠ some (s.cset.order.map (·.o)) := by
    intro hx
    rw [hio] at hx
    rcases h.stack.last with hl | hl
    · rw [hl] at hx
      have := congrArg List.length (Option.some.inj hx)
      simp at this
    · rw [hl.1] at hx; simp at hx
  have hcp : ∀ (l m : List OId), commonPrefix l (l ++ m) = l.length := by
    intro l m
    induction l with
    | nil => cases m <;> rfl
    | cons a l ih => simp [commonPrefix, ih]
  have hk : commonWith s.last (s.cset.order.map (·.o)) = L.length := by
    rw [hio]
    rcases h.stack.last with hl | hl
    · rw [hl]; simp only [commonWith, hcp, List.length_map]
    · rw [hl.1, hl.2]; rfl
  have hp : numPops s.last L.length = 0 := by
    rcases h.stack.last with hl | hl
    · rw [hl]; simp [numPops]
    · rw [hl.1]; rfl
  obtain ⟨g', rest, eg, hc'⟩ := h.stack.tower.composed
  rw [hg] at hc'
  obtain rfl := Except.ok.inj hc'
  have hd : s.cset.order.drop L.length = c :: m.map Prod.snd := by
    rw [hord, List.drop_append_of_le_length (by simp), List.drop_of_length_le (by simp)]; rfl
  have hmod : s.modify c g = .error e := by
    have := h.cset.owners (n, c) (by simp)
    simp only [Stack.modify, this, he]
  unfold Stack.handle
  simp only
  rw [if_neg hne, hk, hp]
  simp only [Stack.popN, eg, hd, Stack.pushAll, hmod]

/-- Additions that are not rejected by the set itself are carried out. -/
theorem addAll_ok (n : α) (cs : List (AnyCond α κ W)) (s : CSet α κ W)
    (h : ∀ e ∈ structEntries (cs.map fun c => (n, c)), e.1 ∉ e.2.nodes) :
    ∃ s', s.addAll n cs = (s', none) := by
  induction cs generalizing s with
  | nil => exact ⟨s, rfl⟩
  | cons c cs ih =>
    cases c with
    | basic b => exact ih _ h
    | structural c =>
      have hn : n ∉ c.nodes := h (n, c) (.head _)
      simp only [CSet.addAll, CSet.add, CSet.addStructural, if_neg hn]
      exact ih _ fun e he => h e (.tail _ he)

theorem addSet_ok (d : Dict α (List (AnyCond α κ W))) (s : CSet α κ W)
    (h : ∀ e ∈ structEntries (listed d), e.1 ∉ e.2.nodes) :
    ∃ s', s.addSet d = (s', none) := by
  induction d generalizing s with
  | nil => exact ⟨s, rfl⟩
  | cons p d ih =>
    obtain ⟨n, cs⟩ := p
    have e : structEntries (listed ((n, cs) :: d)) =
        structEntries (cs.map fun c => (n, c)) ++ structEntries (listed d) := by
      rw [← structEntries_append]; rfl
    rw [e] at h
    obtain ⟨s1, h1⟩ := addAll_ok n cs s fun e he => h e (List.mem_append_left _ he)
    simp only [CSet.addSet, h1]
    exact ih s1 fun e he => h e (List.mem_append_right _ he)

theorem add_ok (n : α) (c : AnyCond α κ W) (s : CSet α κ W)
    (h : ∀ e ∈ structEntries [(n, c)], e.1 ∉ e.2.nodes) : ∃ s', s.add n c = (s', none) := by
  cases c with
  | basic b => exact ⟨_, rfl⟩
  | structural c =>
    have hn : n ∉ c.nodes := h (n, c) (.head _)
    simp only [CSet.add, CSet.addStructural, if_neg hn]
    exact ⟨_, rfl⟩

/-- A removal by object, also one that raises. -/
theorem CInv.remove_any {s : CSet α κ W} {es : List (α × SCond α)} (h : CInv s es)
    (c : AnyCond α κ W) :
    CInv (s.removeCond c).1 (SchedOp.effect es (.remove c : SchedOp α κ W)) := by
  cases ho : s.ownerOf c with
  | some n =>
    refine h.remove c ?_
    cases c with
    | basic b =>
      simp only [CSet.removeCond, ho]
      split
      · rfl
      · split <;> rfl
    | structural c =>
      simp only [CSet.removeCond, ho]
      split <;> rfl
  | none =>
    have e : (s.removeCond c).1 = s := by simp [CSet.removeCond, ho]
    rw [e]
    cases c with
    | basic b => simpa [SchedOp.effect, SchedOp.adds] using h
    | structural c =>
      simp only [SchedOp.effect]
      rw [eraseFirst_of_not_mem]
      · exact h
      · intro hm
        obtain ⟨f, hf, e2⟩ := List.mem_map.mp hm
        have := h.owners f hf
        rw [e2] at this
        exact absurd (this.symm.trans ho) (by simp)

theorem eraseFirst_append (o : OId) (l m : List (α × SCond α)) (h : o ∉ l.map (·.2.o)) :
    eraseFirst o (l ++ m) = l ++ eraseFirst o m := by
  induction l with
  | nil => rfl
  | cons a l ih =>
    simp only [List.map_cons, List.mem_cons, not_or] at h
    simp only [List.cons_append, eraseFirst]
    rw [if_neg (fun x => h.1 x.symm), ih h.2]

theorem effect_append (l m : List (α × SCond α)) (op : SchedOp α κ W)
    (h : op.Keeps (l.map (·.2.o))) : op.effect (l ++ m) = l ++ op.effect m := by
  cases op with
  | remove c =>
    cases c with
    | basic b => simp [SchedOp.effect, SchedOp.adds]
    | structural c => exact eraseFirst_append c.o l m h
  | removeOf n => exact absurd h (by simp [SchedOp.Keeps])
  | _ => simp [SchedOp.effect]

/-- While it is blocked, only the set of conditions changes. -/
theorem SInv.keeps {base : Graph α} {mode : Mode} {all L m : List (α × SCond α)} {n : α}
    {c : SCond α} {g : Graph α} {e : Err} {s : Stack α κ W} (h1 : OneOwner all)
    (h : SInv base mode all (L ++ (n, c) :: m) L s) (hg : composed base L = .ok g)
    (he : c.apply n g = .error e) {op : SchedOp α κ W} (hsub : ∀ e ∈ op.adds, e ∈ all)
    (hk : op.Keeps (c.o :: L.map (·.2.o))) :
    SInv base mode all (L ++ (n, c) :: op.effect m) L (op.call s).1 ∧
      (op.Adding → (op.call s).2 = some e) := by
  have heff : op.effect (L ++ (n, c) :: m) = L ++ (n, c) :: op.effect m := by
    have := effect_append (L ++ [(n, c)]) m op (by
      cases op with
      | remove x =>
        cases x with
        | basic b => exact hk
        | structural x =>
          simp only [SchedOp.Keeps, List.mem_cons, not_or] at hk
          simp only [SchedOp.Keeps, List.map_append, List.mem_append, List.map_cons, List.map_nil,
            List.mem_cons, List.not_mem_nil, or_false, not_or]
          exact ⟨hk.2, hk.1⟩
      | _ => exact hk)
    simpa using this
  have hin : ∀ f ∈ op.effect (L ++ (n, c) :: m), f ∈ all := by
    intro f hf
    cases op with
    | remove x =>
      cases x with
      | basic b => exact h.esAll f (by simpa [SchedOp.effect, SchedOp.adds] using hf)
      | structural x => exact h.esAll f (mem_eraseFirst hf)
    | _ =>
      simp only [SchedOp.effect] at hf
      rcases List.mem_append.mp hf with hf | hf
      · exact h.esAll f hf
      · exact hsub f hf
  have hset : ∀ cs : CSet α κ W, CInv cs (op.effect (L ++ (n, c) :: m)) →
      SInv base mode all (L ++ (n, c) :: op.effect m) L { s with cset := cs } := by
    intro cs hci
    rw [heff] at hci hin
    exact ⟨⟨h.stack.tower, h.stack.queues, h.stack.indices, h.stack.last⟩, hci, h.mode, hin,
      h.lsAll⟩
  have hst := h.stays hg he
  cases op with
  | add k x =>
    obtain ⟨cs, hcs⟩ := add_ok k x s.cset hk
    have hi := hset cs (h.cset.add (OneOwner.sub h1 hin) hcs)
    have hh := hi.stays hg he
    simp only [SchedOp.call, Stack.addCondition, hcs, hh]
    exact ⟨hi, fun _ => trivial⟩
  | addSet d =>
    obtain ⟨cs, hcs⟩ := addSet_ok d s.cset hk
    have hi := hset cs (CInv.addSet d h.cset (OneOwner.sub h1 hin) hcs)
    have hh := hi.stays hg he
    simp only [SchedOp.call, Stack.addConditionSet, hcs, hh]
    exact ⟨hi, fun _ => trivial⟩
  | remove x => exact ⟨hset _ (h.cset.remove_any x), fun h => absurd h (by simp [SchedOp.Adding])⟩
  | removeOf k => exact absurd hk (by simp [SchedOp.Keeps])
  | graph =>
    simp only [SchedOp.call, Stack.readGraph, hst]
    exact ⟨by simpa [SchedOp.effect, SchedOp.adds] using h,
      fun h => absurd h (by simp [SchedOp.Adding])⟩
  | queue =>
    simp only [SchedOp.call, Stack.readQueue, hst]
    exact ⟨by simpa [SchedOp.effect, SchedOp.adds] using h,
      fun h => absurd h (by simp [SchedOp.Adding])⟩
  | indices =>
    simp only [SchedOp.call, Stack.readIndices, hst]
    exact ⟨by simpa [SchedOp.effect, SchedOp.adds] using h,
      fun h => absurd h (by simp [SchedOp.Adding])⟩

/-- Several such calls. -/
theorem SInv.performed {base : Graph α} {mode : Mode} {all L : List (α × SCond α)} {n : α}
    {c : SCond α} {g : Graph α} {e : Err} (h1 : OneOwner all)
    (hg : composed base L = .ok g) (he : c.apply n g = .error e) (ops : List (SchedOp α κ W)) :
    ∀ {s : Stack α κ W} {m : List (α × SCond α)}, SInv base mode all (L ++ (n, c) :: m) L s →
      (∀ op ∈ ops, ∀ e ∈ op.adds, e ∈ all) → (∀ op ∈ ops, op.Keeps (c.o :: L.map (·.2.o))) →
      SInv base mode all (L ++ (n, c) :: ops.foldl SchedOp.effect m) L (performed s ops) := by
  induction ops with
  | nil => intro s m h _ _; exact h
  | cons op ops ih =>
    intro s m h hsub hk
    exact ih (h.keeps h1 hg he (hsub op (.head _)) (hk op (.head _))).1
      (fun o ho => hsub o (.tail _ ho)) (fun o ho => hk o (.tail _ ho))

theorem foldl_effect_append (ops : List (SchedOp α κ W)) (l : List (α × SCond α)) :
    ∀ m, (∀ op ∈ ops, op.Keeps (l.map (·.2.o))) →
      ops.foldl SchedOp.effect (l ++ m) = l ++ ops.foldl SchedOp.effect m := by
  induction ops with
  | nil => intro m _; rfl
  | cons op ops ih =>
    intro m hk
    simp only [List.foldl_cons]
    rw [effect_append l m op (hk op (.head _))]
    exact ih _ fun o ho => hk o (.tail _ ho)

theorem Spec.SchedOp.Keeps.mono {objs objs' : List OId} {op : SchedOp α κ W}
    (h : op.Keeps objs) (hs : ∀ o ∈ objs', o ∈ objs) : op.Keeps objs' := by
  cases op with
  | remove c =>
    cases c with
    | basic b => exact h
    | structural c => exact fun hx => h (hs _ hx)
  | _ => exact h

end GS
