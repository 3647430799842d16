import Verif.Spec.Structural
import Verif.CondSetLemmas
/-! # The graph stack is an ordered composition -/

set_option linter.unusedSectionVars false

namespace GS
open Spec
variable {α κ W : Type _} [DecidableEq α] [DecidableEq κ]

theorem composed_append (g : Graph α) (es fs : List (α × SCond α)) :
    composed g (es ++ fs) =
      match composed g es with
      | .ok g' => composed g' fs
      | .error e => .error e := by
  induction es generalizing g with
  | nil => rfl
  | cons e es ih =>
    obtain ⟨n, c⟩ := e
    simp only [List.cons_append, composed]
    cases h : c.apply n g with
    | error e => rfl
    | ok g' => exact ih g'

theorem commonPrefix_le (l m : List OId) :
    commonPrefix l m ≤ l.length ∧ commonPrefix l m ≤ m.length := by
  induction l generalizing m with
  | nil => simp [commonPrefix]
  | cons a l ih =>
    cases m with
    | nil => simp [commonPrefix]
    | cons b m =>
      simp only [commonPrefix]
      split
      · have := ih m; simp; omega
      · simp

theorem commonPrefix_take (l m : List OId) :
    l.take (commonPrefix l m) = m.take (commonPrefix l m) := by
  induction l generalizing m with
  | nil => simp [commonPrefix]
  | cons a l ih =>
    cases m with
    | nil => simp [commonPrefix]
    | cons b m =>
      simp only [commonPrefix]
      split
      · next h => subst h; simp [ih m]
      · simp

theorem commonPrefix_self (l : List OId) : commonPrefix l l = l.length := by
  induction l with
  | nil => rfl
  | cons a l ih => simp [commonPrefix, ih]

theorem commonPrefix_append_left (l m : List OId) : commonPrefix (l ++ m) l = l.length := by
  induction l with
  | nil => cases m <;> rfl
  | cons a l ih => simp [commonPrefix, ih]

/-- Extending the second list by one element extends the common prefix only if everything
before it was common. -/
theorem commonPrefix_snoc (l m : List OId) (o : OId) :
    commonPrefix l (m ++ [o]) = commonPrefix l m ∨
      (commonPrefix l m = m.length ∧ commonPrefix l (m ++ [o]) = m.length + 1) := by
  induction m generalizing l with
  | nil =>
    cases l with
    | nil => left; rfl
    | cons a l =>
      simp only [List.nil_append, commonPrefix]
      split
      · right; cases l <;> simp [commonPrefix]
      · left; rfl
  | cons b m ih =>
    cases l with
    | nil => left; rfl
    | cons a l =>
      simp only [List.cons_append, commonPrefix]
      split
      · rcases ih l with h | h
        · left; rw [h]
        · right; simp [h.1, h.2]
      · left; rfl

/-- The graphs of a stack, last first: the base graph and the results of applying
conditions one after the other. -/
inductive Tower (base : Graph α) : List (α × SCond α) → List (Graph α) → Prop where
  | base : Tower base [] [base]
  | push {ls : List (α × SCond α)} {g g' : Graph α} {gs : List (Graph α)} {n : α} {c : SCond α} :
      Tower base ls (g :: gs) → c.apply n g = .ok g' → Tower base (ls ++ [(n, c)]) (g' :: g :: gs)

theorem Tower.composed {base : Graph α} {ls : List (α × SCond α)} {gs : List (Graph α)}
    (h : Tower base ls gs) : ∃ g rest, gs = g :: rest ∧ Spec.composed base ls = .ok g := by
  induction h with
  | base => exact ⟨_, _, rfl, rfl⟩
  | push _ ha ih =>
    obtain ⟨g, rest, e, hc⟩ := ih
    simp only [List.cons.injEq] at e
    obtain ⟨rfl, rfl⟩ := e
    refine ⟨_, _, rfl, ?_⟩
    rw [composed_append, hc]
    simp [Spec.composed, ha]

theorem Tower.pop {base : Graph α} {ls : List (α × SCond α)} {gs : List (Graph α)}
    (h : Tower base ls gs) (j : Nat) (hj : j ≤ ls.length) :
    Tower base (ls.take (ls.length - j)) (gs.drop j) := by
  induction h generalizing j with
  | base =>
    simp at hj; subst hj; exact .base
  | @push ls g g' gs n c ht ha ih =>
    cases j with
    | zero =>
      rw [Nat.sub_zero, List.take_length]; exact Tower.push ht ha
    | succ j =>
      simp only [List.length_append, List.length_singleton] at hj
      have := ih j (by omega)
      have e : (ls ++ [(n, c)]).length - (j + 1) = ls.length - j := by simp
      rw [e, List.take_append_of_le_length (by omega)]
      simpa using this

/-- The stack of a scheduler over `base`; `ls` are the conditions it has applied, with
the owners they had then. -/
structure StackInv (base : Graph α) (ls : List (α × SCond α)) (s : Stack α κ W) : Prop where
  tower : Tower base ls s.graphs
  queues : s.queues = s.graphs.map queueOf
  indices : s.indices = s.graphs.map fun g => queueIndices (queueOf g)
  last : s.last = some (ls.map (·.2.o)) ∨ (s.last = none ∧ ls = [])

namespace Stack

theorem popN_ok (j : Nat) (s : Stack α κ W) (h : j ≤ s.graphs.length) :
    popN j s = ({ s with
      graphs := s.graphs.drop j, queues := s.queues.drop j, indices := s.indices.drop j }, none) := by
  induction j generalizing s with
  | zero => simp [popN]
  | succ j ih =>
    unfold popN
    cases hg : s.graphs with
    | nil => rw [hg] at h; simp at h
    | cons g gs =>
      rw [hg] at h
      simp only
      rw [ih _ (by simpa using h)]
      simp [← List.drop_one, Nat.add_comm]

/-- `pushAll` computes the composition, step by step. -/
theorem pushAll_spec {base : Graph α} (es : List (α × SCond α)) :
    ∀ (s : Stack α κ W) (ls : List (α × SCond α)) (g : Graph α) (gs : List (Graph α)),
      Tower base ls s.graphs → s.graphs = g :: gs → s.queues = s.graphs.map queueOf →
      (s.indices = s.graphs.map fun g => GS.queueIndices (queueOf g)) →
      (∀ e ∈ es, s.cset.owners e.2.o = some e.1) →
      match composed base (ls ++ es) with
      | .ok g' => ∃ s', s.pushAll g (es.map Prod.snd) = (s', none) ∧ Tower base (ls ++ es) s'.graphs ∧
          s'.queues = s'.graphs.map queueOf ∧
          (s'.indices = s'.graphs.map fun g => GS.queueIndices (queueOf g)) ∧
          s'.graphs.head? = some g' ∧ s'.cset = s.cset ∧ s'.mode = s.mode
      | .error e => ∃ s', s.pushAll g (es.map Prod.snd) = (s', some e) ∧ s'.cset = s.cset ∧
          s'.mode = s.mode := by
  induction es with
  | nil =>
    intro s ls g gs ht hg hq hi ho
    obtain ⟨g1, rest, e1, hc⟩ := ht.composed
    simp only [List.append_nil, hc]
    exact ⟨s, rfl, ht, hq, hi, by rw [e1]; rfl, rfl, rfl⟩
  | cons e es ih =>
    intro s ls g gs ht hg hq hi ho
    obtain ⟨n, c⟩ := e
    obtain ⟨g1, rest, e1, hc⟩ := ht.composed
    rw [hg] at e1
    simp only [List.cons.injEq] at e1
    obtain ⟨rfl, rfl⟩ := e1
    have hm : s.modify c g = c.apply n g := by
      have := ho (n, c) (.head _)
      simp only [modify, this]
    simp only [List.map_cons, pushAll, hm]
    cases ha : c.apply n g with
    | error e =>
      have : composed base (ls ++ (n, c) :: es) = .error e := by
        rw [composed_append, hc]; simp [composed, ha]
      rw [this]
      exact ⟨s, rfl, rfl, rfl⟩
    | ok g' =>
      have ht' : Tower base (ls ++ [(n, c)]) (s.push g').graphs := by
        rw [hg] at ht
        simp only [push, hg]; exact .push ht ha
      have := ih (s.push g') (ls ++ [(n, c)]) g' s.graphs ht' rfl
        (by simp [push, hq]) (by simp [push, hi])
        (fun e he => ho e (.tail _ he))
      rw [List.append_assoc] at this
      simp only [List.singleton_append] at this
      exact this

/-- `_handle_modified_structural_conditions` keeps what is common with the applied
conditions and composes the rest. -/
theorem handle_spec {base : Graph α} {ls es : List (α × SCond α)} {s : Stack α κ W}
    (h : StackInv base ls s) (ho : s.cset.order = es.map Prod.snd)
    (hw : ∀ e ∈ es, s.cset.owners e.2.o = some e.1) :
    let k := commonPrefix (ls.map (·.2.o)) (es.map (·.2.o))
    match composed base (ls.take k ++ es.drop k) with
    | .ok g => ∃ s', s.handle = (s', none) ∧ StackInv base (ls.take k ++ es.drop k) s' ∧
        s'.graphs.head? = some g ∧ s'.cset = s.cset ∧ s'.mode = s.mode
    | .error e => ∃ s', s.handle = (s', some e) ∧ s'.cset = s.cset ∧ s'.mode = s.mode := by
  intro k
  have hio : s.cset.order.map (·.o) = es.map (·.2.o) := by rw [ho]; simp
  have hk := commonPrefix_le (ls.map (·.2.o)) (es.map (·.2.o))
  simp only [List.length_map] at hk
  have hlen : ls.length + 1 = s.graphs.length := by
    have : ∀ {ls : List (α × SCond α)} {gs}, Tower base ls gs → ls.length + 1 = gs.length := by
      intro ls gs h
      induction h with
      | base => rfl
      | push _ _ ih => simp at ih ⊢; omega
    exact this h.tower
  by_cases heq : s.last = some (s.cset.order.map (·.o))
  · -- nothing to do
    have hl : ls.map (·.2.o) = es.map (·.2.o) := by
      rcases h.last with hl | hl
      · rw [hl, hio] at heq; simpa using heq
      · rw [hl.1] at heq; simp at heq
    have hk' : k = es.length := by
      show commonPrefix _ _ = _
      rw [hl, commonPrefix_self]; simp
    have hll : ls.length = es.length := by simpa using congrArg List.length hl
    have e1 : ls.take k ++ es.drop k = ls := by
      rw [hk', ← hll, List.take_length, List.drop_of_length_le (by omega), List.append_nil]
    obtain ⟨g, rest, eg, hc⟩ := h.tower.composed
    rw [e1, hc]
    exact ⟨s, by simp only [handle, if_pos heq], h, by rw [eg]; rfl, rfl, rfl⟩
  · -- the numbers of the code
    have hkk : commonWith s.last (s.cset.order.map (·.o)) = k := by
      rcases h.last with hl | hl
      · rw [hl, hio]; rfl
      · rw [hl.1]; show 0 = commonPrefix _ _; rw [hl.2]; simp [commonPrefix]
    have hpp : numPops s.last k = ls.length - k := by
      rcases h.last with hl | hl
      · rw [hl]; simp [numPops]
      · rw [hl.1, hl.2]; simp [numPops]
    have hpop := popN_ok (ls.length - k) s (by omega)
    have ht := h.tower.pop (ls.length - k) (by omega)
    have ek : ls.length - (ls.length - k) = k := by have := hk.1; omega
    rw [ek] at ht
    obtain ⟨g0, rest, eg, hc⟩ := ht.composed
    have hps := pushAll_spec (base := base) (es.drop k)
      { s with graphs := s.graphs.drop (ls.length - k), queues := s.queues.drop (ls.length - k),
               indices := s.indices.drop (ls.length - k) }
      (ls.take k) g0 rest ht eg (by simp [h.queues]) (by simp [h.indices])
      (fun e he => hw e (List.mem_of_mem_drop he))
    have ed : s.cset.order.drop k = (es.drop k).map Prod.snd := by rw [ho, List.map_drop]
    have hh1 : ∀ s2 e, Stack.pushAll { s with
        graphs := s.graphs.drop (ls.length - k), queues := s.queues.drop (ls.length - k),
        indices := s.indices.drop (ls.length - k) } g0 ((es.drop k).map Prod.snd) = (s2, some e) →
        s.handle = (s2, some e) := by
      intro s2 e hp
      rw [eg] at hp
      unfold handle
      simp only
      rw [if_neg heq, hkk, hpp, hpop]
      simp only
      rw [eg]
      simp only
      rw [ed, hp]
    have hh2 : ∀ s2, Stack.pushAll { s with
        graphs := s.graphs.drop (ls.length - k), queues := s.queues.drop (ls.length - k),
        indices := s.indices.drop (ls.length - k) } g0 ((es.drop k).map Prod.snd) = (s2, none) →
        s.handle = ({ s2 with last := some (s.cset.order.map (·.o)) }, none) := by
      intro s2 hp
      rw [eg] at hp
      unfold handle
      simp only
      rw [if_neg heq, hkk, hpp, hpop]
      simp only
      rw [eg]
      simp only
      rw [ed, hp]
    cases hcc : composed base (ls.take k ++ es.drop k) with
    | error e =>
      rw [hcc] at hps
      simp only at hps
      obtain ⟨s', e1, e2, e3⟩ := hps
      exact ⟨_, hh1 _ _ e1, e2, e3⟩
    | ok g =>
      rw [hcc] at hps
      simp only at hps
      obtain ⟨s', e1, e2, e3, e4, e5, e6, e7⟩ := hps
      refine ⟨_, hh2 _ e1, ⟨e2, e3, e4, .inl ?_⟩, e5, e6, e7⟩
      have htk := commonPrefix_take (ls.map (·.2.o)) (es.map (·.2.o))
      simp only
      rw [hio, List.map_append, List.map_take, List.map_drop]
      show some _ = some ((ls.map (·.2.o)).take k ++ _)
      rw [show (ls.map (·.2.o)).take k = (es.map (·.2.o)).take k from htk, List.take_append_drop]

end Stack

/-! ## The structural part of a condition set -/

/-- The structural conditions of a condition set, with their owners, in order. -/
structure CInv (s : CSet α κ W) (es : List (α × SCond α)) : Prop where
  order : s.order = es.map Prod.snd
  structural : ∀ n, Dict.get? s.structural n =
    if es.filter (fun e => e.1 = n) = [] then none
    else some ((es.filter (fun e => e.1 = n)).map Prod.snd)
  wf : Dict.WF s.structural
  owners : ∀ e ∈ es, s.owners e.2.o = some e.1

theorem CInv.congr {s t : CSet α κ W} {es : List (α × SCond α)} (h : CInv s es)
    (h1 : t.order = s.order) (h2 : t.structural = s.structural) (h3 : t.owners = s.owners) :
    CInv t es :=
  ⟨by rw [h1]; exact h.order, by rw [h2]; exact h.structural, by rw [h2]; exact h.wf,
    by rw [h3]; exact h.owners⟩

theorem CInv.add {s s' : CSet α κ W} {es : List (α × SCond α)} {n : α} {c : AnyCond α κ W}
    (h : CInv s es) (ho : OneOwner (es ++ structEntries [(n, c)])) (ha : s.add n c = (s', none)) :
    CInv s' (es ++ structEntries [(n, c)]) := by
  cases c with
  | basic c =>
    simp only [CSet.add, CSet.addBasic, Prod.mk.injEq, and_true] at ha
    subst ha
    simp only [structEntries, List.append_nil]
    exact h.congr rfl rfl rfl
  | structural c =>
    simp only [CSet.add, CSet.addStructural] at ha
    split at ha
    · simp at ha
    · simp only [Prod.mk.injEq, and_true] at ha
      subst ha
      simp only [structEntries] at ho ⊢
      refine ⟨by simp [h.order], ?_, h.wf.set _ _, ?_⟩
      · intro m
        simp only [Dict.get?_set]
        by_cases hm : n = m
        · subst hm
          rw [if_pos rfl, CSet.structsFor, h.structural n]
          by_cases he : es.filter (fun e => e.1 = n) = []
          · rw [if_pos he]
            simp [List.filter_append, he]
          · rw [if_neg he]
            simp only [List.filter_append, List.filter_cons, decide_true, if_true, List.filter_nil,
              List.map_append, List.map_cons, List.map_nil]
            rw [if_neg (by simp)]
        · have e : (es ++ [(n, c)]).filter (fun e => e.1 = m) = es.filter (fun e => e.1 = m) := by
            simp [List.filter_append, hm]
          rw [if_neg hm, h.structural m, e]
      · intro e he
        simp only
        split
        · next hc =>
          have := ho e he (n, c) (by simp) hc
          rw [this]
        · next hc =>
          rcases List.mem_append.mp he with he | he
          · exact h.owners e he
          · simp at he; subst he; exact absurd rfl hc

theorem structEntries_append (es fs : Entries α κ W) :
    structEntries (es ++ fs) = structEntries es ++ structEntries fs := by
  induction es with
  | nil => rfl
  | cons e es ih => obtain ⟨n, c | c⟩ := e <;> simp [structEntries, ih]

theorem OneOwner.sub {l m : List (α × SCond α)} (h : OneOwner l) (hs : ∀ e ∈ m, e ∈ l) :
    OneOwner m := fun e he f hf => h e (hs e he) f (hs f hf)

theorem CInv.addAll (n : α) (cs : List (AnyCond α κ W)) :
    ∀ {s s' : CSet α κ W} {es : List (α × SCond α)}, CInv s es →
      OneOwner (es ++ structEntries (cs.map fun c => (n, c))) → s.addAll n cs = (s', none) →
      CInv s' (es ++ structEntries (cs.map fun c => (n, c))) := by
  induction cs with
  | nil =>
    intro s s' es h _ ha
    simp only [CSet.addAll, Prod.mk.injEq, and_true] at ha
    subst ha; simpa [structEntries] using h
  | cons c cs ih =>
    intro s s' es h ho ha
    have e : structEntries ((c :: cs).map fun c => (n, c)) =
        structEntries [(n, c)] ++ structEntries (cs.map fun c => (n, c)) := by
      rw [← structEntries_append]; rfl
    rw [e, ← List.append_assoc] at ho ⊢
    unfold CSet.addAll at ha
    split at ha
    · simp at ha
    · next s1 h1 =>
      exact ih (h.add (OneOwner.sub ho fun e he => List.mem_append_left _ he) h1) ho ha

theorem CInv.addSet (d : Dict α (List (AnyCond α κ W))) :
    ∀ {s s' : CSet α κ W} {es : List (α × SCond α)}, CInv s es →
      OneOwner (es ++ structEntries (listed d)) → s.addSet d = (s', none) →
      CInv s' (es ++ structEntries (listed d)) := by
  induction d with
  | nil =>
    intro s s' es h _ ha
    simp only [CSet.addSet, Prod.mk.injEq, and_true] at ha
    subst ha; simpa [listed, structEntries] using h
  | cons p d ih =>
    obtain ⟨n, cs⟩ := p
    intro s s' es h ho ha
    have e : structEntries (listed ((n, cs) :: d)) =
        structEntries (cs.map fun c => (n, c)) ++ structEntries (listed d) := by
      rw [← structEntries_append]; rfl
    rw [e, ← List.append_assoc] at ho ⊢
    unfold CSet.addSet at ha
    split at ha
    · simp at ha
    · next s1 h1 =>
      exact ih (CInv.addAll n cs h (OneOwner.sub ho fun e he => List.mem_append_left _ he) h1)
        ho ha

theorem removeObj_snd (o : OId) (es : List (α × SCond α)) :
    removeObj o (es.map Prod.snd) =
      if o ∈ es.map (·.2.o) then some ((eraseFirst o es).map Prod.snd) else none := by
  induction es with
  | nil => simp [removeObj]
  | cons e es ih =>
    simp only [List.map_cons, removeObj, eraseFirst]
    by_cases h : e.2.o = o
    · simp [h]
    · have h' : ¬ o = e.2.o := fun x => h x.symm
      rw [if_neg h, ih, if_neg h]
      by_cases hm : o ∈ es.map (·.2.o)
      · rw [if_pos hm, if_pos (by simp [hm])]; simp
      · rw [if_neg hm, if_neg (by simp only [List.mem_cons, not_or]; exact ⟨h', hm⟩)]; rfl

theorem eraseFirst_filter (o : OId) (n : α) (es : List (α × SCond α))
    (h : ∀ e ∈ es, e.2.o = o → e.1 = n) :
    (eraseFirst o es).filter (fun e => e.1 = n) =
      eraseFirst o (es.filter (fun e => e.1 = n)) := by
  induction es with
  | nil => rfl
  | cons e es ih =>
    have ih := ih fun e he => h e (.tail _ he)
    simp only [eraseFirst, List.filter_cons]
    by_cases ho : e.2.o = o
    · have := h e (.head _) ho
      simp [ho, this, eraseFirst]
    · by_cases hn : e.1 = n
      · simp [ho, hn, eraseFirst, ih]
      · simp [ho, hn, ih]

theorem eraseFirst_filter_ne (o : OId) (n : α) (es : List (α × SCond α))
    (h : ∀ e ∈ es, e.2.o = o → e.1 ≠ n) :
    (eraseFirst o es).filter (fun e => e.1 = n) = es.filter (fun e => e.1 = n) := by
  induction es with
  | nil => rfl
  | cons e es ih =>
    have ih := ih fun e he => h e (.tail _ he)
    simp only [eraseFirst]
    by_cases ho : e.2.o = o
    · have := h e (.head _) ho
      simp [ho, this]
    · simp only [ho, if_false, List.filter_cons, ih]

theorem eraseFirst_of_not_mem (o : OId) (es : List (α × SCond α)) (h : o ∉ es.map (·.2.o)) :
    eraseFirst o es = es := by
  induction es with
  | nil => rfl
  | cons e es ih =>
    simp only [List.map_cons, List.mem_cons, not_or] at h
    simp only [eraseFirst]
    rw [if_neg (fun x => h.1 x.symm), ih h.2]

theorem mem_eraseFirst {o : OId} {es : List (α × SCond α)} {e : α × SCond α}
    (h : e ∈ eraseFirst o es) : e ∈ es := by
  induction es with
  | nil => exact h
  | cons f es ih =>
    simp only [eraseFirst] at h
    split at h
    · exact .tail _ h
    · rcases List.mem_cons.mp h with h | h
      · exact h ▸ .head _
      · exact .tail _ (ih h)

theorem CInv.removeStructural {s : CSet α κ W} {es : List (α × SCond α)} (h : CInv s es)
    {n : α} {o : OId} (ho : s.owners o = some n) :
    CInv (s.removeStructural n o).1 (eraseFirst o es) := by
  have hown : ∀ e ∈ es, e.2.o = o → e.1 = n := by
    intro e he heo
    have := h.owners e he
    rw [heo, ho] at this
    simpa using this.symm
  unfold CSet.removeStructural
  rw [h.structural n]
  by_cases he : es.filter (fun e => e.1 = n) = []
  · rw [if_pos he]
    have hnm : o ∉ es.map (·.2.o) := by
      intro hm
      obtain ⟨e, hes, heo⟩ := List.mem_map.mp hm
      have : e ∈ es.filter (fun e => e.1 = n) :=
        List.mem_filter.mpr ⟨hes, by simpa using hown e hes heo⟩
      rw [he] at this; simp at this
    rw [eraseFirst_of_not_mem _ _ hnm]
    exact h
  · rw [if_neg he]
    simp only
    rw [removeObj_snd, h.order, removeObj_snd]
    by_cases hm : o ∈ es.map (·.2.o)
    · have hm' : o ∈ (es.filter (fun e => e.1 = n)).map (·.2.o) := by
        obtain ⟨e, hes, heo⟩ := List.mem_map.mp hm
        exact List.mem_map.mpr
          ⟨e, List.mem_filter.mpr ⟨hes, by simpa using hown e hes heo⟩, heo⟩
      rw [if_pos hm, if_pos hm']
      simp only
      refine ⟨rfl, ?_, ?_, fun e he => h.owners e (mem_eraseFirst he)⟩
      · intro m
        by_cases hmn : n = m
        · subst hmn
          rw [eraseFirst_filter o n es hown]
          simp only
          split
          · next hx =>
            rw [Dict.get?_erase h.wf, if_pos rfl, if_pos (by simpa using hx)]
          · next hx =>
            rw [Dict.get?_set, if_pos rfl, if_neg (by simpa using hx)]
        · rw [eraseFirst_filter_ne o m es (fun e he ho' e' => hmn ((hown e he ho').symm.trans e'))]
          simp only
          split
          · rw [Dict.get?_erase h.wf, if_neg hmn]; exact h.structural m
          · rw [Dict.get?_set, if_neg hmn]; exact h.structural m
      · simp only
        split
        · exact h.wf.erase _
        · exact h.wf.set _ _
    · have hm' : o ∉ (es.filter (fun e => e.1 = n)).map (·.2.o) := by
        intro hx
        obtain ⟨e, hes, heo⟩ := List.mem_map.mp hx
        exact hm (List.mem_map.mpr ⟨e, (List.mem_filter.mp hes).1, heo⟩)
      rw [if_neg hm, if_neg hm', eraseFirst_of_not_mem _ _ hm]
      exact h

theorem CInv.remove {s : CSet α κ W} {es : List (α × SCond α)} (h : CInv s es)
    (c : AnyCond α κ W) (hr : raised (s.removeCond c).2 = none) :
    CInv (s.removeCond c).1 (SchedOp.effect es (.remove c : SchedOp α κ W)) := by
  cases c with
  | basic b =>
    simp only [SchedOp.effect, SchedOp.adds, List.append_nil]
    unfold CSet.removeCond
    split
    · exact h
    · simp only
      split
      · exact h
      · split
        · exact h.congr rfl rfl rfl
        · exact h
  | structural c =>
    simp only [SchedOp.effect]
    cases ho : s.ownerOf (.structural c) with
    | none => simp [CSet.removeCond, ho, raised] at hr
    | some n =>
      have := h.removeStructural (n := n) (o := c.o) ho
      simp only [CSet.removeCond, ho]
      split
      · next s' heq => rw [heq] at this; exact this.congr rfl rfl rfl
      · next s' heq => rw [heq] at this; exact this

theorem CInv.removeOf {s : CSet α κ W} {es : List (α × SCond α)} (h : CInv s es)
    (n : α) (hr : raised (s.removeOwner n).2 = none) : CInv (s.removeOwner n).1 es := by
  unfold CSet.removeOwner at hr ⊢
  split
  · simp_all [raised]
  · exact h.congr rfl rfl rfl
  · simp_all [raised]
  · simp_all [raised]
  · exact h
  · exact h

/-! ## Sequences of operations -/

/-- A scheduler state with `es` as structural conditions and `ls` applied, all of them from
`all`. -/
structure SInv (base : Graph α) (mode : Mode) (all es ls : List (α × SCond α))
    (s : Stack α κ W) : Prop where
  stack : StackInv base ls s
  cset : CInv s.cset es
  mode : s.mode = mode
  esAll : ∀ e ∈ es, e ∈ all
  lsAll : ∀ e ∈ ls, e ∈ all

/-- What is common with the applied conditions is the same, also the owners. -/
theorem take_common {all es ls : List (α × SCond α)} (h1 : OneOwner all)
    (he : ∀ e ∈ es, e ∈ all) (hl : ∀ e ∈ ls, e ∈ all) :
    ls.take (commonPrefix (ls.map (·.2.o)) (es.map (·.2.o))) ++
      es.drop (commonPrefix (ls.map (·.2.o)) (es.map (·.2.o))) = es := by
  have key : ∀ (ls es : List (α × SCond α)), (∀ e ∈ es, e ∈ all) → (∀ e ∈ ls, e ∈ all) →
      ls.take (commonPrefix (ls.map (·.2.o)) (es.map (·.2.o))) =
        es.take (commonPrefix (ls.map (·.2.o)) (es.map (·.2.o))) := by
    intro ls
    induction ls with
    | nil => intro es _ _; simp [commonPrefix]
    | cons a ls ih =>
      intro es he hl
      cases es with
      | nil => simp [commonPrefix]
      | cons b es =>
        simp only [List.map_cons, commonPrefix]
        split
        · next h =>
          have := h1 a (hl a (.head _)) b (he b (.head _)) h
          subst this
          simp [ih es (fun e h => he e (.tail _ h)) (fun e h => hl e (.tail _ h))]
        · simp
  rw [key ls es he hl, List.take_append_drop]

/-- Handling brings the stack up to date, or raises what the composition raises. -/
theorem SInv.handle {base : Graph α} {mode : Mode} {all es ls : List (α × SCond α)}
    {s : Stack α κ W} (h1 : OneOwner all) (h : SInv base mode all es ls s) :
    match composed base es with
    | .ok g => ∃ s', s.handle = (s', none) ∧ SInv base mode all es es s' ∧
        s'.graphs.head? = some g
    | .error e => ∃ s', s.handle = (s', some e) := by
  have hs := Stack.handle_spec (es := es) h.stack h.cset.order h.cset.owners
  simp only at hs
  rw [take_common h1 h.esAll h.lsAll] at hs
  cases hc : composed base es with
  | error e =>
    rw [hc] at hs
    obtain ⟨s', e1, _⟩ := hs
    exact ⟨s', e1⟩
  | ok g =>
    rw [hc] at hs
    obtain ⟨s', e1, e2, e3, e4, e5⟩ := hs
    exact ⟨s', e1, ⟨e2, e4 ▸ h.cset, e5.trans h.mode, h.esAll, h.esAll⟩, e3⟩

theorem SInv.handle_none {base : Graph α} {mode : Mode} {all es ls : List (α × SCond α)}
    {s s' : Stack α κ W} (h1 : OneOwner all) (h : SInv base mode all es ls s)
    (hh : s.handle = (s', none)) : SInv base mode all es es s' := by
  have := h.handle h1
  cases hc : composed base es with
  | error e =>
    rw [hc] at this; obtain ⟨t, e1⟩ := this
    rw [hh] at e1; simp at e1
  | ok g =>
    rw [hc] at this; obtain ⟨t, e1, e2, _⟩ := this
    rw [hh] at e1; simp only [Prod.mk.injEq, and_true] at e1
    rw [e1]; exact e2

/-- Handling twice is handling once. -/
theorem SInv.handle_again {base : Graph α} {mode : Mode} {all es : List (α × SCond α)}
    {s : Stack α κ W} (h : SInv base mode all es es s) (hl : es ≠ [] ∨ s.last ≠ none) :
    s.handle = (s, none) := by
  have hlast : s.last = some (s.cset.order.map (·.o)) := by
    rw [h.cset.order]
    rcases h.stack.last with e | e
    · rw [e]; simp
    · rcases hl with hl | hl
      · exact absurd e.2 hl
      · exact absurd e.1 hl
  simp only [Stack.handle, if_pos hlast]

theorem readGraph_spec {base : Graph α} {mode : Mode} {all es ls : List (α × SCond α)}
    {s : Stack α κ W} (h1 : OneOwner all) (h : SInv base mode all es ls s) :
    s.readGraph.2 = composed base es ∧
      (raised s.readGraph.2 = none → SInv base mode all es es s.readGraph.1) := by
  have := h.handle h1
  cases hc : composed base es with
  | error e =>
    rw [hc] at this; obtain ⟨t, e1⟩ := this
    simp only [Stack.readGraph, e1]
    exact ⟨trivial, fun h => by simp [raised] at h⟩
  | ok g =>
    rw [hc] at this; obtain ⟨t, e1, e2, e3⟩ := this
    simp only [Stack.readGraph, e1, e3, orIndexError]
    exact ⟨trivial, fun _ => e2⟩

/-- The value computed from the composed graph. -/
def onGraph {β : Type _} (f : Graph α → β) : Except Err (Graph α) → Except Err β
  | .ok g => .ok (f g)
  | .error e => .error e

theorem readIndices_spec {base : Graph α} {mode : Mode} {all es ls : List (α × SCond α)}
    {s : Stack α κ W} (h1 : OneOwner all) (h : SInv base mode all es ls s) :
    s.readIndices.2 = onGraph (fun g => queueIndices (queueOf g)) (composed base es) ∧
      (raised s.readIndices.2 = none → SInv base mode all es es s.readIndices.1) := by
  have := h.handle h1
  cases hc : composed base es with
  | error e =>
    rw [hc] at this; obtain ⟨t, e1⟩ := this
    simp only [Stack.readIndices, e1, onGraph]
    exact ⟨trivial, fun h => by simp [raised] at h⟩
  | ok g =>
    rw [hc] at this; obtain ⟨t, e1, e2, e3⟩ := this
    simp only [Stack.readIndices, e1, e2.stack.indices, List.head?_map, e3, Option.map_some,
      orIndexError, onGraph]
    exact ⟨trivial, fun _ => e2⟩

theorem readQueue_spec {base : Graph α} {mode : Mode} {all es ls : List (α × SCond α)}
    {s : Stack α κ W} (h1 : OneOwner all) (h : SInv base mode all es ls s) :
    s.readQueue.2 = onGraph (queueFor mode) (composed base es) ∧
      (raised s.readQueue.2 = none → SInv base mode all es es s.readQueue.1) := by
  have := h.handle h1
  cases hc : composed base es with
  | error e =>
    rw [hc] at this; obtain ⟨t, e1⟩ := this
    simp only [Stack.readQueue, e1, onGraph]
    exact ⟨trivial, fun h => by simp [raised] at h⟩
  | ok g =>
    rw [hc] at this; obtain ⟨t, e1, e2, e3⟩ := this
    have hg := readGraph_spec h1 e2
    rw [hc] at hg
    simp only [Stack.readQueue, e1, e2.mode]
    cases mode with
    | standard =>
      simp only [e2.stack.queues, List.head?_map, e3, Option.map_some, orIndexError, onGraph,
        queueFor]
      exact ⟨trivial, fun _ => e2⟩
    | exactTime =>
      simp only
      generalize ht : t.readGraph = r at hg
      obtain ⟨t', x⟩ := r
      simp only at hg
      rw [hg.1]
      exact ⟨rfl, fun _ => hg.2 (by rw [hg.1]; rfl)⟩

/-- One operation that does not raise. -/
theorem SInv.step {base : Graph α} {mode : Mode} {all es ls : List (α × SCond α)}
    {s s' : Stack α κ W} {op : SchedOp α κ W} (h1 : OneOwner all) (h : SInv base mode all es ls s)
    (hsub : ∀ e ∈ op.adds, e ∈ all) (hc : op.call s = (s', none)) :
    ∃ ls', SInv base mode all (op.effect es) ls' s' := by
  have hset : ∀ (cs : CSet α κ W) (es' : List (α × SCond α)), CInv cs es' →
      (∀ e ∈ es', e ∈ all) → SInv base mode all es' ls { s with cset := cs } := by
    intro cs es' hci hin
    exact ⟨⟨h.stack.tower, h.stack.queues, h.stack.indices, h.stack.last⟩, hci, h.mode, hin,
      h.lsAll⟩
  have happ : ∀ e ∈ es ++ op.adds, e ∈ all := by
    intro e he
    rcases List.mem_append.mp he with he | he
    · exact h.esAll e he
    · exact hsub e he
  cases op with
  | add n c =>
    simp only [SchedOp.call, Stack.addCondition] at hc
    split at hc
    · simp at hc
    · next cs hcs =>
      exact ⟨_, (hset cs _ (h.cset.add (OneOwner.sub h1 happ) hcs) happ).handle_none h1 hc⟩
  | addSet d =>
    simp only [SchedOp.call, Stack.addConditionSet] at hc
    split at hc
    · simp at hc
    · next cs hcs =>
      exact ⟨_, (hset cs _ (CInv.addSet d h.cset (OneOwner.sub h1 happ) hcs) happ).handle_none h1 hc⟩
  | remove c =>
    simp only [SchedOp.call, Stack.removeCondition, Prod.mk.injEq] at hc
    obtain ⟨rfl, hr⟩ := hc
    refine ⟨ls, hset _ _ (h.cset.remove c hr) ?_⟩
    cases c with
    | basic b => simpa [SchedOp.effect, SchedOp.adds] using h.esAll
    | structural c => exact fun e he => h.esAll e (mem_eraseFirst he)
  | removeOf n =>
    simp only [SchedOp.call, Stack.removeConditionOf, Prod.mk.injEq] at hc
    obtain ⟨rfl, hr⟩ := hc
    refine ⟨ls, hset _ _ (by simpa [SchedOp.effect, SchedOp.adds] using h.cset.removeOf n hr) ?_⟩
    simpa [SchedOp.effect, SchedOp.adds] using h.esAll
  | graph =>
    simp only [SchedOp.call, Prod.mk.injEq] at hc
    obtain ⟨rfl, hr⟩ := hc
    exact ⟨es, by simpa [SchedOp.effect, SchedOp.adds] using (readGraph_spec h1 h).2 hr⟩
  | queue =>
    simp only [SchedOp.call, Prod.mk.injEq] at hc
    obtain ⟨rfl, hr⟩ := hc
    exact ⟨es, by simpa [SchedOp.effect, SchedOp.adds] using (readQueue_spec h1 h).2 hr⟩
  | indices =>
    simp only [SchedOp.call, Prod.mk.injEq] at hc
    obtain ⟨rfl, hr⟩ := hc
    exact ⟨es, by simpa [SchedOp.effect, SchedOp.adds] using (readIndices_spec h1 h).2 hr⟩

theorem SInv.new (base : Graph α) (mode : Mode) (st : Store α κ) (ow : OId → Option α)
    (all : List (α × SCond α)) :
    SInv base mode all [] [] (Stack.new mode base st ow : Stack α κ W) :=
  ⟨⟨.base, rfl, rfl, .inr ⟨rfl, rfl⟩⟩, ⟨rfl, fun _ => rfl, by simp [Stack.new, Stack.push,
    CSet.empty, Dict.WF], by simp⟩, rfl, by simp, by simp⟩

theorem SInv.quiet {base : Graph α} {mode : Mode} {all es ls : List (α × SCond α)}
    {s s' : Stack α κ W} {ops : List (SchedOp α κ W)} (h1 : OneOwner all)
    (h : SInv base mode all es ls s) (hsub : ∀ op ∈ ops, ∀ e ∈ op.adds, e ∈ all)
    (hq : Quiet s ops s') : ∃ ls', SInv base mode all (ops.foldl SchedOp.effect es) ls' s' := by
  induction hq generalizing es ls with
  | nil s => exact ⟨ls, h⟩
  | cons hc _ ih =>
    obtain ⟨ls1, h'⟩ := h.step h1 (hsub _ (.head _)) hc
    exact ih h' fun op hop => hsub op (.tail _ hop)

end GS
