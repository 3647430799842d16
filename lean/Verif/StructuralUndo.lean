import Verif.StructuralLemmas
/-! # Adding and removing structural conditions, without assumptions on owners -/

set_option linter.unusedSectionVars false

namespace GS
open Spec
variable {α κ W : Type _} [DecidableEq α] [DecidableEq κ]

namespace Stack

theorem popN_cset (j : Nat) (s : Stack α κ W) : (popN j s).1.cset = s.cset := by
  induction j generalizing s with
  | zero => rfl
  | succ j ih =>
    unfold popN
    split
    · rfl
    · rw [ih]

theorem pushAll_cset (cs : List (SCond α)) (s : Stack α κ W) (g : Graph α) :
    (s.pushAll g cs).1.cset = s.cset := by
  induction cs generalizing s g with
  | nil => rfl
  | cons c cs ih =>
    unfold pushAll
    split
    · rfl
    · rw [ih]; rfl

/-- After handling, everything is handled. -/
theorem handle_last {s s' : Stack α κ W} (h : s.handle = (s', none)) :
    s'.last = some (s.cset.order.map (·.o)) ∧ s'.cset = s.cset := by
  unfold handle at h
  simp only at h
  split at h
  · next hl => simp only [Prod.mk.injEq, and_true] at h; subst h; exact ⟨hl, rfl⟩
  · generalize hp : popN (numPops s.last (commonWith s.last (s.cset.order.map (·.o)))) s = p at h
    have hpc := popN_cset (numPops s.last (commonWith s.last (s.cset.order.map (·.o)))) s
    rw [hp] at hpc
    obtain ⟨s1, r⟩ := p
    cases r with
    | some e => simp at h
    | none =>
      simp only at h hpc
      split at h
      · simp at h
      · next g gs hg =>
        have hpa := pushAll_cset
          (s.cset.order.drop (commonWith s.last (s.cset.order.map (·.o)))) s1 g
        generalize s1.pushAll g (s.cset.order.drop
          (commonWith s.last (s.cset.order.map (·.o)))) = q at h hpa
        obtain ⟨s2, r⟩ := q
        cases r with
        | some e => simp at h
        | none =>
          simp only [Prod.mk.injEq, and_true] at h
          subst h
          exact ⟨rfl, hpa.trans hpc⟩

theorem handle_noop {s : Stack α κ W} (h : s.last = some (s.cset.order.map (·.o))) :
    s.handle = (s, none) := by
  simp only [handle, if_pos h]

theorem handle_twice {s s' : Stack α κ W} (h : s.handle = (s', none)) :
    s'.handle = (s', none) := by
  have := handle_last h
  exact handle_noop (by rw [this.1, this.2])

/-- What the three properties return once everything is handled. -/
theorem reads_handled {s s' : Stack α κ W} (h : s.handle = (s', none)) :
    s.readGraph = (s', orIndexError s'.graphs.head?) ∧
    s.readIndices = (s', orIndexError s'.indices.head?) ∧
    s.readQueue.1 = s' ∧
    s.readQueue.2 = (match s'.mode with
      | .exactTime => onGraph (fun g => [Dict.keys g]) (orIndexError s'.graphs.head?)
      | .standard => orIndexError s'.queues.head?) := by
  have h2 := handle_twice h
  refine ⟨by simp only [readGraph, h], by simp only [readIndices, h], ?_, ?_⟩
  · simp only [readQueue, h]
    cases s'.mode with
    | standard => rfl
    | exactTime =>
      simp only [readGraph, h2]
      cases orIndexError s'.graphs.head? <;> rfl
  · simp only [readQueue, h]
    cases s'.mode with
    | standard => rfl
    | exactTime =>
      simp only [readGraph, h2]
      cases orIndexError s'.graphs.head? <;> rfl

end Stack

/-- Every structural condition in the set has an owner. -/
def AllOwned (s : CSet α κ W) : Prop := ∀ c ∈ s.order, s.owners c.o ≠ none

theorem AllOwned.entries {s : CSet α κ W} (h : AllOwned s) :
    ∃ es : List (α × SCond α), s.order = es.map Prod.snd ∧ ∀ e ∈ es, s.owners e.2.o = some e.1 := by
  unfold AllOwned at h
  generalize s.order = l at h
  induction l with
  | nil => exact ⟨[], rfl, by simp⟩
  | cons c l ih =>
    obtain ⟨es, e1, e2⟩ := ih fun d hd => h d (.tail _ hd)
    cases ho : s.owners c.o with
    | none => exact absurd ho (h c (.head _))
    | some n =>
      refine ⟨(n, c) :: es, by simp [e1], ?_⟩
      intro e he
      rcases List.mem_cons.mp he with rfl | he
      · exact ho
      · exact e2 e he

theorem AllOwned.add {s s' : CSet α κ W} (h : AllOwned s) {n : α} {c : AnyCond α κ W}
    {r : Option Err} (ha : s.add n c = (s', r)) : AllOwned s' := by
  cases c with
  | basic c =>
    simp only [CSet.add, CSet.addBasic, Prod.mk.injEq] at ha
    obtain ⟨rfl, _⟩ := ha
    exact h
  | structural c =>
    simp only [CSet.add, CSet.addStructural] at ha
    split at ha
    · simp only [Prod.mk.injEq] at ha; rw [← ha.1]; exact h
    · simp only [Prod.mk.injEq] at ha
      obtain ⟨rfl, _⟩ := ha
      intro d hd
      simp only
      split
      · simp
      · next hne =>
        rcases List.mem_append.mp hd with hd | hd
        · exact h d hd
        · simp at hd; subst hd; exact absurd rfl hne

theorem AllOwned.addAll (n : α) (cs : List (AnyCond α κ W)) :
    ∀ {s s' : CSet α κ W}, AllOwned s → ∀ {r}, s.addAll n cs = (s', r) → AllOwned s' := by
  induction cs with
  | nil =>
    intro s s' h r ha
    simp only [CSet.addAll, Prod.mk.injEq] at ha; rw [← ha.1]; exact h
  | cons c cs ih =>
    intro s s' h r ha
    unfold CSet.addAll at ha
    split at ha
    · next s1 e he => simp only [Prod.mk.injEq] at ha; rw [← ha.1]; exact h.add he
    · next s1 he => exact ih (h.add he) ha

theorem AllOwned.addSet (d : Dict α (List (AnyCond α κ W))) :
    ∀ {s s' : CSet α κ W}, AllOwned s → ∀ {r}, s.addSet d = (s', r) → AllOwned s' := by
  induction d with
  | nil =>
    intro s s' h r ha
    simp only [CSet.addSet, Prod.mk.injEq] at ha; rw [← ha.1]; exact h
  | cons p d ih =>
    obtain ⟨n, cs⟩ := p
    intro s s' h r ha
    unfold CSet.addSet at ha
    split at ha
    · next s1 e he =>
      simp only [Prod.mk.injEq] at ha; rw [← ha.1]; exact AllOwned.addAll n cs h he
    · next s1 he => exact ih (AllOwned.addAll n cs h he) ha

theorem removeObj_mem {o : OId} {l l' : List (SCond α)} (h : removeObj o l = some l') :
    ∀ c ∈ l', c ∈ l := by
  induction l generalizing l' with
  | nil => simp [removeObj] at h
  | cons d l ih =>
    simp only [removeObj] at h
    split at h
    · simp at h; subst h; exact fun c hc => .tail _ hc
    · cases hr : removeObj o l with
      | none => rw [hr] at h; simp at h
      | some l'' =>
        rw [hr] at h; simp at h; subst h
        intro c hc
        rcases List.mem_cons.mp hc with rfl | hc
        · exact .head _
        · exact .tail _ (ih hr c hc)

theorem removeStructural_order (s : CSet α κ W) (n : α) (o : OId) :
    (s.removeStructural n o).1.owners = s.owners ∧
      ∀ c ∈ (s.removeStructural n o).1.order, c ∈ s.order := by
  unfold CSet.removeStructural
  split
  · exact ⟨rfl, fun _ h => h⟩
  · split
    · exact ⟨rfl, fun _ h => h⟩
    · split
      · exact ⟨rfl, fun _ h => h⟩
      · next h => exact ⟨rfl, removeObj_mem h⟩

theorem removeCond_order (s : CSet α κ W) (c : AnyCond α κ W) :
    (s.removeCond c).1.owners = s.owners ∧ ∀ d ∈ (s.removeCond c).1.order, d ∈ s.order := by
  unfold CSet.removeCond
  split
  · exact ⟨rfl, fun _ h => h⟩
  · cases c with
    | basic b =>
      simp only
      split
      · exact ⟨rfl, fun _ h => h⟩
      · split <;> exact ⟨rfl, fun _ h => h⟩
    | structural d =>
      next n _ =>
      have := removeStructural_order s n d.o
      simp only
      split
      · next heq => rw [heq] at this; exact this
      · next heq => rw [heq] at this; exact this

theorem removeOwner_order (s : CSet α κ W) (n : α) :
    (s.removeOwner n).1.owners = s.owners ∧ ∀ d ∈ (s.removeOwner n).1.order, d ∈ s.order := by
  unfold CSet.removeOwner
  split
  · exact ⟨rfl, fun _ h => h⟩
  · exact ⟨rfl, fun _ h => h⟩
  · exact ⟨rfl, fun _ h => h⟩
  · next c _ _ => exact removeStructural_order s n c.o
  · exact ⟨rfl, fun _ h => h⟩
  · exact ⟨rfl, fun _ h => h⟩

/-- States of a scheduler over `base`, whatever conditions it has. -/
def GInv (base : Graph α) (mode : Mode) (s : Stack α κ W) : Prop :=
  (∃ ls, StackInv base ls s) ∧ AllOwned s.cset ∧ s.mode = mode

theorem GInv.handle {base : Graph α} {mode : Mode} {s s' : Stack α κ W} (h : GInv base mode s)
    (hh : s.handle = (s', none)) : GInv base mode s' := by
  obtain ⟨⟨ls, hl⟩, ho, hm⟩ := h
  obtain ⟨es, e1, e2⟩ := ho.entries
  have := Stack.handle_spec hl e1 e2
  simp only at this
  split at this
  · obtain ⟨t, ht, hi, _, hc, hmo⟩ := this
    rw [hh] at ht
    simp only [Prod.mk.injEq, and_true] at ht
    subst ht
    exact ⟨⟨_, hi⟩, by rw [hc]; exact ho, hmo.trans hm⟩
  · obtain ⟨t, ht, _⟩ := this
    rw [hh] at ht; simp at ht

theorem GInv.withSet {base : Graph α} {mode : Mode} {s : Stack α κ W} (h : GInv base mode s)
    {cs : CSet α κ W} (ho : AllOwned cs) : GInv base mode { s with cset := cs } := by
  obtain ⟨⟨ls, hl⟩, _, hm⟩ := h
  exact ⟨⟨ls, hl.tower, hl.queues, hl.indices, hl.last⟩, ho, hm⟩

/-- What the reading properties leave behind. -/
theorem readGraph_state (s : Stack α κ W) (h : raised s.readGraph.2 = none) :
    s.handle = (s.readGraph.1, none) := by
  unfold Stack.readGraph at h ⊢
  split
  · next heq => simp_all [raised]
  · next heq => exact heq

theorem readIndices_state (s : Stack α κ W) (h : raised s.readIndices.2 = none) :
    s.handle = (s.readIndices.1, none) := by
  unfold Stack.readIndices at h ⊢
  split
  · next heq => simp_all [raised]
  · next heq => exact heq

theorem readQueue_state (s : Stack α κ W) (h : raised s.readQueue.2 = none) :
    s.handle = (s.readQueue.1, none) := by
  cases hh : s.handle with
  | mk s' r =>
    cases r with
    | none => rw [(Stack.reads_handled hh).2.2.1]
    | some e => simp [Stack.readQueue, hh, raised] at h

theorem GInv.step {base : Graph α} {mode : Mode} {s s' : Stack α κ W} {op : SchedOp α κ W}
    (h : GInv base mode s) (hc : op.call s = (s', none)) : GInv base mode s' := by
  cases op with
  | add n c =>
    simp only [SchedOp.call, Stack.addCondition] at hc
    split at hc
    · simp at hc
    · next cs hcs => exact (h.withSet (h.2.1.add hcs)).handle hc
  | addSet d =>
    simp only [SchedOp.call, Stack.addConditionSet] at hc
    split at hc
    · simp at hc
    · next cs hcs => exact (h.withSet (AllOwned.addSet d h.2.1 hcs)).handle hc
  | remove c =>
    simp only [SchedOp.call, Stack.removeCondition, Prod.mk.injEq] at hc
    obtain ⟨rfl, hr⟩ := hc
    have := removeCond_order s.cset c
    exact h.withSet fun d hd => by rw [this.1]; exact h.2.1 d (this.2 d hd)
  | removeOf n =>
    simp only [SchedOp.call, Stack.removeConditionOf, Prod.mk.injEq] at hc
    obtain ⟨rfl, hr⟩ := hc
    have := removeOwner_order s.cset n
    exact h.withSet fun d hd => by rw [this.1]; exact h.2.1 d (this.2 d hd)
  | graph =>
    simp only [SchedOp.call, Prod.mk.injEq] at hc
    obtain ⟨rfl, hr⟩ := hc
    exact h.handle (readGraph_state s hr)
  | queue =>
    simp only [SchedOp.call, Prod.mk.injEq] at hc
    obtain ⟨rfl, hr⟩ := hc
    exact h.handle (readQueue_state s hr)
  | indices =>
    simp only [SchedOp.call, Prod.mk.injEq] at hc
    obtain ⟨rfl, hr⟩ := hc
    exact h.handle (readIndices_state s hr)

theorem GInv.new (base : Graph α) (mode : Mode) (st : Store α κ) (ow : OId → Option α) :
    GInv base mode (Stack.new mode base st ow : Stack α κ W) :=
  ⟨⟨[], .base, rfl, rfl, .inr ⟨rfl, rfl⟩⟩, fun c hc => by
    simp [Stack.new, Stack.push, CSet.empty] at hc, rfl⟩

theorem GInv.quiet {base : Graph α} {mode : Mode} {s s' : Stack α κ W}
    {ops : List (SchedOp α κ W)} (h : GInv base mode s) (hq : Quiet s ops s') :
    GInv base mode s' := by
  induction hq with
  | nil s => exact h
  | cons hc _ ih => exact ih (h.step hc)

/-- The values of the three properties, from the applied and the present conditions. -/
theorem reads_spec {base : Graph α} {ls es : List (α × SCond α)} {s : Stack α κ W}
    (h : StackInv base ls s) (ho : s.cset.order = es.map Prod.snd)
    (hw : ∀ e ∈ es, s.cset.owners e.2.o = some e.1) (G : Except Err (Graph α))
    (hG : composed base (ls.take (commonPrefix (ls.map (·.2.o)) (es.map (·.2.o))) ++
        es.drop (commonPrefix (ls.map (·.2.o)) (es.map (·.2.o)))) = G) :
    s.readGraph.2 = G ∧ s.readQueue.2 = onGraph (queueFor s.mode) G ∧
      s.readIndices.2 = onGraph (fun g => queueIndices (queueOf g)) G := by
  have := Stack.handle_spec h ho hw
  simp only [hG] at this
  cases G with
  | error e =>
    simp only at this
    obtain ⟨t, ht, _⟩ := this
    simp only [Stack.readGraph, Stack.readQueue, Stack.readIndices, ht, onGraph]
    exact ⟨trivial, trivial, trivial⟩
  | ok g =>
    simp only at this
    obtain ⟨t, ht, hi, hg, hc, hm⟩ := this
    obtain ⟨r1, r2, _, r4⟩ := Stack.reads_handled ht
    rw [r1, r2, r4, hi.queues, hi.indices, List.head?_map, List.head?_map, hg, ← hm]
    refine ⟨rfl, ?_, rfl⟩
    cases t.mode <;> rfl

/-- Removing an object that is in the order at the end only. -/
theorem removeObj_snoc (l : List (SCond α)) (c : SCond α) (h : c.o ∉ l.map (·.o)) :
    removeObj c.o (l ++ [c]) = some l := by
  induction l with
  | nil => simp [removeObj]
  | cons d l ih =>
    simp only [List.map_cons, List.mem_cons, not_or] at h
    simp only [List.cons_append, removeObj]
    rw [if_neg (fun e => h.1 e.symm), ih h.2]; rfl

theorem removeObj_isSome_snoc (l : List (SCond α)) (c : SCond α) :
    ∃ l', removeObj c.o (l ++ [c]) = some l' := by
  induction l with
  | nil => exact ⟨[], by simp [removeObj]⟩
  | cons d l ih =>
    obtain ⟨l', h⟩ := ih
    simp only [List.cons_append, removeObj]
    split
    · exact ⟨_, rfl⟩
    · exact ⟨d :: l', by rw [h]; rfl⟩

/-- Adding and removing a structural condition restores the order. -/
theorem add_remove_order {s s1 : CSet α κ W} {n : α} {c : SCond α}
    (h : c.o ∉ s.order.map (·.o)) (ha : s.add n (.structural c) = (s1, none)) :
    (s1.removeCond (.structural c)).2 = .ok (some (.structural c)) ∧
      (s1.removeCond (.structural c)).1.order = s.order ∧
      (s1.removeCond (.structural c)).1.owners = s1.owners ∧ s1.order = s.order ++ [c] ∧
      s1.owners = fun o => if o = c.o then some n else s.owners o := by
  simp only [CSet.add, CSet.addStructural] at ha
  split at ha
  · simp at ha
  · simp only [Prod.mk.injEq, and_true] at ha
    subst ha
    refine ⟨?_, ?_, (removeCond_order _ _).1, rfl, rfl⟩
    · simp only [CSet.removeCond, CSet.ownerOf, if_true]
      split <;> rfl
    · obtain ⟨l', hl'⟩ := removeObj_isSome_snoc (s.structsFor n) c
      simp only [CSet.removeCond, CSet.ownerOf, if_true, CSet.removeStructural, Dict.get?_set,
        hl', removeObj_snoc _ _ h]

end GS
