import Verif.AdoptSelf
import Verif.GSC
import Verif.Props.Structural
/-!
# Property C100: a scheduler's conditions handed to another scheduler
-/

set_option linter.unusedSectionVars false

namespace GS.Props
open GS Spec
variable {α κ W : Type _} [DecidableEq α] [DecidableEq κ]

/-- The set of a scheduler after calls. -/
theorem sane_quiet {mode : Mode} {base : Graph α} {st : Store α κ} {ow : OId → Option α}
    {ops : List (SchedOp α κ W)} {s : Stack α κ W} (hq : Quiet (Stack.new mode base st ow) ops s)
    (h1 : OneOwner (ops.flatMap SchedOp.adds)) :
    s.cset.Sane ∧ CInv s.cset (present ops) ∧ ∀ e ∈ present ops, e ∈ ops.flatMap SchedOp.adds := by
  have hsub : ∀ op ∈ ops, ∀ e ∈ op.adds, e ∈ ops.flatMap SchedOp.adds :=
    fun op hop e he => List.mem_flatMap.mpr ⟨op, hop, he⟩
  have hn := SInv.new base mode st ow (ops.flatMap SchedOp.adds) (κ := κ) (W := W)
  obtain ⟨ls, h⟩ := hn.quiet h1 hsub hq
  exact ⟨CSet.Sane.quiet h1 hn hsub (CSet.Sane.empty st ow) hq, h.cset, h.esAll⟩

theorem filter_structEntries (n : α) (es : Entries α κ W) :
    (structEntries es).filter (fun e => e.1 = n) = (structsOf n es).map fun c => (n, c) := by
  induction es with
  | nil => rfl
  | cons e es ih =>
    obtain ⟨m, c | c⟩ := e
    · simp only [structEntries, structsOf, ih]
    · simp only [structEntries, structsOf, List.filter_cons]
      by_cases h : m = n
      · subst h; simp [ih]
      · simp [h, ih]

theorem filter_present {s : CSet α κ W} {es : List (α × SCond α)} (h : CInv s es) (n : α) :
    es.filter (fun e => e.1 = n) = (s.structsFor n).map fun c => (n, c) := by
  have e : s.structsFor n = (es.filter (fun e => e.1 = n)).map Prod.snd := by
    unfold CSet.structsFor
    rw [h.structural n]
    by_cases x : es.filter (fun e => e.1 = n) = []
    · rw [if_pos x, x]; rfl
    · rw [if_neg x]
  rw [e, List.map_map]
  have : ∀ l : List (α × SCond α), (∀ e ∈ l, e.1 = n) → l = l.map ((fun c => (n, c)) ∘ Prod.snd) := by
    intro l hl
    induction l with
    | nil => rfl
    | cons a l ih =>
      rw [List.map_cons, ← ih fun e he => hl e (.tail _ he)]
      have := hl a (.head _)
      obtain ⟨x, y⟩ := a
      simp only at this; subst this; rfl
  exact this _ fun e he => by simpa using (List.mem_filter.mp he).2

/-- C100, the conditions.  A scheduler that is made with the `conditions` of another scheduler
(after any additions, removals and reads in which nothing raised) has, for every node, the same
basic condition, the same structural conditions in the same order, and the same entry in its
`conditions` view; no other node has conditions. -/
theorem C100_conditions (mode mode' : Mode) (base base' : Graph α) (st : Store α κ)
    (ow : OId → Option α) (ops : List (SchedOp α κ W)) (s : Stack α κ W)
    (hq : Quiet (Stack.new mode base st ow) ops s) (h1 : OneOwner (ops.flatMap SchedOp.adds))
    (n : α) :
    Dict.get? (Stack.adopt mode' base' s.cset).1.cset.basic n = Dict.get? s.cset.basic n ∧
    Dict.get? (Stack.adopt mode' base' s.cset).1.cset.structural n =
      Dict.get? s.cset.structural n ∧
    (Stack.adopt mode' base' s.cset).1.cset.getItem n = s.cset.getItem n := by
  obtain ⟨hs, hi, _⟩ := sane_quiet hq h1
  obtain ⟨cs, hcs⟩ := hs.addSet_none (CSet.empty s.cset.store s.cset.owners)
  obtain ⟨done, rest, e, hh, hr⟩ := (holds_empty (W := W) s.cset.store s.cset.owners).addSet _ hcs
  have := hr rfl
  subst this
  rw [List.append_nil] at e
  subst e
  rw [List.nil_append] at hh
  have hB : (Stack.adopt mode' base' s.cset).1.cset = cs := by
    unfold Stack.adopt Stack.addConditionSet
    have x : (Stack.new mode' base' s.cset.store s.cset.owners : Stack α κ W).cset.addSet
        s.cset.asDict = (cs, none) := hcs
    rw [x]
    exact Stack.handle_cset _
  rw [hB, hh.basic, hh.structural, hh.view, hs.basics_listed, hs.structs_listed, hs.view]
  refine ⟨by cases Dict.get? s.cset.basic n <;> rfl, ?_, by cases Dict.get? s.cset.basic n <;> rfl⟩
  have hf := hs.full n
  unfold CSet.structsFor
  cases hx : Dict.get? s.cset.structural n with
  | none => simp
  | some l =>
    rw [hx] at hf
    have : l ≠ [] := fun y => hf (by rw [y])
    simp [this]

/-- C100, the graph: the structural conditions are applied to the new scheduler's base graph in
the order in which the owners come in the `conditions` view. -/
theorem C100_order (mode mode' : Mode) (base base' : Graph α) (st : Store α κ)
    (ow : OId → Option α) (ops : List (SchedOp α κ W)) (s : Stack α κ W)
    (hq : Quiet (Stack.new mode base st ow) ops s) (h1 : OneOwner (ops.flatMap SchedOp.adds)) :
    match composed base' (structEntries (listed s.cset.asDict)) with
    | .error e => (Stack.adopt mode' base' s.cset).2 = some e
    | .ok g => (Stack.adopt mode' base' s.cset).2 = none ∧
        (Stack.adopt mode' base' s.cset).1.readGraph.2 = .ok g ∧
        (Stack.adopt mode' base' s.cset).1.readQueue.2 = .ok (queueFor mode' g) ∧
        (Stack.adopt mode' base' s.cset).1.readIndices.2 = .ok (queueIndices (queueOf g)) := by
  obtain ⟨hs, hi, hsub⟩ := sane_quiet hq h1
  obtain ⟨cs, hcs⟩ := hs.addSet_none (CSet.empty s.cset.store s.cset.owners)
  have hmem : ∀ e ∈ structEntries (listed s.cset.asDict), e ∈ present ops := by
    intro e he
    have : e ∈ (structEntries (listed s.cset.asDict)).filter (fun x => x.1 = e.1) :=
      List.mem_filter.mpr ⟨he, by simp⟩
    rw [filter_structEntries, hs.structs_listed, ← filter_present hi] at this
    exact (List.mem_filter.mp this).1
  have ho : OneOwner (structEntries (listed s.cset.asDict)) :=
    fun e he f hf => h1 e (hsub e (hmem e he)) f (hsub f (hmem f hf))
  have hnew := SInv.new base' mode' s.cset.store s.cset.owners
    (structEntries (listed s.cset.asDict)) (κ := κ) (W := W)
  have hci := CInv.addSet s.cset.asDict hnew.cset (by simpa using ho) hcs
  have hsinv : SInv base' mode' (structEntries (listed s.cset.asDict))
      (structEntries (listed s.cset.asDict)) []
      { (Stack.new mode' base' s.cset.store s.cset.owners : Stack α κ W) with cset := cs } :=
    ⟨⟨hnew.stack.tower, hnew.stack.queues, hnew.stack.indices, hnew.stack.last⟩,
      by simpa using hci, hnew.mode, fun e he => he, by simp⟩
  have hh := hsinv.handle ho
  have hB : Stack.adopt mode' base' s.cset =
      Stack.handle { (Stack.new mode' base' s.cset.store s.cset.owners : Stack α κ W) with
        cset := cs } := by
    unfold Stack.adopt Stack.addConditionSet
    have x : (Stack.new mode' base' s.cset.store s.cset.owners : Stack α κ W).cset.addSet
        s.cset.asDict = (cs, none) := hcs
    rw [x]
  rw [hB]
  cases hc : composed base' (structEntries (listed s.cset.asDict)) with
  | error e =>
    rw [hc] at hh
    obtain ⟨s', e1⟩ := hh
    simp only [e1]
  | ok g =>
    rw [hc] at hh
    obtain ⟨s', e1, h2, _⟩ := hh
    simp only [e1]
    refine ⟨trivial, ?_, ?_, ?_⟩
    · rw [(readGraph_spec ho h2).1, hc]
    · rw [(readQueue_spec ho h2).1, hc]; rfl
    · rw [(readIndices_spec ho h2).1, hc]; rfl

/-- C100, the graph (the part that holds): if the structural conditions of different owners
commute, the new scheduler's graph is its base graph transformed by the conditions in the order
in which they were added to the first scheduler, so with the same base graph it is the graph of
the first scheduler.  Missing: conditions of different owners whose order matters, see
`C100_order_lost`. -/
theorem C100_graph_partial (mode mode' : Mode) (base base' : Graph α) (st : Store α κ)
    (ow : OId → Option α) (ops : List (SchedOp α κ W)) (s : Stack α κ W)
    (hq : Quiet (Stack.new mode base st ow) ops s) (h1 : OneOwner (ops.flatMap SchedOp.adds))
    (hc : ∀ e ∈ present ops, ∀ f ∈ present ops, e.1 ≠ f.1 →
      ∀ g, composed g [e, f] = composed g [f, e]) :
    match composed base' (present ops) with
    | .error e => (Stack.adopt mode' base' s.cset).2 = some e
    | .ok g => (Stack.adopt mode' base' s.cset).2 = none ∧
        (Stack.adopt mode' base' s.cset).1.readGraph.2 = .ok g ∧
        (Stack.adopt mode' base' s.cset).1.readQueue.2 = .ok (queueFor mode' g) ∧
        (Stack.adopt mode' base' s.cset).1.readIndices.2 = .ok (queueIndices (queueOf g)) := by
  obtain ⟨hs, hi, _⟩ := sane_quiet hq h1
  have h := C100_order mode mode' base base' st ow ops s hq h1
  rw [← composed_shuffle (present ops) (structEntries (listed s.cset.asDict)) (fun n => by
    rw [filter_structEntries, hs.structs_listed, ← filter_present hi]) hc base'] at h
  exact h

/-- In particular the second scheduler has the graph of the first one, if all structural
conditions have the same owner and the base graph is the same. -/
theorem C100_one_owner (mode : Mode) (base : Graph α) (st : Store α κ)
    (ow : OId → Option α) (ops : List (SchedOp α κ W)) (s : Stack α κ W)
    (hq : Quiet (Stack.new mode base st ow) ops s) (h1 : OneOwner (ops.flatMap SchedOp.adds))
    (n : α) (hn : ∀ e ∈ present ops, e.1 = n) (g : Graph α) (hg : s.readGraph.2 = .ok g) :
    (Stack.adopt mode base s.cset).2 = none ∧
    (Stack.adopt mode base s.cset).1.readGraph.2 = s.readGraph.2 ∧
    (Stack.adopt mode base s.cset).1.readQueue.2 = s.readQueue.2 ∧
    (Stack.adopt mode base s.cset).1.readIndices.2 = s.readIndices.2 := by
  obtain ⟨a1, a2, a3⟩ := C32_composition_partial mode base st ow ops s hq h1
  have h := C100_graph_partial mode mode base base st ow ops s hq h1
    (fun e he f hf hne => absurd ((hn e he).trans (hn f hf).symm) hne)
  rw [hg] at a1
  rw [← a1] at h a2 a3
  rw [a2, a3, hg]
  exact h

/-- Adding a condition set to itself does not end, if some owner has several structural
conditions and no basic condition: the loop runs over the list that it appends to. -/
theorem C100_itself_never_ends (mode : Mode) (base : Graph α) (st : Store α κ)
    (ow : OId → Option α) (ops : List (SchedOp α κ W)) (s : Stack α κ W)
    (hq : Quiet (Stack.new mode base st ow) ops s) (h1 : OneOwner (ops.flatMap SchedOp.adds))
    (n : α) (hb : Dict.get? s.cset.basic n = none) (c d : SCond α) (l : List (SCond α))
    (hl : Dict.get? s.cset.structural n = some (c :: d :: l)) (k : Nat) :
    (s.cset.addSelf k).2 ≠ .done ∧ ∀ e, (s.cset.addSelf k).2 ≠ .raised e := by
  obtain ⟨hs, _, _⟩ := sane_quiet hq h1
  have hsf : s.cset.structsFor n = c :: d :: l := by unfold CSet.structsFor; rw [hl]
  have hE : CSet.Endless n s.cset.conditions (.owners (Dict.keys s.cset.conditions.view)) := by
    refine ⟨hs.conditions, by rw [s.cset.conditions_eq.1]; exact hb,
      by rw [CSet.structsFor_conditions, hsf]; simp, ?_, ?_⟩
    · rw [← Dict.get?_isSome]
      have := (CSet.getItem_isSome hs n).mpr (.inr (by rw [hsf]; simp))
      unfold CSet.getItem at this
      cases e : Dict.get? s.cset.conditions.view n with
      | none => exact absurd e this
      | some v => rfl
    · intro m hm
      rw [CSet.getItem_conditions]
      unfold CSet.getItem
      rw [← Dict.get?_isSome] at hm
      intro x; rw [x] at hm; simp at hm
  have h := (hE.steps k).pc
  unfold CSet.addSelf
  constructor
  · intro e; rw [e] at h; exact h
  · intro x e; rw [e] at h; exact h

/-- What it does then: the conditions of the first owner of the view, if it is such an owner,
are added again and again, in turn. -/
theorem C100_itself_repeats (mode : Mode) (base : Graph α) (st : Store α κ)
    (ow : OId → Option α) (ops : List (SchedOp α κ W)) (s : Stack α κ W)
    (hq : Quiet (Stack.new mode base st ow) ops s) (h1 : OneOwner (ops.flatMap SchedOp.adds))
    (n : α) (rest : List α) (hv : Dict.keys s.cset.conditions.view = n :: rest)
    (hb : Dict.get? s.cset.basic n = none) (l : List (SCond α))
    (hl : Dict.get? s.cset.structural n = some l) (h2 : 2 ≤ l.length) (k : Nat) :
    ∃ l', Dict.get? (s.cset.addSelf (k + 1)).1.structural n = some l' ∧ l'.length = l.length + k ∧
      ∀ i, i < l.length + k → l'[i]? = l[i % l.length]? := by
  obtain ⟨hs, _, _⟩ := sane_quiet hq h1
  have hsf : s.cset.structsFor n = l := by unfold CSet.structsFor; rw [hl]
  have hc := hs.conditions
  have e1 : CSet.selfStep s.cset.conditions (.owners (n :: rest)) = (s.cset.conditions.conditions, .live n 0 rest) := by
    have hw := hc.view n
    unfold CSet.getItem at hw
    unfold CSet.selfStep
    simp only
    rw [hw, CSet.structsFor_conditions, hsf, s.cset.conditions.conditions_eq.1, s.cset.conditions_eq.1, hb]
    match l, h2 with
    | c :: d :: l, _ => simp [shown]
  obtain ⟨t, e, ht, hlen, hrep⟩ := CSet.live_repeats (n := n) (l := l) rest (by omega) k hc.conditions
    (by rw [CSet.structsFor_conditions, CSet.structsFor_conditions, hsf])
  have : s.cset.addSelf (k + 1) = (t, .live n k rest) := by
    unfold CSet.addSelf
    rw [hv]
    simp only [CSet.selfSteps]
    rw [e1, e]
  rw [this]
  cases hx : Dict.get? t.structural n with
  | none =>
    have : t.structsFor n = [] := by unfold CSet.structsFor; rw [hx]
    rw [this] at hlen; simp at hlen; omega
  | some l' =>
    have : t.structsFor n = l' := by unfold CSet.structsFor; rw [hx]
    rw [this] at hlen hrep
    exact ⟨l', rfl, hlen, hrep⟩

/-- Otherwise it ends, and every structural condition is in the set twice as often. -/
theorem C100_itself_doubles (mode : Mode) (base : Graph α) (st : Store α κ)
    (ow : OId → Option α) (ops : List (SchedOp α κ W)) (s : Stack α κ W)
    (hq : Quiet (Stack.new mode base st ow) ops s) (h1 : OneOwner (ops.flatMap SchedOp.adds))
    (h : ∀ n c d l, Dict.get? s.cset.structural n = some (c :: d :: l) →
      Dict.get? s.cset.basic n ≠ none) :
    ∃ k t, s.cset.addSelf k = (t, .done) ∧
      (∀ n, Dict.get? t.basic n = Dict.get? s.cset.basic n) ∧
      ∀ n l, Dict.get? s.cset.structural n = some l → Dict.get? t.structural n = some (l ++ l) := by
  obtain ⟨hs, _, _⟩ := sane_quiet hq h1
  have hk : ∀ m, m ∈ Dict.keys s.cset.conditions.view ↔ s.cset.getItem m ≠ none := by
    intro m
    rw [← Dict.get?_isSome]
    unfold CSet.getItem
    cases Dict.get? s.cset.conditions.view m <;> simp
  obtain ⟨k, t, e, ht, hb, hd⟩ := CSet.owners_steps (Dict.keys s.cset.conditions.view)
    hs.conditions hs.viewWF
    (fun m hm => by rw [CSet.getItem_conditions]; exact (hk m).mp hm)
    (fun m _ => by
      rw [s.cset.conditions_eq.1, CSet.structsFor_conditions]
      match hl : s.cset.structsFor m with
      | [] => right; simp
      | [c] => right; simp
      | c :: d :: l =>
        left
        refine h m c d l ?_
        unfold CSet.structsFor at hl
        split at hl
        · next l' hl' => rw [hl', hl]
        · simp at hl)
  refine ⟨k, t, e, fun n => by rw [hb, s.cset.conditions_eq.1], fun n l hl => ?_⟩
  have hsf : s.cset.structsFor n = l := by unfold CSet.structsFor; rw [hl]
  have hne : l ≠ [] := fun x => hs.full n (by rw [hl, x])
  have := hd n
  rw [CSet.structsFor_conditions, hsf, if_pos ((hk n).mpr
    ((CSet.getItem_isSome hs n).mpr (.inr (by rw [hsf]; exact hne))))] at this
  unfold CSet.structsFor at this
  cases hx : Dict.get? t.structural n with
  | none =>
    rw [hx] at this
    exact absurd (List.append_eq_nil_iff.mp this.symm).1 hne
  | some l' => rw [hx] at this; simp only at this; rw [this]

/-! ## The order is lost -/

/-- Remove the edge from 0 to 2, then add it, then a basic condition for 0. -/
def swapOps : List (SchedOp Nat Nat Unit) :=
  [.add 2 (.structural ((GSC.removeEdgeFrom 0).toSCond (fun _ => []) 1)),
   .add 0 (.structural ((GSC.addEdgeTo 2).toSCond (fun _ => []) 2)),
   .add 0 (.basic (.leaf 3 .always))]

/-- The first scheduler. -/
def swapped : Stack Nat Nat Unit := afterOps freshStack swapOps

theorem swapOps_quiet : Quiet freshStack swapOps swapped := quiet_of _ _ (by decide)

theorem swapOps_oneOwner : OneOwner (swapOps.flatMap SchedOp.adds) := by
  intro e he f hf h
  simp only [swapOps, List.flatMap_cons, List.flatMap_nil, SchedOp.adds, structEntries,
    List.append_nil, List.nil_append, List.cons_append, List.mem_cons, List.not_mem_nil,
    or_false] at he hf
  rcases he with rfl | rfl <;> rcases hf with rfl | rfl <;>
    first | rfl | (simp [GSC.toSCond] at h)

/-- C100 fails for the graph when the order of the conditions of different owners matters: the
first scheduler has the edge from 0 to 2, a second one with the same base graph and the first
one's conditions does not. -/
theorem C100_order_lost :
    Quiet freshStack swapOps swapped ∧ OneOwner (swapOps.flatMap SchedOp.adds) ∧
    swapped.readGraph.2 = .ok [(0, []), (1, []), (2, [0])] ∧
    (Stack.adopt .standard threeNodes swapped.cset).2 = none ∧
    (Stack.adopt .standard threeNodes swapped.cset).1.readGraph.2 =
      .ok [(0, []), (1, []), (2, [])] :=
  ⟨swapOps_quiet, swapOps_oneOwner, by decide +kernel, by decide +kernel, by decide +kernel⟩

/-! ## Examples -/

/-- The conditions of `someOps` in another scheduler: nothing is lost. -/
example : ((Stack.adopt .standard threeNodes (afterOps freshStack someOps).cset).1.readGraph.2 =
    .ok [(0, []), (1, [0]), (2, [1])]) ∧
    (Stack.adopt .standard threeNodes (afterOps freshStack someOps).cset).2 = none := by
  decide +kernel

/-- Assignments to two existing keys can be exchanged. -/
theorem set_comm {β : Type _} (d : Dict α β) {a b : α} (hab : a ≠ b) (x y : β)
    (ha : a ∈ Dict.keys d) (hb : b ∈ Dict.keys d) :
    Dict.set (Dict.set d a x) b y = Dict.set (Dict.set d b y) a x := by
  induction d with
  | nil => simp at ha
  | cons p d ih =>
    obtain ⟨k, v⟩ := p
    by_cases h1 : k = a
    · subst h1; simp [Dict.set, hab]
    · by_cases h2 : k = b
      · subst h2; simp [Dict.set, h1]
      · simp only [Dict.set, h1, h2, if_false]
        have ha' : a ∈ Dict.keys d := by
          rcases List.mem_cons.mp ha with e | e
          · exact absurd e.symm h1
          · exact e
        have hb' : b ∈ Dict.keys d := by
          rcases List.mem_cons.mp hb with e | e
          · exact absurd e.symm h2
          · exact e
        rw [ih ha' hb']

/-- Structural conditions for different receivers commute, so `C100_graph_partial` applies. -/
example : ∀ e ∈ present someOps, ∀ f ∈ present someOps, e.1 ≠ f.1 →
    ∀ g, composed g [e, f] = composed g [f, e] := by
  have hp : present someOps = [(0, addSenderTo 1 1), (1, addSenderTo 3 2)] := rfl
  have key : ∀ g : Graph Nat, composed g [(0, addSenderTo 1 1), (1, addSenderTo 3 2)] =
      composed g [(1, addSenderTo 3 2), (0, addSenderTo 1 1)] := by
    intro g
    simp only [composed, addSenderTo]
    cases h1 : Dict.get? g 1 with
    | none =>
      cases h2 : Dict.get? g 2 with
      | none => simp
      | some b => simp [Dict.get?_set, h1]
    | some a =>
      cases h2 : Dict.get? g 2 with
      | none => simp [Dict.get?_set, h2]
      | some b =>
        simp only [Dict.get?_set, h1, h2]
        simp only [show ¬ (1 = 2) by decide, show ¬ (2 = 1) by decide, if_false]
        congr 1
        exact set_comm g (by decide) _ _ (Dict.get?_isSome.mp (by rw [h1]; rfl))
          (Dict.get?_isSome.mp (by rw [h2]; rfl))
  rw [hp]
  intro e he f hf hne
  simp only [List.mem_cons, List.not_mem_nil, or_false] at he hf
  rcases he with rfl | rfl <;> rcases hf with rfl | rfl
  · exact absurd rfl hne
  · exact key
  · exact fun g => (key g).symm
  · exact absurd rfl hne

/-- Two structural conditions of node 0, which has no basic condition. -/
def twiceOps : List (SchedOp Nat Nat Unit) :=
  [.add 0 (.structural (addSenderTo 1 1)), .add 0 (.structural (addSenderTo 2 2))]

theorem twiceOps_quiet : Quiet freshStack twiceOps (afterOps freshStack twiceOps) :=
  quiet_of _ _ (by decide)

theorem twiceOps_oneOwner : OneOwner (twiceOps.flatMap SchedOp.adds) := by
  intro e he f hf h
  simp only [twiceOps, List.flatMap_cons, List.flatMap_nil, SchedOp.adds, structEntries,
    List.append_nil, List.nil_append, List.cons_append, List.mem_cons, List.not_mem_nil,
    or_false] at he hf
  rcases he with rfl | rfl <;> rcases hf with rfl | rfl <;>
    first | rfl | (simp [addSenderTo] at h)

/-- All of them have one owner, and adding the set to itself goes on for ever. -/
example : (∀ e ∈ present twiceOps, e.1 = 0) ∧
    ∀ k, ((afterOps freshStack twiceOps).cset.addSelf k).2 ≠ .done :=
  ⟨by
    have hp : present twiceOps = [(0, addSenderTo 1 1), (0, addSenderTo 2 2)] := rfl
    rw [hp]; intro e he
    simp only [List.mem_cons, List.not_mem_nil, or_false] at he
    rcases he with rfl | rfl <;> rfl,
  fun k => (C100_itself_never_ends .standard threeNodes noOwners (fun _ => none) twiceOps _
    twiceOps_quiet twiceOps_oneOwner 0 rfl (addSenderTo 1 1) (addSenderTo 2 2) [] rfl k).1⟩

/-- The hypotheses of `C100_itself_repeats`, and the list after five additions. -/
example : Dict.keys (afterOps freshStack twiceOps).cset.conditions.view = [0] ∧
    Dict.get? (afterOps freshStack twiceOps).cset.basic 0 = none ∧
    (Dict.get? (afterOps freshStack twiceOps).cset.structural 0).map (·.map (·.o)) = some [1, 2] ∧
    (Dict.get? ((afterOps freshStack twiceOps).cset.addSelf 6).1.structural 0).map (·.map (·.o)) =
      some [1, 2, 1, 2, 1, 2, 1] :=
  ⟨rfl, rfl, rfl, rfl⟩

/-- With one structural condition per owner it ends: here within eight steps. -/
example : (∀ n c d l, Dict.get? swapped.cset.structural n = some (c :: d :: l) →
      Dict.get? swapped.cset.basic n ≠ none) ∧
    ((swapped.cset.addSelf 8).1.structsFor 0).map (·.o) = [2, 2] ∧
    ((swapped.cset.addSelf 8).1.structsFor 2).map (·.o) = [1, 1] := by
  refine ⟨?_, by decide +kernel, by decide +kernel⟩
  intro n c d l h
  have hs : swapped.cset.structural =
    [(2, [(GSC.removeEdgeFrom 0).toSCond (fun _ => []) 1]),
     (0, [(GSC.addEdgeTo 2).toSCond (fun _ => []) 2])] := rfl
  rw [hs] at h
  simp only [Dict.get?_cons, Dict.get?_nil] at h
  split at h
  · simp at h
  · split at h <;> simp at h

end GS.Props
