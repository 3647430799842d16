import Verif.Spec.Custom
import Verif.GSCHeap
import Verif.Props.Edits
/-!
# C94: structural conditions with a user's function
-/

set_option linter.unusedSectionVars false

namespace GS.Props
open GS Spec
variable {α κ W A V : Type _} [DecidableEq α] [DecidableEq κ]

theorem acceptsPos_iff (sig : Sig) (args : List V) :
    acceptsPos sig args.length = true ↔ sig.Accepts { args := args, kwargs := [] } := by
  unfold acceptsPos Sig.Accepts
  simp only [Bool.and_eq_true, Bool.or_eq_true, decide_eq_true_eq, List.all_eq_true, Dict.keys,
    List.map_nil, List.not_mem_nil, false_imp_iff, implies_true, true_and, and_false, or_false]
  refine and_congr_right fun _ => forall_congr' fun p => imp_congr_right fun _ => ?_
  constructor
  · rintro (((h | h) | h) | h) h1 h2 h3
    · rw [h] at h1; cases h1
    · exact absurd h h2
    · exact absurd h h3
    · exact h
  · intro h
    by_cases h1 : p.dflt = true
    · exact .inl (.inl (.inl h1))
    by_cases h2 : p.kind = .varPositional
    · exact .inl (.inl (.inr h2))
    by_cases h3 : p.kind = .varKeyword
    · exact .inl (.inr h3)
    · exact .inr (h (by simpa using h1) h2 h3)

theorem clone_fresh {s : HG α} (hs : s.Ok) : FreshCopy s s.clone := by
  have C := HG.clone_spec hs
  refine ⟨HG.clone_value hs, fun n a e => ⟨C.fresh n a e, C.ok.bound n a e⟩, C.inj, fun a ha => ?_⟩
  obtain ⟨l, hl⟩ := C.grows
  unfold Heap.read
  rw [hl, List.getElem?_append_left ha]

/-- C94: a condition with an owner calls the function once, on a fresh copy of the graph,
and with the condition itself exactly if the first parameter is called `self`; the result is
what the function returns or raises.  A later parameter called `self` is a `ConditionError`,
and a function that cannot be called this way a `TypeError`. -/
theorem C94_call (f : UserFn α A) (n : α) (self : A) (s : HG α) (hs : s.Ok) :
    ∃ copy, FreshCopy s copy ∧
      ((∀ p ∈ f.sig, p.name ≠ "self") →
        (f.sig.Accepts { args := [()], kwargs := [] } →
          f.modifyGraph (some n) self s = f.body none copy) ∧
        (¬ f.sig.Accepts { args := [()], kwargs := [] } →
          f.modifyGraph (some n) self s = .error .typeError)) ∧
      (∀ p rest, f.sig = p :: rest → p.name = "self" →
        (f.sig.Accepts { args := [(), ()], kwargs := [] } →
          f.modifyGraph (some n) self s = f.body (some self) copy) ∧
        (¬ f.sig.Accepts { args := [(), ()], kwargs := [] } →
          f.modifyGraph (some n) self s = .error .typeError)) ∧
      (∀ p rest, f.sig = p :: rest → p.name ≠ "self" → (∃ q ∈ rest, q.name = "self") →
        f.modifyGraph (some n) self s = .error .conditionError) := by
  refine ⟨s.clone, clone_fresh hs, ?_, ?_, ?_⟩
  · intro h
    have h1 : "self" ∉ f.sig.map (·.name) := by
      intro hm
      obtain ⟨p, hp, e⟩ := List.mem_map.mp hm
      exact h p hp e
    rw [← acceptsPos_iff f.sig [()]]
    unfold UserFn.modifyGraph UserFn.process
    rw [if_neg h1]
    exact ⟨fun ha => if_pos ha, fun ha => if_neg ha⟩
  · intro p rest e hp
    have h1 : "self" ∈ f.sig.map (·.name) := by rw [e]; simp [hp]
    have h2 : (f.sig.map (·.name)).head? = some "self" := by rw [e]; simp [hp]
    rw [← acceptsPos_iff f.sig [(), ()]]
    unfold UserFn.modifyGraph UserFn.process
    rw [if_pos h1, if_neg (fun h => h h2)]
    exact ⟨fun ha => if_pos ha, fun ha => if_neg ha⟩
  · rintro p rest e hp ⟨q, hq, hqn⟩
    have h1 : "self" ∈ f.sig.map (·.name) := by
      rw [e]; exact List.mem_map.mpr ⟨q, List.mem_cons_of_mem _ hq, hqn⟩
    have h2 : (f.sig.map (·.name)).head? ≠ some "self" := by rw [e]; simp [hp]
    unfold UserFn.modifyGraph UserFn.process
    rw [if_pos h1, if_pos h2]

theorem accepts_graph {sig : Sig} (h : TakesGraph sig) : sig.Accepts { args := [()], kwargs := [] } := by
  obtain ⟨p, rest, rfl, hp, hr, _⟩ := h
  have hpos : Sig.positional (p :: rest) = p :: Sig.positional rest := by
    unfold Sig.positional; rw [List.filter_cons, if_pos (by simpa [Param.ByPosition] using hp)]
  refine ⟨.inr (by rw [hpos]; simp), by simp [Dict.keys], fun q hq h1 h2 h3 => .inl ?_⟩
  rw [hpos]
  rcases List.mem_cons.mp hq with rfl | hq
  · simp
  · rcases hr q hq with h | h | h
    · rw [h] at h1; cases h1
    · exact absurd h h2
    · exact absurd h h3

theorem accepts_self {sig : Sig} (h : TakesSelfAndGraph sig) :
    sig.Accepts { args := [(), ()], kwargs := [] } := by
  obtain ⟨p, q, rest, rfl, _, hp, hq', hr⟩ := h
  have hpos : Sig.positional (p :: q :: rest) = p :: q :: Sig.positional rest := by
    unfold Sig.positional
    rw [List.filter_cons, if_pos (by simpa [Param.ByPosition] using hp), List.filter_cons, if_pos (by simpa [Param.ByPosition] using hq')]
  refine ⟨.inr (by rw [hpos]; simp), by simp [Dict.keys], fun r hr' h1 h2 h3 => .inl ?_⟩
  rw [hpos]
  simp only [List.mem_cons] at hr'
  rcases hr' with rfl | rfl | hr'
  · simp
  · simp
  · rcases hr r hr' with h | h | h
    · rw [h] at h1; cases h1
    · exact absurd h h2
    · exact absurd h h3

/-- C94: functions of the documented form are accepted and called as documented. -/
theorem C94_documented (f : UserFn α A) (n : α) (self : A) (s : HG α) (hs : s.Ok) :
    newCustom (some f) = .ok f ∧ ∃ copy, FreshCopy s copy ∧
      (TakesGraph f.sig → f.modifyGraph (some n) self s = f.body none copy) ∧
      (TakesSelfAndGraph f.sig → f.modifyGraph (some n) self s = f.body (some self) copy) := by
  obtain ⟨copy, h0, h1, h2, _⟩ := C94_call f n self s hs
  refine ⟨rfl, copy, h0, fun h => ?_, fun h => ?_⟩
  · have ⟨_, _, _, _, _, hn⟩ := h
    exact (h1 hn).1 (accepts_graph h)
  · have ⟨p, q, rest, e, hp, _⟩ := h
    exact (h2 p (q :: rest) e hp).1 (accepts_self h)

/-- C94: what is not callable is rejected by the constructor, and a condition without owner
cannot be applied. -/
theorem C94_rejected (f : UserFn α A) (self : A) (s : HG α) :
    newCustom (none : Option (UserFn α A)) = .error .conditionError ∧
      f.modifyGraph none self s = .error .conditionError := ⟨rfl, rfl⟩

/-- C94: a function that changes only the sets of the graph it is given changes no set of
the graph the condition is applied to. -/
theorem C94_argument (f : UserFn α A) (n : α) (self : A) (s t : HG α) (hs : s.Ok)
    (hf : ChangesOnlyItsGraph f) (h : f.modifyGraph (some n) self s = .ok t) :
    (⟨t.heap, s.graph⟩ : HG α).value = s.value := by
  have hc := clone_fresh hs
  have hb : ∃ o, f.body o s.clone = .ok t := by
    unfold UserFn.modifyGraph UserFn.process at h
    simp only at h
    split at h
    · split at h
      · cases h
      · split at h
        · exact ⟨_, h⟩
        · cases h
    · split at h
      · exact ⟨_, h⟩
      · cases h
  obtain ⟨o, hb⟩ := hb
  have C := HG.clone_spec hs
  obtain ⟨l, hl⟩ := C.grows
  have key : ∀ a, a < s.heap.length → t.heap.read a = s.heap.read a := by
    intro a ha
    rw [hf o s.clone t hb a (fun n e => Nat.lt_irrefl _ (Nat.lt_of_lt_of_le ha (hc.fresh n a e).1))
      (by rw [hl, List.length_append]; omega)]
    exact hc.kept a ha
  unfold HG.value
  apply List.map_congr_left
  intro p hp
  rw [key p.2 (hs.bound p.1 p.2 (Dict.get?_of_mem hs.wf hp))]

/-- C94: in a scheduler, after any history without exceptions in which the graph is `g`:
adding the condition makes the graph that the function returns for a copy of `g`; if the
function raises so does the addition. -/
theorem C94_scheduler (mode : Mode) (base : Graph α) (st : Store α κ) (ow : OId → Option α)
    (ops : List (SchedOp α κ W)) (s : Stack α κ W) (hq : Quiet (Stack.new mode base st ow) ops s)
    (g : Graph α) (hg : s.readGraph.2 = .ok g) (hw : Dict.WF g) (o : OId)
    (ho : ∀ e ∈ ops.flatMap SchedOp.adds, e.2.o ≠ o) (f : UserFn α A) (attrs : α → A) (n : α)
    (hf : TakesGraph f.sig ∨ TakesSelfAndGraph f.sig) :
    ∃ copy self, copy.value = g ∧
      (∀ t, f.body self copy = .ok t →
        ∃ s1, s.addCondition n (.structural (f.toSCond attrs o)) = (s1, none) ∧
          s1.readGraph.2 = .ok t.value) ∧
      (∀ e, f.body self copy = .error e →
        (s.addCondition n (.structural (f.toSCond attrs o))).2 = some e) ∧
      (TakesGraph f.sig → self = none) ∧ (TakesSelfAndGraph f.sig → self = some (attrs n)) := by
  have hG := (GInv.new base mode st ow).quiet hq
  have hU : Uses ((ops.flatMap SchedOp.adds).map (·.2.o)) s :=
    (uses_new mode base st ow _).quiet (fun e he => List.mem_map.mpr ⟨e, he, rfl⟩) hq
  have hn : (f.toSCond attrs o).o ∉ (ops.flatMap SchedOp.adds).map (·.2.o) := by
    intro h
    obtain ⟨e, he, h⟩ := List.mem_map.mp h
    exact ho e he h
  obtain ⟨a1, a2⟩ := added_graph hG hU hn (n := n) (by simp [UserFn.toSCond]) hg
  obtain ⟨_, copy, hc, h1, h2⟩ := C94_documented f n (attrs n) (HG.load g) (HG.load_ok hw)
  have apart : TakesGraph f.sig → ¬ TakesSelfAndGraph f.sig := by
    rintro ⟨_, _, _, _, _, hn⟩ ⟨p, q, rest, e, hp, _⟩
    exact hn p (by rw [e]; simp) hp
  have main : ∀ self, f.modifyGraph (some n) (attrs n) (HG.load g) = f.body self copy →
      (∀ t, f.body self copy = .ok t →
        ∃ s1, s.addCondition n (.structural (f.toSCond attrs o)) = (s1, none) ∧
          s1.readGraph.2 = .ok t.value) ∧
      (∀ e, f.body self copy = .error e →
        (s.addCondition n (.structural (f.toSCond attrs o))).2 = some e) := by
    intro self hm
    refine ⟨fun t ht => a1 t.value ?_, fun e he => a2 e ?_⟩
    · simp only [UserFn.toSCond, hm, ht]
    · simp only [UserFn.toSCond, hm, he]
  have hv : copy.value = g := by rw [hc.value, HG.load_value]
  rcases hf with hf | hf
  · obtain ⟨m1, m2⟩ := main none (h1 hf)
    exact ⟨copy, none, hv, m1, m2, fun _ => rfl, fun h => absurd h (apart hf)⟩
  · obtain ⟨m1, m2⟩ := main (some (attrs n)) (h2 hf)
    exact ⟨copy, some (attrs n), hv, m1, m2, fun h => absurd hf (apart h), fun _ => rfl⟩

/-- `def f(self, graph): graph[self.owner].clear(); return graph`. -/
def clearOwner : UserFn Nat Nat :=
  { sig := [⟨"self", .positionalOrKeyword, false⟩, ⟨"graph", .positionalOrKeyword, false⟩]
    body := fun o g => match o with
      | some n => .ok (g.upd n fun _ => [])
      | none => .error .typeError }

example : TakesSelfAndGraph clearOwner.sig :=
  ⟨_, _, [], rfl, rfl, .inr rfl, .inr rfl, by simp⟩

example : ChangesOnlyItsGraph clearOwner := by
  intro self g t h a ha _
  cases self with
  | none => cases h
  | some n =>
    cases h
    unfold HG.upd
    split
    · next b hb =>
      unfold Heap.read
      rw [List.getElem?_set_ne (fun e => ha n (by rw [hb, e]))]
    · rfl

example : ((afterOps freshStack someOps).addCondition 2
    (.structural (clearOwner.toSCond id 7))).1.readGraph.2 = .ok [(0, []), (1, [0]), (2, [])] := by
  decide +kernel

end GS.Props
