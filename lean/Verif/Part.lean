import Verif.Spec.Part
import Verif.Props.CondTime
import Verif.CutLasting
/-!
# Lemmas: a part of a scheduler that nothing outside it influences
-/

set_option linter.unusedSectionVars false

namespace GS
open Spec TimeScale
variable {α κ W : Type _} [DecidableEq α] [DecidableEq κ]
variable {X : α → Bool} {id : Option κ} {s s' t t' : Sys α κ W}
variable {a : RunArgs α κ W} {abs : Bool}

/-! ## Evaluation -/

/-- Not an increment of the consideration set execution. -/
def coarse (ts : TimeScale) : Bool := decide (ts ≠ consideration_set_execution)

theorem filter_takeWhile {β : Type _} (p r : β → Bool) (l : List β) (h : ∀ x, p x = false → r x = true) :
    (l.filter p).takeWhile r = (l.takeWhile r).filter p := by
  induction l with
  | nil => rfl
  | cons x l ih =>
    cases hp : p x with
    | false =>
      rw [List.filter_cons_of_neg (by simp [hp]), ih, List.takeWhile_cons, h x hp, if_pos rfl,
        List.filter_cons_of_neg (by simp [hp])]
    | true =>
      rw [List.filter_cons_of_pos hp, List.takeWhile_cons, List.takeWhile_cons]
      cases hr : r x with
      | false => rfl
      | true => simp [hp, ih]

theorem count_filter_of {l : List TimeScale} {q : TimeScale} (hq : coarse q = true) :
    (l.filter coarse).count q = l.count q := List.count_filter hq

theorem elapsed_coarse (log : List TimeScale) {ts q : TimeScale} (hq : coarse q = true)
    (hts : consideration_set_execution.val < ts.val) :
    elapsed (log.filter coarse) ts q = elapsed log ts q := by
  unfold elapsed
  rw [← List.filter_reverse, filter_takeWhile _ _ _ ?_, count_filter_of hq]
  intro x hx
  simp [coarse] at hx
  subst hx; simpa using hts

theorem field_coarse (log : List TimeScale) {q : TimeScale} (hq : coarse q = true) :
    field (log.filter coarse) q = field log q := by
  unfold field
  rw [← List.filter_reverse, filter_takeWhile _ _ _ ?_, count_filter_of hq]
  intro x hx
  simp [coarse] at hx
  subst hx
  revert hq; cases q <;> simp [coarse, val]

theorem part_clock (h : PartAgrees X id s t) {q ts : TimeScale} (hq : q.val < ts.val)
    (hq' : coarse q = true) :
    (t.clock id).getTotalTimesRelative q ts = (s.clock id).getTotalTimesRelative q ts := by
  obtain ⟨log, log', h1, h2, h3⟩ := h.clock
  have hv : consideration_set_execution.val < q.val := by
    revert hq'; cases q <;> simp [coarse, val]
  have hr : Props.Recorded ts := by
    revert hv hq; cases ts <;> cases q <;> simp [val, Props.Recorded]
  rw [Props.clock_elapsed h1 hr hq, Props.clock_elapsed h2 hr hq,
    ← elapsed_coarse log hq' (Nat.lt_trans hv hq), ← elapsed_coarse log' hq' (Nat.lt_trans hv hq)]
  have h3 : log'.filter coarse = log.filter coarse := h3
  rw [h3]

theorem part_sequence (h : PartAgrees X id s t) :
    (t.clock id).time.at_ environment_sequence = (s.clock id).time.at_ environment_sequence := by
  obtain ⟨log, log', h1, h2, h3⟩ := h.clock
  have h3 : log'.filter coarse = log.filter coarse := h3
  obtain ⟨_, _, e1⟩ := shows_iff.1 h1
  obtain ⟨_, _, e2⟩ := shows_iff.1 h2
  rw [e1, e2, ← field_coarse log (by rfl), ← field_coarse log' (by rfl), h3]

theorem part_total (h : PartAgrees X id s t) {d : α} (hd : X d = true) (ts : TimeScale) :
    t.total id ts d = s.total id ts d := by
  obtain ⟨f, f', h1, h2, h3⟩ := h.total
  obtain ⟨n1, n2⟩ := h.nodes d hd
  unfold View.total
  rw [h1, h2]
  simp [n1, n2, h3 ts d hd]

theorem part_useable (h : PartAgrees X id s t) {d o : α} (hd : X d = true) (ho : X o = true) :
    t.useable id d (some o) = s.useable id d (some o) := by
  obtain ⟨f, f', h1, h2, h3⟩ := h.useable
  obtain ⟨n1, n2⟩ := h.nodes d hd
  obtain ⟨m1, m2⟩ := h.nodes o ho
  unfold View.useable
  rw [h1, h2]
  simp [n1, n2, m1, m2, h3 d o hd ho]

theorem evalLeaf_part (h : PartAgrees X id s t) (hw : SameWorld X s.world t.world) {k : Leaf α κ W}
    (hk : PartLeaf X k) {o : α} (ho : X o = true) :
    evalLeaf t.toView id (some o) k = evalLeaf s.toView id (some o) k := by
  have hcall : ∀ ts d f, X d = true → callCount t.toView id ts d f = callCount s.toView id ts d f := by
    intro ts d f hd; unfold callCount; rw [part_total h hd]
  have hrel : ∀ (q ts : TimeScale) f, q.val < ts.val → coarse q = true →
      relTime t.toView id q ts f = relTime s.toView id q ts f := by
    intro q ts f h1 h2; unfold relTime; rw [part_clock h h1 h2]
  have hfin : ∀ d, X d = true → isFinished t.toView id d = isFinished s.toView id d := by
    intro d hd; unfold isFinished; rw [hw.finished d id hd]
  cases k with
  | always => rfl
  | never => rfl
  | func f => exact hk _ _ _ _ hw
  | beforePass n ts => simp only [evalLeaf]; exact hrel _ _ _ hk rfl
  | atPass n ts => simp only [evalLeaf]; exact hrel _ _ _ hk rfl
  | afterPass n ts => simp only [evalLeaf]; exact hrel _ _ _ hk rfl
  | afterNPasses n ts => simp only [evalLeaf]; exact hrel _ _ _ hk rfl
  | everyNPasses n ts => simp only [evalLeaf]; rw [part_clock h hk rfl]
  | beforeEnvironmentStateUpdate n ts => simp only [evalLeaf]; exact hrel _ _ _ hk rfl
  | atEnvironmentStateUpdate n ts => simp only [evalLeaf]; exact hrel _ _ _ hk rfl
  | afterEnvironmentStateUpdate n ts => simp only [evalLeaf]; exact hrel _ _ _ hk rfl
  | afterNEnvironmentStateUpdates n ts => simp only [evalLeaf]; exact hrel _ _ _ hk rfl
  | atEnvironmentSequence n => simp only [evalLeaf, part_sequence h]
  | afterEnvironmentSequence n => simp only [evalLeaf, part_sequence h]
  | afterNEnvironmentSequences n => simp only [evalLeaf, part_sequence h]
  | beforeNCalls d n ts => simp only [evalLeaf]; exact hcall _ _ _ hk
  | atNCalls d n ts => simp only [evalLeaf]; exact hcall _ _ _ hk
  | afterCall d n ts => simp only [evalLeaf]; exact hcall _ _ _ hk
  | afterNCalls d n ts => simp only [evalLeaf]; exact hcall _ _ _ hk
  | afterNCallsCombined ds n ts =>
    have : ∀ ds : List α, (∀ d ∈ ds, X d = true) →
        sumCalls t.toView id ts ds = sumCalls s.toView id ts ds := by
      intro ds hds
      induction ds with
      | nil => rfl
      | cons d ds ih =>
        simp only [sumCalls]
        rw [part_total h (hds d List.mem_cons_self), ih fun x hx => hds x (List.mem_cons_of_mem _ hx)]
    simp only [evalLeaf, this ds hk]
  | everyNCalls d n => simp only [evalLeaf]; rw [part_useable h hk ho]
  | allHaveRun ds ts =>
    have : ∀ ds : List α, (∀ d ∈ ds, X d = true) →
        allHaveRunFunc t.toView id ts ds = allHaveRunFunc s.toView id ts ds := by
      intro ds hds
      induction ds with
      | nil => rfl
      | cons d ds ih =>
        simp only [allHaveRunFunc]
        rw [part_total h (hds d List.mem_cons_self), ih fun x hx => hds x (List.mem_cons_of_mem _ hx)]
    simp only [evalLeaf, hk.1, if_false, this ds hk.2]
  | whenFinished d => simp only [evalLeaf]; exact hfin d hk
  | whenFinishedAny ds =>
    have : ∀ ds : List α, (∀ d ∈ ds, X d = true) →
        finishedAny t.toView id ds = finishedAny s.toView id ds := by
      intro ds hds
      induction ds with
      | nil => rfl
      | cons d ds ih =>
        simp only [finishedAny]
        rw [hfin d (hds d List.mem_cons_self), ih fun x hx => hds x (List.mem_cons_of_mem _ hx)]
    simp only [evalLeaf, hk.1, if_false, this ds hk.2]
  | whenFinishedAll ds =>
    have : ∀ ds : List α, (∀ d ∈ ds, X d = true) →
        finishedAll t.toView id ds = finishedAll s.toView id ds := by
      intro ds hds
      induction ds with
      | nil => rfl
      | cons d ds ih =>
        simp only [finishedAll]
        rw [hfin d (hds d List.mem_cons_self), ih fun x hx => hds x (List.mem_cons_of_mem _ hx)]
    simp only [evalLeaf, hk.1, if_false, this ds hk.2]
  | threshold d p thr cmp ix at_ rt g =>
    have e : getParameterValue t.world id d p g = getParameterValue s.world id d p g := by
      cases g with
      | none => exact hw.attr d p hk
      | some g => exact hw.getter g d p id hk
    simp only [evalLeaf, thresholdValue, e]
  | _ => exact hk.elim

mutual
theorem eval_part (h : PartAgrees X id s t) (hw : SameWorld X s.world t.world) :
    ∀ (c c' : Cond α κ W) (st st' : Store α κ), SamePart X st.owner st'.owner c c' →
      (eval t.toView id c' st').1 = (eval s.toView id c st).1
  | .leaf o k, .leaf o' k', st, st', hk => by
    obtain ⟨rfl, h1, rfl | ⟨h2, n, h3, h4⟩⟩ := hk
    · rfl
    · show evalLeaf _ _ (st'.owner o') _ = evalLeaf _ _ (st.owner o) _
      rw [h2, h3]
      exact evalLeaf_part h hw h1 h4
  | .all o cs, .all o' cs', st, st', hk => evalAll_part h hw cs cs' st st' hk
  | .any o cs, .any o' cs', st, st', hk => evalAny_part h hw cs cs' st st' hk
  | .not o c, .not o' c', st, st', hk => by
    show notResult _ = notResult _
    rw [eval_part h hw c c' st st' hk]
  | .whileNot o f, .whileNot o' f', st, st', hk => by
    obtain ⟨rfl, h1, h2⟩ := hk
    show notResult (f' t.toView id (st'.owner o')) = notResult (f' s.toView id (st.owner o))
    rw [h2, h1 s.toView t.toView id _ hw]
  | .nwhen .., _, _, _, hk => by simp [SamePart] at hk
  | .whileNot .., .nwhen .., _, _, hk => by simp [SamePart] at hk
  | .whileNot .., .leaf .., _, _, hk => by simp [SamePart] at hk
  | .whileNot .., .all .., _, _, hk => by simp [SamePart] at hk
  | .whileNot .., .any .., _, _, hk => by simp [SamePart] at hk
  | .whileNot .., .not .., _, _, hk => by simp [SamePart] at hk
  | .leaf .., .nwhen .., _, _, hk => by simp [SamePart] at hk
  | .leaf .., .whileNot .., _, _, hk => by simp [SamePart] at hk
  | .leaf .., .all .., _, _, hk => by simp [SamePart] at hk
  | .leaf .., .any .., _, _, hk => by simp [SamePart] at hk
  | .leaf .., .not .., _, _, hk => by simp [SamePart] at hk
  | .all .., .nwhen .., _, _, hk => by simp [SamePart] at hk
  | .all .., .whileNot .., _, _, hk => by simp [SamePart] at hk
  | .all .., .leaf .., _, _, hk => by simp [SamePart] at hk
  | .all .., .any .., _, _, hk => by simp [SamePart] at hk
  | .all .., .not .., _, _, hk => by simp [SamePart] at hk
  | .any .., .nwhen .., _, _, hk => by simp [SamePart] at hk
  | .any .., .whileNot .., _, _, hk => by simp [SamePart] at hk
  | .any .., .leaf .., _, _, hk => by simp [SamePart] at hk
  | .any .., .all .., _, _, hk => by simp [SamePart] at hk
  | .any .., .not .., _, _, hk => by simp [SamePart] at hk
  | .not .., .nwhen .., _, _, hk => by simp [SamePart] at hk
  | .not .., .whileNot .., _, _, hk => by simp [SamePart] at hk
  | .not .., .leaf .., _, _, hk => by simp [SamePart] at hk
  | .not .., .all .., _, _, hk => by simp [SamePart] at hk
  | .not .., .any .., _, _, hk => by simp [SamePart] at hk
theorem evalAll_part (h : PartAgrees X id s t) (hw : SameWorld X s.world t.world) :
    ∀ (cs cs' : List (Cond α κ W)) (st st' : Store α κ), SameParts X st.owner st'.owner cs cs' →
      (evalAll t.toView id cs' st').1 = (evalAll s.toView id cs st).1
  | [], [], _, _, _ => rfl
  | [], _ :: _, _, _, hk => by simp [SameParts] at hk
  | _ :: _, [], _, _, hk => by simp [SameParts] at hk
  | c :: cs, c' :: cs', st, st', hk => by
    simp only [SameParts] at hk
    have k := eval_part h hw c c' st st' hk.1
    simp only [evalAll]
    rcases e : eval s.toView id c st with ⟨r, u⟩
    rcases e' : eval t.toView id c' st' with ⟨r', u'⟩
    have o1 := (eval_store' e).owner
    have o2 := (eval_store' e').owner
    rw [e, e'] at k
    dsimp only at k
    subst k
    rcases r' with x | x
    · rfl
    · cases x
      · rfl
      · exact evalAll_part h hw cs cs' u u' (by rw [o1, o2]; exact hk.2)
theorem evalAny_part (h : PartAgrees X id s t) (hw : SameWorld X s.world t.world) :
    ∀ (cs cs' : List (Cond α κ W)) (st st' : Store α κ), SameParts X st.owner st'.owner cs cs' →
      (evalAny t.toView id cs' st').1 = (evalAny s.toView id cs st).1
  | [], [], _, _, _ => rfl
  | [], _ :: _, _, _, hk => by simp [SameParts] at hk
  | _ :: _, [], _, _, hk => by simp [SameParts] at hk
  | c :: cs, c' :: cs', st, st', hk => by
    simp only [SameParts] at hk
    have k := eval_part h hw c c' st st' hk.1
    simp only [evalAny]
    rcases e : eval s.toView id c st with ⟨r, u⟩
    rcases e' : eval t.toView id c' st' with ⟨r', u'⟩
    have o1 := (eval_store' e).owner
    have o2 := (eval_store' e').owner
    rw [e, e'] at k
    dsimp only at k
    subst k
    rcases r' with x | x
    · rfl
    · cases x
      · exact evalAny_part h hw cs cs' u u' (by rw [o1, o2]; exact hk.2)
      · rfl
end

end GS
