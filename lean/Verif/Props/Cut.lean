import Verif.CutLasting
import Verif.Props.Order
import Verif.Props.Demo
/-!
# C71: termination conditions only decide when a run ends
-/

set_option linter.unusedSectionVars false

namespace GS.Props
open Spec
variable {α κ W : Type _} [DecidableEq α] [DecidableEq κ]
variable {a a' : RunArgs α κ W} {abs abs' : Bool} {s s' s0 : Sys α κ W}
variable {w : List (List α) → World α κ W} {h h' : History α κ W} {pc pc' : PC α} {n m : Nat}

/-- The objects in the conditions of nodes. -/
def nodeObjects (s : Sys α κ W) (o : OId) : Prop :=
  ∃ n c, Dict.get? s.conds n = some c ∧ Occurs o c

theorem harmless_apart (h : EndApart s a) : Harmless (nodeObjects s) a := by
  intro v st
  refine ⟨eval_outside _ _ _ _ _ ?_, eval_outside _ _ _ _ _ ?_⟩
  · rintro o ho ⟨n, c, hc, k⟩; exact (h n c hc).1 o k ho
  · rintro o ho ⟨n, c, hc, k⟩; exact (h n c hc).2 o k ho

theorem harmless_lasting {P : Nat → Prop} (h : LastingEnd a) : Harmless P a := by
  intro v st
  rw [plain_store (lasting_plain _ h.1), plain_store (lasting_plain _ h.2)]
  exact ⟨.refl _ _, .refl _ _⟩

theorem unended_start (h : Unended w a s0 abs n hist s pc) : s0.start a = ((s0.start a).1, .ok abs) := by
  induction h with
  | start hs => rw [hs]
  | step _ _ _ ih => exact ih

/-- Every run without end is longer than its beginnings. -/
theorem unended_prefix (hr : Unended w a s0 abs m h s pc) (hn : n ≤ m) :
    ∃ h1 s1 pc1, Unended w a s0 abs n h1 s1 pc1 ∧ h1 <+: h := by
  induction hr with
  | start hs =>
    have : n = 0 := by omega
    subst this
    exact ⟨_, _, _, .start hs, List.prefix_refl _⟩
  | @step m h s t pc pc' ev hr hg hst ih =>
    by_cases e : n = m + 1
    · subst e
      exact ⟨_, _, _, .step hr hg hst, List.prefix_refl _⟩
    · obtain ⟨h1, s1, pc1, k1, k2⟩ := ih (by omega)
      exact ⟨h1, s1, pc1, k1, k2.trans (List.prefix_append ..)⟩

/-- C71: consider two runs of a scheduler with different termination conditions, the same
consumer, and no object shared between termination conditions and conditions of nodes. As long
as the termination conditions are satisfied in neither run, the two runs are the same: after
as many steps they have gone through the same events, and everything that can be seen of the
scheduler is the same. -/
theorem C71_until (ha : SameButEnd a a') (h1 : EndApart (s0.start a).1 a)
    (h2 : EndApart (s0.start a).1 a') (hr : Unended w a s0 abs n h s pc)
    (hr' : Unended w a' s0 abs' n h' s' pc') :
    abs' = abs ∧ pc' = pc ∧ h'.map Entry.ev = h.map Entry.ev ∧ yields h' = yields h ∧
      s'.toView = s.toView := by
  obtain ⟨k1, k2, k3, k4⟩ := hr.same ha (unended_start hr) (P := nodeObjects (s0.start a).1)
    (fun n c hc o ho => ⟨n, c, hc, ho⟩) (harmless_apart h1) (harmless_apart h2) hr'
  exact ⟨k1, k2, k3, by rw [yields_events, yields_events, k3], k4.view⟩

/-- C71: in particular, of two such runs the one with fewer steps has yielded a prefix of what
the other one has yielded. -/
theorem C71_until_prefix (ha : SameButEnd a a') (h1 : EndApart (s0.start a).1 a)
    (h2 : EndApart (s0.start a).1 a') (hr : Unended w a s0 abs n h s pc)
    (hr' : Unended w a' s0 abs' m h' s' pc') (hn : n ≤ m) : yields h <+: yields h' := by
  obtain ⟨h3, s3, pc3, k1, k2⟩ := unended_prefix hr' hn
  rw [← (C71_until ha h1 h2 hr k1).2.2.2.1]
  exact k2.filterMap _

/-- C71 for termination conditions that stay satisfied until the end of a pass (combinations
of built-in conditions that count calls over coarse time scales, of `After...` conditions, and
of conditions about finished nodes and attributes): whatever the run yields, the same run
without an end (its termination conditions are `Never()`) yields, too. -/
theorem C71_never_ending (hl : LastingEnd a) (ho : ∀ c ∈ a.others, c.isAbsolute = false)
    {log0 : List TimeScale} (h0 : Shows (s0.clock a.id) log0)
    (hr : Scripted w a s0 abs h s pc) :
    ∃ h' s' pc', Scripted w (unending a) s0 abs h' s' pc' ∧ yields h' = yields h := by
  have key : ∀ {n h s pc}, Unended w a s0 abs n h s pc →
      ∃ h' s' pc', Scripted w (unending a) s0 abs h' s' pc' ∧ yields h' = yields h := by
    intro n h s pc hr
    obtain ⟨h', s', k1, k2, _⟩ := hr.forever (a := a) (a' := unending a) (P := fun _ => True)
      ⟨rfl, rfl, rfl, ⟨lasting_absolute _ hl.1, lasting_absolute _ hl.2, ho⟩,
        ⟨rfl, rfl, fun c hc => by cases hc⟩⟩
      (unended_start hr) (fun _ _ _ _ _ => trivial) (harmless_lasting hl)
      (harmless_lasting ⟨.inl trivial, .inl trivial⟩) (fun s => ⟨s.store, s.store, rfl, rfl⟩)
    exact ⟨h', s', pc, k1.scripted, by rw [yields_events, yields_events, k2]⟩
  rcases hr.cut hl h0 with ⟨n, hn⟩ | ⟨_, n, h1, s1, pc1, hn, hy, _⟩
  · exact key hn
  · obtain ⟨h', s', pc', k1, k2⟩ := key hn
    exact ⟨h', s', pc', k1, k2.trans hy⟩

/-- C71: with two such pairs of termination conditions, what one run yields is a prefix of
what the other one yields. -/
theorem C71_comparable (ha : SameButEnd a a') (hl : LastingEnd a) (hl' : LastingEnd a')
    {log0 : List TimeScale} (h0 : Shows (s0.clock a.id) log0)
    (hr : Scripted w a s0 abs h s pc) (hr' : Scripted w a' s0 abs' h' s' pc') :
    yields h <+: yields h' ∨ yields h' <+: yields h := by
  have un : ∀ {a : RunArgs α κ W} {abs h s pc}, LastingEnd a → Shows (s0.clock a.id) log0 →
      Scripted w a s0 abs h s pc →
      ∃ n h1 s1 pc1, Unended w a s0 abs n h1 s1 pc1 ∧ yields h1 = yields h := by
    intro a abs h s pc hl h0 hr
    rcases hr.cut hl h0 with ⟨n, hn⟩ | ⟨_, k⟩
    · exact ⟨n, _, _, _, hn, rfl⟩
    · obtain ⟨n, h1, s1, pc1, k1, k2, _⟩ := k
      exact ⟨n, h1, s1, pc1, k1, k2⟩
  obtain ⟨n, h1, s1, pc1, k1, e1⟩ := un hl h0 hr
  obtain ⟨m, h2, s2, pc2, k2, e2⟩ := un hl' (by rw [ha.id]; exact h0) hr'
  rw [← e1, ← e2]
  have eq : ∀ {n h1 s1 pc1 h2 s2 pc2}, Unended w a s0 abs n h1 s1 pc1 →
      Unended w a' s0 abs' n h2 s2 pc2 → yields h2 = yields h1 := by
    intro n h1 s1 pc1 h2 s2 pc2 k1 k2
    obtain ⟨_, _, k3, _⟩ := k1.same ha (unended_start k1) (P := fun _ => True)
      (fun _ _ _ _ _ => trivial) (harmless_lasting hl) (harmless_lasting hl') k2
    rw [yields_events, yields_events, k3]
  rcases Nat.le_total n m with hnm | hnm
  · obtain ⟨h3, s3, pc3, k3, p3⟩ := unended_prefix k2 hnm
    rw [← eq k1 k3]
    exact .inl (p3.filterMap _)
  · obtain ⟨h3, s3, pc3, k3, p3⟩ := unended_prefix k1 hnm
    rw [eq k3 k2]
    exact .inr (p3.filterMap _)

theorem unsatisfied_done {st : Store α κ} (hu : Unsatisfied s a) : ¬ Done s a st := by
  obtain ⟨st1, st2, h1, h2⟩ := hu
  rintro (h | ⟨st3, h, h'⟩)
  · rw [h1] at h; cases h
  · rw [h1] at h; cases h; rw [h2] at h'; cases h'

/-- C71: a run with such termination conditions that has returned yielded what it had yielded
when they were asked and, for the first time, were not unsatisfied. -/
theorem C71_returned (hl : LastingEnd a) {log0 : List TimeScale}
    (h0 : Shows (s0.clock a.id) log0) (hr : Scripted w a s0 abs h s .returned) :
    ∃ n h1 s1 pc1, Unended w a s0 abs n h1 s1 pc1 ∧ ¬ GoesOn a s1 pc1 ∧ yields h1 = yields h := by
  rcases hr.cut hl h0 with ⟨n, hn⟩ | ⟨_, n, h1, s1, pc1, hn, hy, hng⟩
  · exfalso
    clear hr
    generalize hp : (PC.returned : PC α) = p at hn
    induction hn with
    | start hs => cases hp
    | @step n h s t pc pc' ev hr hg hst ih =>
      subst hp
      generalize Spec.resumed w (yields h) s pc = s at hst hg
      cases Sys.step_stepR hst with
      | stopSkip hd => exact absurd hd (unsatisfied_done hg)
      | stopIncr hd => exact absurd hd (unsatisfied_done hg)
      | returned => exact ih rfl
  · exact ⟨n, h1, s1, pc1, hn, hng, hy⟩

/-! ## A termination condition about the pass -/

/-- One node without conditions. -/
def oneNode : Sys Nat Nat Unit := Sys.new [(0, [])] .standard none 1 demoWorld

/-- `run` with the termination condition `All(BeforeNCalls(0, 1, time_scale=PASS),
AfterNCalls(0, 1))`: it is not satisfied when a pass has just ended, and satisfied when the
next pass has just begun. -/
def passArgs : RunArgs Nat Nat Unit :=
  { demoArgs with
    esu := .all 10 [.leaf 12 (.beforeNCalls 0 1 .pass),
      .leaf 13 (.afterNCalls 0 1 .environment_state_update)] }

/-- C71 is false for other termination conditions: the run may yield an empty set, because it
is cut short before any node of the pass was considered, that the run without an end does not
yield. -/
theorem C71_extra_empty :
    ∃ (s0 s : Sys Nat Nat Unit) (a : RunArgs Nat Nat Unit) (h : History Nat Nat Unit),
      Scripted constWorld a s0 false h s .returned ∧ yields h = [[0], []] ∧
      ∀ abs h' s' pc', Scripted constWorld (unending a) s0 abs h' s' pc' →
        ¬ [[0], []] <+: yields h' := by
  have k1 := scriptAfter_scripted (w := constWorld) (a := passArgs) (s0 := oneNode)
    (abs := false) (by decide +kernel) 20
  have e1 : (scriptAfter constWorld passArgs oneNode 20).2.2 = .returned := by decide +kernel
  have e2 : yields (scriptAfter constWorld passArgs oneNode 20).1 = [[0], []] := by decide +kernel
  rw [e1] at k1
  refine ⟨oneNode, _, passArgs, _, k1, e2, ?_⟩
  intro abs h' s' pc' hr hp
  have k2 := scriptAfter_scripted (w := constWorld) (a := unending passArgs) (s0 := oneNode)
    (abs := false) (by decide +kernel) 14
  have e3 : yields (scriptAfter constWorld (unending passArgs) oneNode 14).1 = [[0], [0]] := by
    decide +kernel
  have hl : LastingEnd (unending passArgs) := ⟨.inl trivial, .inl trivial⟩
  have hp' : NoAbsoluteEnd (unending passArgs) := ⟨rfl, rfl, fun c hc => by cases hc⟩
  have h0 : Shows (oneNode.clock (unending passArgs).id) [] := Shows.new
  have k3 := C71_comparable ⟨rfl, rfl, rfl, hp', hp'⟩ hl hl h0 hr k2
  rw [e3] at k3
  rcases k3 with k3 | k3
  · have := hp.trans k3
    revert this; decide
  · obtain ⟨x, hx⟩ := hp
    obtain ⟨y, hy⟩ := k3
    rw [← hx] at hy
    revert hy; simp

/-! ## Examples -/

/-- `AfterNPasses(3)` and `Never()`. -/
def threePasses : RunArgs Nat Nat Unit :=
  { demoArgs with esu := .leaf 10 (.afterNPasses 3 .environment_state_update) }

/-- Both pairs of termination conditions are lasting; the default one ends the run after two
passes, the other one after three. -/
example : SameButEnd demoArgs threePasses ∧ LastingEnd demoArgs ∧ LastingEnd threePasses ∧
    Shows (demo.clock demoArgs.id) [] ∧
    (∀ k, Scripted constWorld demoArgs demo false (scriptAfter constWorld demoArgs demo k).1
      (scriptAfter constWorld demoArgs demo k).2.1 (scriptAfter constWorld demoArgs demo k).2.2) ∧
    (∀ k, Scripted constWorld threePasses demo false (scriptAfter constWorld threePasses demo k).1
      (scriptAfter constWorld threePasses demo k).2.1
      (scriptAfter constWorld threePasses demo k).2.2) ∧
    yields (scriptAfter constWorld demoArgs demo 60).1 = [[0], [1], [0], [1, 2]] ∧
    (scriptAfter constWorld demoArgs demo 60).2.2 = .returned ∧
    yields (scriptAfter constWorld threePasses demo 60).1 =
      [[0], [1], [0], [1, 2], [0], [1]] ∧
    (scriptAfter constWorld threePasses demo 60).2.2 = .returned := by
  refine ⟨⟨rfl, rfl, rfl, ⟨rfl, rfl, fun c hc => by cases hc⟩, ⟨rfl, rfl, fun c hc => by cases hc⟩⟩,
    ⟨.inl (by decide : TimeScale.pass.val < TimeScale.environment_state_update.val), .inl trivial⟩,
    ⟨.inr (by decide : TimeScale.pass.val < TimeScale.environment_state_update.val), .inl trivial⟩,
    Shows.new, fun k => scriptAfter_scripted (by decide +kernel) k,
    fun k => scriptAfter_scripted (by decide +kernel) k, ?_, ?_, ?_, ?_⟩ <;> decide +kernel

/-- Termination conditions apart from those of nodes, and runs in which they are not
satisfied: the first steps of two runs of `oneNode`. -/
example : SameButEnd passArgs demoArgs ∧ EndApart (oneNode.start passArgs).1 passArgs ∧
    EndApart (oneNode.start passArgs).1 demoArgs ∧
    (∃ h s, Unended constWorld passArgs oneNode false 2 h s
      (.choosing ⟨0, false, [0], [], [0], false⟩)) ∧
    (∃ h s, Unended constWorld demoArgs oneNode false 2 h s
      (.choosing ⟨0, false, [0], [], [0], false⟩)) := by
  have e : (oneNode.start passArgs).1.conds = [(0, .leaf 0 .always)] := rfl
  have key : ∀ a : RunArgs Nat Nat Unit, (∀ o, Occurs o a.esu → o ≠ 0) →
      (∀ o, Occurs o a.seq → o ≠ 0) → EndApart (oneNode.start passArgs).1 a := by
    intro a h1 h2 n c hc
    rw [e, Dict.get?] at hc
    split at hc
    · cases hc
      exact ⟨fun o ho k => h1 o k ho, fun o ho k => h2 o k ho⟩
    · cases hc
  refine ⟨⟨rfl, rfl, rfl, ⟨rfl, rfl, fun c hc => by cases hc⟩,
    ⟨rfl, rfl, fun c hc => by cases hc⟩⟩, key _ ?_ ?_, key _ ?_ ?_,
    ⟨_, _, .step (.step (.start rfl) ⟨_, _, rfl, rfl⟩ rfl) (fun _ => ⟨_, _, rfl, rfl⟩) rfl⟩,
    ⟨_, _, .step (.step (.start rfl) ⟨_, _, rfl, rfl⟩ rfl) (fun _ => ⟨_, _, rfl, rfl⟩) rfl⟩⟩
  · rintro o (rfl | rfl | rfl | h) <;> first | decide | exact h.elim
  · rintro o rfl; decide
  · rintro o rfl; decide
  · rintro o rfl; decide

end GS.Props
