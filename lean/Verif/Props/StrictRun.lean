import Verif.StrictRun
import Verif.Props.Strict
import Verif.Props.Reference
/-!
# C127: starting a run, and making a `Threshold`, when warnings raise
-/

set_option linter.unusedSectionVars false

namespace GS.Props
open Spec
variable {α κ W : Type _} [DecidableEq α] [DecidableEq κ]
variable {s t : Sys α κ W} {a : RunArgs α κ W} {structural : Bool}

/-- No node without a condition is its own sender. -/
def NoOwnSender (s : Sys α κ W) : Prop :=
  ∀ n ∈ s.nodes, Dict.get? s.conds n = none → ∀ ds, Dict.get? s.graph n = some ds → n ∉ ds

/-- The result of a call when no warning was given. -/
def plainly {β : Type _} : Except Err β → Except (Failure α) β
  | .ok b => .ok b
  | .error e => .error (.err e)

theorem validateRunStateS_plain (h : ∀ w, (s.validateRunStateS structural).2 ≠ some (.warned w)) :
    s.validateRunStateS structural = (s.validateRunState.1, Sys.orErr s.validateRunState.2) := by
  revert h
  unfold Sys.validateRunStateS Sys.validateRunState
  cases toposort s.graph with
  | error e => intro _; rfl
  | ok q =>
    dsimp only
    rcases hv : Sys.validateConditionsS s.nodes s with ⟨s', _ | f⟩
    · intro h
      have k := Sys.validateConditionsS_plain s.nodes s (by rw [hv]; intro w e; cases e)
      dsimp only at h ⊢
      split
      · rename_i hx
        rw [if_pos hx] at h
        exact absurd rfl (h _)
      · rw [← k, hv]
    · intro h
      have k := Sys.validateConditionsS_plain s.nodes s (by rw [hv]; exact h)
      dsimp only
      rw [← k, hv]

/-- **C127.** If no warning is due when a run starts, the run starts as it does without the
filter. -/
theorem C127_quiet (hn : NoOwnSender s) (hm : s.mode = .standard ∨ structural = false)
    (a : RunArgs α κ W) :
    s.startS structural a = ((s.start a).1, plainly (s.start a).2) := by
  have h : ∀ w, (s.validateRunStateS structural).2 ≠ some (.warned w) := by
    intro w
    have k := Sys.validateConditionsS_quiet s.nodes s hn w
    unfold Sys.validateRunStateS
    cases toposort s.graph with
    | error e => intro e; cases e
    | ok q =>
      dsimp only
      rcases hv : Sys.validateConditionsS s.nodes s with ⟨s', _ | f⟩
      · have e := (Sys.validateConditionsS_stopped s.nodes s s' _ hv).1
        have e : s'.mode = s.mode := by rw [e]
        dsimp only
        rw [if_neg]
        · intro e; cases e
        · rintro ⟨h1, h2⟩
          rw [e] at h1
          rcases hm with h | h
          · rw [h] at h1; cases h1
          · rw [h] at h2; cases h2
      · rw [hv] at k
        exact k
  unfold Sys.startS Sys.start
  rw [validateRunStateS_plain h]
  rcases s.validateRunState with ⟨s1, _ | e⟩
  · dsimp only [Sys.orErr]
    rcases (s1.getClock a.id).setupAbsolute a with ⟨s2, e | abs⟩
    · rfl
    · dsimp only
      rcases s2.initCounts a.id a.base with ⟨s3, _ | e⟩
      · dsimp only
        cases (s3.resetUseable a.id).resetTotal .environment_state_update a.id <;> rfl
      · rfl
  · rfl

theorem startS_warned {w : Warning α} (h : s.startS structural a = (t, .error (.warned w))) :
    s.validateRunStateS structural = (t, some (.warned w)) := by
  unfold Sys.startS at h
  rcases hv : s.validateRunStateS structural with ⟨s1, _ | f⟩
  · rw [hv] at h
    dsimp only at h
    rcases h2 : (s1.getClock a.id).setupAbsolute a with ⟨s2, e | abs⟩
    · rw [h2] at h; cases h
    · rw [h2] at h
      dsimp only at h
      rcases h3 : s2.initCounts a.id a.base with ⟨s3, _ | e⟩
      · rw [h3] at h
        dsimp only at h
        cases h4 : (s3.resetUseable a.id).resetTotal .environment_state_update a.id <;>
          rw [h4] at h <;> cases h
      · rw [h3] at h; cases h
  · rw [hv] at h
    dsimp only at h
    cases h
    rfl

/-- **C127.** If a warning is raised when a run starts, nothing is lost: counts, clocks, recorded sets
and times and the graph are as before, and so is the condition of every node that had one.  The
warning is the one for structural conditions in exact-time mode, or the one for a node without
condition that is its own sender, which then still has no condition. -/
theorem C127_stopped {w : Warning α} (h : s.startS structural a = (t, .error (.warned w))) :
    t.toView = s.toView ∧ (∀ n c, Dict.get? s.conds n = some c → Dict.get? t.conds n = some c) ∧
    ((w = .exactTime ∧ s.mode = .exactTime ∧ structural = true) ∨
     ∃ o n ds, w = .ownDependency o n ∧ n ∈ s.nodes ∧ Dict.get? t.conds n = none ∧
       Dict.get? s.graph n = some ds ∧ n ∈ ds) := by
  have h := startS_warned h
  unfold Sys.validateRunStateS at h
  cases ht : toposort s.graph with
  | error e => rw [ht] at h; cases h
  | ok q =>
    rw [ht] at h
    dsimp only at h
    rcases hv : Sys.validateConditionsS s.nodes s with ⟨s', _ | f⟩
    · obtain ⟨h1, h2, _⟩ := Sys.validateConditionsS_stopped s.nodes s s' _ hv
      rw [hv] at h
      dsimp only at h
      split at h
      · rename_i hx
        cases h
        exact ⟨h1, h2, .inl ⟨rfl, by rw [← hx.1, h1], hx.2⟩⟩
      · cases h
    · obtain ⟨h1, h2, h3⟩ := Sys.validateConditionsS_stopped s.nodes s s' _ hv
      rw [hv] at h
      dsimp only at h
      cases h
      obtain ⟨o, n, ds, k1, k2, k3, k4, k5, _⟩ := h3 w rfl
      exact ⟨h1, h2, .inr ⟨o, n, ds, k1, k2, k3, k4, k5⟩⟩

/-- **C127.** After the warning for exact-time mode every later run without the filter starts as if
the attempt had not been made. -/
theorem C127_later (h : s.startS structural a = (t, .error (.warned .exactTime)))
    (b : RunArgs α κ W) : t.start b = s.start b := by
  have h := startS_warned h
  have key : s.validateRunState = (t, none) := by
    unfold Sys.validateRunStateS at h
    unfold Sys.validateRunState
    cases ht : toposort s.graph with
    | error e => rw [ht] at h; cases h
    | ok q =>
      rw [ht] at h
      dsimp only at h ⊢
      rcases hv : Sys.validateConditionsS s.nodes s with ⟨s', _ | f⟩
      · have k := Sys.validateConditionsS_plain s.nodes s (by rw [hv]; intro w e; cases e)
        rw [hv] at h k
        dsimp only at h
        split at h
        · cases h
          obtain ⟨e1, e2⟩ := Prod.mk.inj k
          refine Prod.ext e1.symm ?_
          cases hx : (Sys.validateConditions s.nodes s).2 with
          | none => rfl
          | some e => rw [hx] at e2; cases e2
        · cases h
      · obtain ⟨_, _, h3⟩ := Sys.validateConditionsS_stopped s.nodes s s' _ hv
        rw [hv] at h
        dsimp only at h
        cases h
        obtain ⟨o, n, ds, k1, _⟩ := h3 _ rfl
        cases k1
  have idem := Sys.validateRunState_idem s
  rw [key] at idem
  unfold Sys.start
  rw [key, idem]

/-- **C127.** A second attempt under the filter raises a warning of the same kind, for the same
node. -/
theorem C127_again {o : OId} {n : α}
    (h : s.startS structural a = (t, .error (.warned (.ownDependency o n)))) (b : RunArgs α κ W) :
    ∃ o' t', t.startS structural b = (t', .error (.warned (.ownDependency o' n))) := by
  have h := startS_warned h
  unfold Sys.validateRunStateS at h
  cases ht : toposort s.graph with
  | error e => rw [ht] at h; cases h
  | ok q =>
    rw [ht] at h
    dsimp only at h
    rcases hv : Sys.validateConditionsS s.nodes s with ⟨s', _ | f⟩
    · rw [hv] at h
      dsimp only at h
      split at h <;> cases h
    · obtain ⟨h1, h2, h3⟩ := Sys.validateConditionsS_stopped s.nodes s s' _ hv
      rw [hv] at h
      dsimp only at h
      cases h
      obtain ⟨o1, n1, ds, k1, _, _, _, _, k6⟩ := h3 _ rfl
      cases k1
      obtain ⟨o', g⟩ := k6 t h1 rfl
      have eg : t.graph = s.graph := by rw [h1]
      have en : t.nodes = s.nodes := by rw [h1]
      refine ⟨o', (Sys.validateConditionsS s.nodes t).1, ?_⟩
      unfold Sys.startS Sys.validateRunStateS
      rw [eg, ht, en]
      dsimp only
      rcases hw : Sys.validateConditionsS s.nodes t with ⟨t', f⟩
      rw [hw] at g
      have g : f = _ := g
      subst g
      rfl

/-- **C127.** A whole scheduler whose run could start without the filter, and in which no node without
condition is its own sender: under the filter the run raises the warning of exact-time mode if that is
due, and starts as it does without the filter if it is not. -/
theorem C127_whole {w : Whole α κ W} (hw : w.sys = .ok s) (hm : w.rest.mode = w.stack.mode)
    (hn : NoOwnSender s) (hv : s.validateRunState.2 = none) (a : RunArgs α κ W) :
    (w.runWarnings ≠ [] → (w.startS a).2 = .error (.warned .exactTime)) ∧
    (w.runWarnings = [] → w.startS a = (w.after (s.start a).1, plainly (s.start a).2)) := by
  have hmode : s.mode = w.stack.mode := by
    unfold Whole.sys at hw
    split at hw
    · cases hw; exact hm
    · cases hw
    · cases hw
  unfold Whole.startS Whole.runWarnings
  rw [hw]
  dsimp only
  constructor
  · intro h
    split at h
    · rename_i hx
      unfold Sys.startS Sys.validateRunStateS
      unfold Sys.validateRunState at hv
      cases ht : toposort s.graph with
      | error e => rw [ht] at hv; cases hv
      | ok q =>
        rw [ht] at hv
        dsimp only at hv ⊢
        have k := Sys.validateConditionsS_plain s.nodes s (Sys.validateConditionsS_quiet s.nodes s hn)
        rw [hv] at k
        rw [k]
        dsimp only [Sys.orErr]
        rw [if_pos]
        refine ⟨?_, by simpa using hx.2⟩
        have e := Sys.validateConditions_view s.nodes s
        rw [e, hmode]; exact hx.1
    · exact absurd rfl h
  · intro h
    split at h
    · cases h
    · rename_i hx
      have hs : s.mode = .standard ∨ decide (0 < w.stack.cset.structural.length) = false := by
        rw [hmode]
        cases hmo : w.stack.mode with
        | standard => exact .inl rfl
        | exactTime => exact .inr (decide_eq_false fun k => hx ⟨hmo, k⟩)
      rw [C127_quiet hn hs a]

/-- **C127.** The constructor of `Threshold` under the filter: it raises the warning exactly if it
would give it, and otherwise does the same. -/
theorem C127_threshold (w : World α κ W) (o : OId) (d : α) (p : Nat) (thr : Rat) (cmp : String)
    (is : IndicesArg) (atol rtol : Rat) (getter : Option Nat)
    (val : Option (α → Nat → Except Err Unit)) :
    (newThresholdWarns w d p cmp atol rtol val = true →
      newThresholdS w o d p thr cmp is atol rtol getter val = .error none) ∧
    (newThresholdWarns w d p cmp atol rtol val = false →
      newThresholdS w o d p thr cmp is atol rtol getter val =
        (newThreshold w o d p thr cmp is atol rtol getter val).mapError some) := by
  unfold newThresholdWarns newThresholdS newThreshold
  cases validateParameter w d p val with
  | error e => exact ⟨(fun h => by cases h), fun _ => rfl⟩
  | ok u =>
    dsimp only
    have hc : comparatorOf cmp = comparatorOf cmp := rfl
    revert hc
    generalize hx : comparatorOf cmp = x
    intro _
    unfold comparatorOf at hx
    by_cases h0 : atol = 0 <;> by_cases h1 : rtol = 0 <;>
      (repeat' split at hx) <;> subst hx <;> simp_all [Except.mapError]

/-! ## Concrete cases -/

/-- Two nodes in exact-time mode. -/
def strictExact : Sys Nat Nat Unit := Sys.new [(1, [0])] .exactTime none 1 demoWorld

/-- Node 1 is its own sender. -/
def strictLoop : Sys Nat Nat Unit := Sys.new [(1, [0, 1])] .standard none 1 demoWorld

/-- The implicit conditions are made, and the warning is raised. -/
example : (strictExact.startS true refArgs).2 = .error (.warned .exactTime) ∧
    strictExact.conds.length = 0 ∧ (strictExact.startS true refArgs).1.conds.length = 2 ∧
    (strictExact.startS false refArgs).2 = .ok false := by
  refine ⟨?_, ?_, ?_, ?_⟩ <;> decide +kernel

example : (∃ o, (strictLoop.startS false refArgs).2 = .error (.warned (.ownDependency o 1))) ∧
    (strictLoop.start refArgs).2 = .ok false := by
  refine ⟨⟨3, ?_⟩, ?_⟩ <;> decide +kernel

/-- A scheduler in exact-time mode with a structural condition: the hypotheses of `C127_whole`. -/
def strictWhole : Whole Nat Nat Unit :=
  ((Whole.new [(0, []), (1, [])] .exactTime none 1 demoWorld noOwners (fun _ => none)).addCondition 0
    (.structural (addSenderTo 5 1))).1

theorem strictWhole_sys : ∃ s, strictWhole.sys = .ok s ∧ s.graph = [(0, []), (1, [0])] ∧
    s.validateRunState.2 = none := by
  refine ⟨_, rfl, ?_, ?_⟩ <;> decide +kernel

example : (∃ s, strictWhole.sys = .ok s ∧ NoOwnSender s ∧ s.validateRunState.2 = none) ∧
    strictWhole.rest.mode = strictWhole.stack.mode ∧ strictWhole.runWarnings ≠ [] := by
  obtain ⟨s, h1, h2, h3⟩ := strictWhole_sys
  refine ⟨⟨s, h1, ?_, h3⟩, by decide +kernel, by decide +kernel⟩
  intro n _ _ ds hg
  have := Dict.mem_of_get? hg
  rw [h2] at this
  simp at this
  rcases this with h | h <;> obtain ⟨rfl, rfl⟩ := h <;> decide

example : NoOwnSender refSys ∧ refSys.mode = .standard := by
  refine ⟨?_, by decide +kernel⟩
  intro n _ _ ds hg
  have e : refSys.graph = [(0, []), (1, []), (2, []), (3, [0, 1, 2])] := by decide +kernel
  have := Dict.mem_of_get? hg
  rw [e] at this
  simp at this
  rcases this with h | h | h | h <;> obtain ⟨rfl, rfl⟩ := h <;> decide

end GS.Props
