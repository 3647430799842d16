import Verif.StrictLemmas
import Verif.Isolate
import Verif.RunDefault
import Verif.Convenience
/-!
# The beginning of a run, and `Threshold`, when warnings raise

As in `Verif/Strict.lean`, every call of `warnings.warn` raises.  The scheduler's graph is taken as
read (reading it is `Stack.readGraphS`).
-/

set_option linter.unusedSectionVars false

namespace GS
variable {α κ W : Type _} [DecidableEq α] [DecidableEq κ]

namespace Sys

/-- scheduler.py:823-839 `_validate_conditions` without its last warning: `add_condition` sets the
owner of the new condition first (condition.py:736), which may raise; the object is then lost.
Simplified: `add_condition` finds the graph up to date, since it was read before (808). -/
def validateConditionsS : List α → Sys α κ W → Sys α κ W × Option (Failure α)
  | [], s => (s, none)
  | n :: ns, s => match Dict.get? s.conds n with
    | some _ => validateConditionsS ns s
    | none => match Dict.get? s.graph n with
      | none => (s, some (.err .keyError))
      | some deps =>
        match setOwnerS (some n) (defaultCond s.store.fresh deps : Cond α κ W)
          (s.alloc (deps.length + 1)).store with
        | (st, some w) => ({ s with store := st }, some (.warned w))
        | (st, none) => validateConditionsS ns { s with
            store := st, conds := Dict.set s.conds n (defaultCond s.store.fresh deps) }

/-- scheduler.py:806-851 `_validate_run_state` and `_validate_conditions`; `structural` says whether
there are structural conditions (846). -/
def validateRunStateS (structural : Bool) (s : Sys α κ W) : Sys α κ W × Option (Failure α) :=
  match toposort s.graph with
  | .error _ => (s, some (.err .schedulerError))
  | .ok _ => match validateConditionsS s.nodes s with
    | (s', some f) => (s', some f)
    | (s', none) =>
      if s'.mode = .exactTime ∧ structural = true then (s', some (.warned .exactTime)) else (s', none)

/-- scheduler.py:871-910: everything before the outer loop, as `start`. -/
def startS (structural : Bool) (s : Sys α κ W) (a : RunArgs α κ W) :
    Sys α κ W × Except (Failure α) Bool :=
  match s.validateRunStateS structural with
  | (s1, some f) => (s1, .error f)
  | (s1, none) =>
    match (s1.getClock a.id).setupAbsolute a with
    | (s2, .error e) => (s2, .error (.err e))
    | (s2, .ok abs) => match s2.initCounts a.id a.base with
      | (s3, some e) => (s3, .error (.err e))
      | (s3, none) => match (s3.resetUseable a.id).resetTotal .environment_state_update a.id with
        | .error e => (s3.resetUseable a.id, .error (.err e))
        | .ok s4 => (s4, .ok abs)

end Sys

/-- scheduler.py:871-910 for a whole scheduler: what `run` raises, or whether it is in absolute time. -/
def Whole.startS (w : Whole α κ W) (a : RunArgs α κ W) : Whole α κ W × Except (Failure α) Bool :=
  match w.sys with
  | .error e => (w, .error (.err e))
  | .ok s => (w.after (s.startS (decide (0 < w.stack.cset.structural.length)) a).1,
      (s.startS (decide (0 < w.stack.cset.structural.length)) a).2)

/-- condition.py:2477-2527 `Threshold.__init__`; `none` is the warning of 2495. -/
def newThresholdS (w : World α κ W) (o : OId) (d : α) (p : Nat) (thr : Rat) (cmp : String)
    (indices : IndicesArg) (atol rtol : Rat) (getter : Option Nat)
    (validator : Option (α → Nat → Except Err Unit)) : Except (Option Err) (Cond α κ W) :=
  match validateParameter w d p validator with
  | .error e => .error (some e)
  | .ok () => match comparatorOf cmp with
    | none => .error (some .conditionError)
    | some c =>
      if (atol ≠ 0 ∨ rtol ≠ 0) ∧ (cmp = "<" ∨ cmp = "<=" ∨ cmp = ">" ∨ cmp = ">=") then .error none
      else .ok (.leaf o (.threshold d p thr c (normIndices indices) atol rtol getter))

/-! ## Lemmas -/

theorem leaves_warned (n : α) (ds : List α) (k : Nat) (st : Store α κ)
    (hf : ∀ o, k ≤ o → st.owner o = none) :
    (n ∉ ds → ownersWarnings (some n) (defaultLeaves k ds : List (Cond α κ W)) st = []) ∧
    (n ∈ ds → ∃ o l, ownersWarnings (some n) (defaultLeaves k ds : List (Cond α κ W)) st =
      .ownDependency o n :: l) := by
  induction ds generalizing k st with
  | nil => exact ⟨fun _ => rfl, fun h => by cases h⟩
  | cons d ds ih =>
    have hst : ∀ o, k + 1 ≤ o →
        (setOwner (some n) (Cond.leaf k (.everyNCalls d 1) : Cond α κ W) st).owner o = none := by
      intro o ho
      simp only [setOwner, Store.putOwner]
      rw [if_neg (by omega)]; exact hf o (by omega)
    obtain ⟨h1, h2⟩ := ih (k + 1) _ hst
    unfold defaultLeaves ownersWarnings
    simp only [Cond.oid, hf k (Nat.le_refl k), ownerWarnings, leafWarnings, firstDeps,
      List.mem_singleton]
    by_cases e : n = d
    · subst e
      exact ⟨fun h => absurd List.mem_cons_self h, fun _ => ⟨k, _, by rw [if_pos rfl]; rfl⟩⟩
    · rw [if_neg e]
      refine ⟨fun h => ?_, fun h => ?_⟩
      · simpa using h1 fun k => h (List.mem_cons_of_mem _ k)
      · rcases List.mem_cons.1 h with h | h
        · exact absurd h e
        · simpa using h2 h

/-- The implicit condition of a node warns exactly if the node is its own sender. -/
theorem default_warned (n : α) (s : Sys α κ W) (deps : List α) :
    (n ∉ deps → setOwnerS (some n) (Sys.defaultCond s.store.fresh deps : Cond α κ W)
      (s.alloc (deps.length + 1)).store =
        (setOwner (some n) (Sys.defaultCond s.store.fresh deps : Cond α κ W)
          (s.alloc (deps.length + 1)).store, none)) ∧
    (n ∈ deps → ∃ o st, setOwnerS (some n) (Sys.defaultCond s.store.fresh deps : Cond α κ W)
      (s.alloc (deps.length + 1)).store = (st, some (.ownDependency o n))) := by
  have key : (n ∉ deps → ownerWarnings (some n) (Sys.defaultCond s.store.fresh deps : Cond α κ W)
        (s.alloc (deps.length + 1)).store = []) ∧
      (n ∈ deps → ∃ o l, ownerWarnings (some n) (Sys.defaultCond s.store.fresh deps : Cond α κ W)
        (s.alloc (deps.length + 1)).store = .ownDependency o n :: l) := by
    match deps with
    | [] => exact ⟨fun _ => rfl, fun h => by cases h⟩
    | [d] =>
      simp only [Sys.defaultCond, ownerWarnings, leafWarnings, firstDeps, List.mem_singleton]
      exact ⟨fun h => if_neg h, fun h => ⟨_, [], if_pos h⟩⟩
    | d :: d' :: ds =>
      simp only [Sys.defaultCond, ownerWarnings]
      rw [defaultLeaves_eq]
      refine leaves_warned n (d :: d' :: ds) _ _ fun o ho => ?_
      simp only [Store.putOwner, Sys.alloc]
      rw [if_neg (by omega), if_pos (by omega)]
  have sp := setOwnerS_spec (some n) (Sys.defaultCond s.store.fresh deps : Cond α κ W)
    (s.alloc (deps.length + 1)).store
  refine ⟨fun h => ?_, fun h => ?_⟩
  · have e := key.1 h
    exact Prod.ext (sp.2 e) (by rw [sp.1, e]; rfl)
  · obtain ⟨o, l, e⟩ := key.2 h
    exact ⟨o, _, Prod.ext rfl (by rw [sp.1, e]; rfl)⟩

namespace Sys

/-- A failure as an exception. -/
def orErr : Option Err → Option (Failure α)
  | none => none
  | some e => some (.err e)

/-- Without a warning the strict function is the plain one. -/
theorem validateConditionsS_plain : ∀ (ns : List α) (s : Sys α κ W),
    (∀ w, (validateConditionsS ns s).2 ≠ some (.warned w)) →
    validateConditionsS ns s = ((validateConditions ns s).1, orErr (validateConditions ns s).2)
  | [], _, _ => rfl
  | n :: ns, s, h => by
    revert h
    unfold validateConditionsS validateConditions
    cases Dict.get? s.conds n with
    | some c => exact validateConditionsS_plain ns s
    | none =>
      cases Dict.get? s.graph n with
      | none => intro _; rfl
      | some deps =>
        dsimp only
        intro h
        by_cases hn : n ∈ deps
        · obtain ⟨o, st, e⟩ := (default_warned n s deps).2 hn
          rw [e] at h
          exact absurd rfl (h _)
        · have e := (default_warned n s deps).1 hn
          rw [e] at h ⊢
          exact validateConditionsS_plain ns _ h

/-- No node without condition is its own sender: no warning. -/
theorem validateConditionsS_quiet : ∀ (ns : List α) (s : Sys α κ W),
    (∀ n ∈ ns, Dict.get? s.conds n = none → ∀ ds, Dict.get? s.graph n = some ds → n ∉ ds) →
    ∀ w, (validateConditionsS ns s).2 ≠ some (.warned w)
  | [], _, _, _ => fun e => by cases e
  | n :: ns, s, h, w => by
    unfold validateConditionsS
    cases hc : Dict.get? s.conds n with
    | some c => exact validateConditionsS_quiet ns s (fun m hm => h m (List.mem_cons_of_mem _ hm)) w
    | none =>
      cases hg : Dict.get? s.graph n with
      | none => intro e; cases e
      | some deps =>
        dsimp only
        rw [(default_warned n s deps).1 (h n List.mem_cons_self hc deps hg)]
        refine validateConditionsS_quiet ns _ (fun m hm hm' => ?_) w
        have hm' : Dict.get? (Dict.set s.conds n (defaultCond s.store.fresh deps)) m = none := hm'
        have hne : m ≠ n := by
          rintro rfl; rw [Dict.get?_set_self] at hm'; cases hm'
        rw [Dict.get?_set_ne (by first | exact hne | exact Ne.symm hne)] at hm'
        exact h m (List.mem_cons_of_mem _ hm) hm'

/-- What there is after a warning. -/
theorem validateConditionsS_stopped : ∀ (ns : List α) (s t : Sys α κ W) (f : Option (Failure α)),
    validateConditionsS ns s = (t, f) →
    t.toView = s.toView ∧ (∀ n c, Dict.get? s.conds n = some c → Dict.get? t.conds n = some c) ∧
    ∀ w, f = some (.warned w) → ∃ o n ds, w = .ownDependency o n ∧ n ∈ ns ∧
      Dict.get? t.conds n = none ∧ Dict.get? s.graph n = some ds ∧ n ∈ ds ∧
      ∀ s' : Sys α κ W, s'.toView = s.toView → s'.conds = t.conds →
        ∃ o', (validateConditionsS ns s').2 = some (.warned (.ownDependency o' n))
  | [], s, t, f, e => by
    cases e
    exact ⟨rfl, fun _ _ h => h, fun w hw => by cases hw⟩
  | n :: ns, s, t, f, e => by
    unfold validateConditionsS at e
    cases hc : Dict.get? s.conds n with
    | some c =>
      simp only [hc] at e
      obtain ⟨h1, h2, h3⟩ := validateConditionsS_stopped ns s t f e
      refine ⟨h1, h2, fun w hw => ?_⟩
      obtain ⟨o, m, ds, k1, k2, k3, k4, k5, k6⟩ := h3 w hw
      refine ⟨o, m, ds, k1, List.mem_cons_of_mem _ k2, k3, k4, k5, fun s' g1 g2 => ?_⟩
      obtain ⟨o', g⟩ := k6 s' g1 g2
      refine ⟨o', ?_⟩
      unfold validateConditionsS
      rw [g2, h2 n c hc]
      exact g
    | none =>
      simp only [hc] at e
      cases hg : Dict.get? s.graph n with
      | none =>
        simp only [hg] at e
        cases e
        exact ⟨rfl, fun _ _ h => h, fun w hw => by cases hw⟩
      | some deps =>
        simp only [hg] at e
        by_cases hn : n ∈ deps
        · obtain ⟨o, st, e'⟩ := (default_warned n s deps).2 hn
          rw [e'] at e
          cases e
          refine ⟨rfl, fun _ _ h => h, fun w hw => ?_⟩
          cases hw
          refine ⟨o, n, deps, rfl, List.mem_cons_self, hc, hg, hn, fun s' g1 g2 => ?_⟩
          obtain ⟨o', st', e''⟩ := (default_warned n s' deps).2 hn
          refine ⟨o', ?_⟩
          unfold validateConditionsS
          have g2 : s'.conds = s.conds := g2
          have g3 : s'.graph = s.graph := by rw [g1]
          rw [g2, hc]
          dsimp only
          rw [g3, hg]
          dsimp only
          rw [e'']
        · rw [(default_warned n s deps).1 hn] at e
          obtain ⟨h1, h2, h3⟩ := validateConditionsS_stopped ns _ t f e
          have hset : Dict.get? t.conds n = some (defaultCond s.store.fresh deps) :=
            h2 n _ (Dict.get?_set_self _ _ _)
          refine ⟨h1, fun m c hm => h2 m c ?_, fun w hw => ?_⟩
          · show Dict.get? (Dict.set s.conds n _) m = some c
            rw [Dict.get?_set_ne _, hm]
            rintro rfl
            rw [hc] at hm
            cases hm
          · obtain ⟨o, m, ds, k1, k2, k3, k4, k5, k6⟩ := h3 w hw
            refine ⟨o, m, ds, k1, List.mem_cons_of_mem _ k2, k3, k4, k5, fun s' g1 g2 => ?_⟩
            obtain ⟨o', g⟩ := k6 s' g1 g2
            refine ⟨o', ?_⟩
            unfold validateConditionsS
            rw [g2, hset]
            exact g

end Sys
end GS
