import Verif.RunInv
/-!
# Invariants of runs: counters, execution list
-/

set_option linter.unusedSectionVars false

namespace GS
open Spec
variable {α κ W β : Type _} [DecidableEq α] [DecidableEq κ]
variable {E : Sys α κ W → Sys α κ W → Prop} {a : RunArgs α κ W} {s0 s : Sys α κ W}
variable {abs : Bool} {h : History α κ W} {pc : PC α}

/-- The total counters as functions of the history. -/
structure CountInv (f0 : TimeScale → α → Nat) (h : History α κ W) (f : TimeScale → α → Nat) :
    Prop where
  run : ∀ n, f .environment_state_update n = (selections h).count n
  pass : ∀ n, f .pass n = (selections (currentPass h)).count n
  cse : ∀ n, f .consideration_set_execution n = (selections (currentPass h)).count n
  coarse : ∀ t n, 2 < t.val → f t n = f0 t n + (selections h).count n

theorem CountInv.bump {f0 f : TimeScale → α → Nat} {n : α} (i : CountInv f0 h f) (s s' : Sys α κ W) :
    CountInv f0 (h ++ [⟨s, .add n, s'⟩]) (bumpF n f) := by
  have key : ∀ (l : List α) m k, k = l.count m →
      (if m = n then k + 1 else k) = (l ++ [n]).count m := by
    intro l m k hk
    rw [List.count_append, List.count_singleton, hk]
    by_cases e : m = n
    · subst e; simp
    · have : ¬ n = m := fun x => e x.symm
      simp [e, this]
  have hcp : selections (currentPass (h ++ [⟨s, .add n, s'⟩])) = selections (currentPass h) ++ [n] := by
    rw [currentPass_snoc, if_neg (by simp), selections_snoc]; rfl
  refine ⟨?_, ?_, ?_, ?_⟩
  · intro m; rw [selections_snoc]; exact key _ m _ (i.run m)
  · intro m; rw [hcp]; exact key _ m _ (i.pass m)
  · intro m; rw [hcp]; exact key _ m _ (i.cse m)
  · intro t m ht
    rw [selections_snoc]
    have := i.coarse t m ht
    have k := key (selections h) m _ rfl
    simp only [bumpF, this]
    simp only [Event.add?, Option.toList_some]
    rw [← k]
    split <;> omega

theorem CountInv.same {f0 f : TimeScale → α → Nat} (i : CountInv f0 h f) {s s' : Sys α κ W}
    {x : Event α} (hx : x.add? = none) (hp : x ≠ .passStart) :
    CountInv f0 (h ++ [⟨s, x, s'⟩]) f := by
  have h1 : selections (h ++ [⟨s, x, s'⟩]) = selections h := by
    rw [selections_snoc]; simp [hx]
  have h2 : selections (currentPass (h ++ [⟨s, x, s'⟩])) = selections (currentPass h) := by
    rw [currentPass_snoc, if_neg hp, selections_snoc]; simp [hx]
  exact ⟨fun n => by rw [h1]; exact i.run n, fun n => by rw [h2]; exact i.pass n,
    fun n => by rw [h2]; exact i.cse n, fun t n ht => by rw [h1]; exact i.coarse t n ht⟩

theorem Reach.counts (hr : Reach E a s0 abs h s pc)
    (hE : Keeps E (fun s => Dict.get? s.countsTotal a.id))
    {s1 : Sys α κ W} {f0} (h1 : s0.start a = (s1, .ok abs))
    (hf0 : Dict.get? s1.countsTotal a.id = some f0) :
    ∃ f, Dict.get? s.countsTotal a.id = some f ∧ CountInv f0 h f := by
  refine hr.ind (P := fun h s _ => ∃ f, Dict.get? s.countsTotal a.id = some f ∧ CountInv f0 h f)
    ?_ ?_ ?_
  · intro s hs
    rw [h1] at hs
    simp only [Prod.mk.injEq, and_true] at hs
    subst hs
    obtain ⟨f, hf, hz, _⟩ := (Sys.start_ok h1).total
    rw [hf0] at hf; injection hf with hf; subst hf
    refine ⟨f0, hf0, ?_, ?_, ?_, ?_⟩
    · intro n; exact hz _ n (by decide)
    · intro n; exact hz _ n (by decide)
    · intro n; exact hz _ n (by decide)
    · intro t n ht; simp [selections_nil]
  · intro h s s' pc pc' ev _ ih hst
    obtain ⟨f, hf, i⟩ := ih
    cases hst with
    | @pass st f' hg hf' =>
      rw [hf] at hf'; injection hf' with hf'; subst hf'
      refine ⟨_, Dict.get?_set_self _ _ _, ?_⟩
      have h1 : ∀ x, selections (currentPass (h ++ [⟨s, .passStart, x⟩] : History α κ W)) = [] := by
        intro x; rw [currentPass_snoc, if_pos rfl]; rfl
      have h2 : ∀ x, selections (h ++ [⟨s, .passStart, x⟩] : History α κ W) = selections h := by
        intro x; rw [selections_snoc]; simp [Event.add?]
      refine ⟨?_, ?_, ?_, ?_⟩
      · intro n; rw [ext_some, h2, resetF_gt (by decide)]; exact i.run n
      · intro n; rw [ext_some, h1, resetF_le (by decide)]; rfl
      · intro n; rw [ext_some, h1, resetF_le (by decide)]; rfl
      · intro t n ht
        rw [ext_some, h2, resetF_gt (show TimeScale.pass.val < t.val by have e : TimeScale.pass.val = 1 := rfl; omega)]
        exact i.coarse t n ht
    | stopSkip => exact ⟨f, hf, by rw [ext_some]; exact i.same rfl (by simp)⟩
    | stopIncr => exact ⟨f, hf, by rw [ext_some]; exact i.same rfl (by simp)⟩
    | passEnd => exact ⟨f, hf, by rw [ext_none]; exact i⟩
    | emptyYield => exact ⟨f, hf, by rw [ext_some]; exact i.same rfl (by simp)⟩
    | consider => exact ⟨f, hf, by rw [ext_some]; exact i.same rfl (by simp)⟩
    | again => exact ⟨f, hf, by rw [ext_none]; exact i⟩
    | skip => exact ⟨f, hf, by rw [ext_none]; exact i⟩
    | reject => exact ⟨f, hf, by rw [ext_none]; exact i⟩
    | @add c n ns cond st f' u ht hn hc he hf' hu hm =>
      rw [hf] at hf'; injection hf' with hf'; subst hf'
      refine ⟨bumpF n f, Dict.get?_set_self _ _ _, ?_⟩
      rw [ext_some]; exact i.bump _ _
    | yield => exact ⟨f, hf, by rw [ext_some]; exact i.same rfl (by simp)⟩
    | yieldAbs => exact ⟨f, hf, by rw [ext_some]; exact i.same rfl (by simp)⟩
    | silent => exact ⟨f, hf, by rw [ext_some]; exact i.same rfl (by simp)⟩
    | resume => exact ⟨f, hf, by rw [ext_none]; exact i⟩
    | resumeEmpty => exact ⟨f, hf, by rw [ext_none]; exact i⟩
    | returned => exact ⟨f, hf, by rw [ext_none]; exact i⟩
    | raised => exact ⟨f, hf, by rw [ext_none]; exact i⟩
    | fails hp hfr hev =>
      have hct : s'.countsTotal = s.countsTotal := by cases hfr <;> rfl
      refine ⟨f, by rw [hct]; exact hf, ?_⟩
      rcases hev with rfl | ⟨_, rfl, _⟩
      · rw [ext_none]; exact i
      · rw [ext_some]; exact i.same rfl (by simp)
  · intro h s s' pc _ ih _ he
    obtain ⟨f, hf, i⟩ := ih
    exact ⟨f, by have := hE _ _ he; simp only at this; rw [this]; exact hf, i⟩

/-! ## Useable counts -/

theorem since_snoc (n x : α) (l : List α) :
    since n (l ++ [x]) = if x = n then [] else since n l ++ [x] := by
  unfold since; rw [afterLast_snoc]; simp only [decide_eq_true_eq]

/-- The useable counters as functions of the selections. For `m = n` the count is 1 once
`n` was selected. -/
structure UseInv (l : List α) (u : α → α → Nat) : Prop where
  diff : ∀ m n, m ≠ n → u m n = (since n l).count m
  self : ∀ n, u n n = if n ∈ l then 1 else 0

theorem UseInv.bump {l : List α} {u : α → α → Nat} (i : UseInv l u) (x : α) :
    UseInv (l ++ [x]) (bumpU x u) := by
  constructor
  · intro m n hmn
    rw [since_snoc]
    unfold bumpU
    by_cases hn : n = x
    · have hmx : m ≠ x := fun e => hmn (e.trans hn.symm)
      simp [hn, hmx]
    · have hxn : ¬ x = n := fun e => hn e.symm
      rw [if_neg hn, if_neg hxn, List.count_append, List.count_singleton, i.diff m n hmn]
      by_cases hm : m = x
      · simp [hm]
      · have : ¬ x = m := fun e => hm e.symm
        simp [hm, this]
  · intro n
    unfold bumpU
    by_cases hn : n = x
    · simp [hn]
    · rw [if_neg hn, if_neg hn, i.self n]; simp [hn]

theorem Reach.useable (hr : Reach E a s0 abs h s pc)
    (hE : Keeps E (fun s => Dict.get? s.countsUseable a.id)) :
    ∃ u, Dict.get? s.countsUseable a.id = some u ∧ UseInv (selections h) u := by
  have same : ∀ (h : History α κ W) s s' x u, UseInv (selections h) u → Event.add? x = none →
      UseInv (selections (ext h s (some x) s')) u := by
    intro h s s' x u hu hx
    rw [ext_some, selections_snoc]; simpa [hx] using hu
  refine hr.ind (P := fun h s _ => ∃ u, Dict.get? s.countsUseable a.id = some u ∧
    UseInv (selections h) u) ?_ ?_ ?_
  · intro s hs
    refine ⟨_, (Sys.start_ok hs).useable, ?_⟩
    constructor
    · intro m n _; simp [selections_nil, since, afterLast]
    · intro n; simp [selections_nil]
  · intro h s s' pc pc' ev _ ih hst
    obtain ⟨u, hu, i⟩ := ih
    cases hst with
    | pass => exact ⟨u, hu, same _ _ _ _ _ i rfl⟩
    | stopSkip => exact ⟨u, hu, same _ _ _ _ _ i rfl⟩
    | stopIncr => exact ⟨u, hu, same _ _ _ _ _ i rfl⟩
    | passEnd => exact ⟨u, hu, by rw [ext_none]; exact i⟩
    | emptyYield => exact ⟨u, hu, same _ _ _ _ _ i rfl⟩
    | consider => exact ⟨u, hu, same _ _ _ _ _ i rfl⟩
    | again => exact ⟨u, hu, by rw [ext_none]; exact i⟩
    | skip => exact ⟨u, hu, by rw [ext_none]; exact i⟩
    | reject => exact ⟨u, hu, by rw [ext_none]; exact i⟩
    | @add c n ns cond st f' u' ht hn hc he hf' hu' hm =>
      rw [hu] at hu'; injection hu' with hu'; subst hu'
      refine ⟨bumpU n u, Dict.get?_set_self _ _ _, ?_⟩
      rw [ext_some, selections_snoc]; exact i.bump n
    | yield => exact ⟨u, hu, same _ _ _ _ _ i rfl⟩
    | yieldAbs => exact ⟨u, hu, same _ _ _ _ _ i rfl⟩
    | silent => exact ⟨u, hu, same _ _ _ _ _ i rfl⟩
    | resume => exact ⟨u, hu, by rw [ext_none]; exact i⟩
    | resumeEmpty => exact ⟨u, hu, by rw [ext_none]; exact i⟩
    | returned => exact ⟨u, hu, by rw [ext_none]; exact i⟩
    | raised => exact ⟨u, hu, by rw [ext_none]; exact i⟩
    | fails hp hfr hev =>
      have hct : s'.countsUseable = s.countsUseable := by cases hfr <;> rfl
      refine ⟨u, by rw [hct]; exact hu, ?_⟩
      rcases hev with rfl | ⟨_, rfl, _⟩
      · rw [ext_none]; exact i
      · exact same _ _ _ _ _ i rfl
  · intro h s s' pc _ ih _ he
    obtain ⟨f, hf, i⟩ := ih
    exact ⟨f, by have := hE _ _ he; simp only at this; rw [this]; exact hf, i⟩

/-! ## The execution list -/

theorem Reach.execs (hr : Reach E a s0 abs h s pc)
    (hE : Keeps E (fun s => Dict.get? s.execList a.id)) (hpc : ∀ e, pc ≠ .raised e) 
    {s1 : Sys α κ W} {l0} (h1 : s0.start a = (s1, .ok abs))
    (hl0 : Dict.get? s1.execList a.id = some l0) :
    Dict.get? s.execList a.id = some (l0 ++ yields h) := by
  have key : (∀ e, pc ≠ .raised e) → Dict.get? s.execList a.id = some (l0 ++ yields h) := by
    refine hr.ind (P := fun h s pc => (∀ e, pc ≠ .raised e) →
      Dict.get? s.execList a.id = some (l0 ++ yields h)) ?_ ?_ ?_
    · intro s hs _
      rw [h1] at hs
      simp only [Prod.mk.injEq, and_true] at hs
      subst hs
      rw [hl0]; simp [yields_nil]
    · intro h s s' pc pc' ev _ ih hst hpc'
      have same : ∀ x, Event.yield? x = none → yields (ext h s (some x) s') = yields h := by
        intro x hx; rw [ext_some, yields_snoc]; simp [hx]
      have snoc : ∀ x l, Event.yield? x = some l → yields (ext h s (some x) s') = yields h ++ [l] := by
        intro x l hx; rw [ext_some, yields_snoc]; simp [hx]
      cases hst with
      | pass => rw [same _ rfl]; exact ih (by simp)
      | stopSkip => rw [same _ rfl]; exact ih (by simp)
      | stopIncr => rw [same _ rfl]; exact ih (by simp)
      | passEnd => rw [ext_none]; exact ih (by simp)
      | @emptyYield idx st l hl ha hx =>
        have := ih (by simp)
        rw [hx] at this; injection this with this
        rw [snoc _ [] rfl, ← List.append_assoc, ← this]; exact Dict.get?_set_self _ _ _
      | consider => rw [same _ rfl]; exact ih (by simp)
      | again => rw [ext_none]; exact ih (by simp)
      | skip => rw [ext_none]; exact ih (by simp)
      | reject => rw [ext_none]; exact ih (by simp)
      | add => rw [same _ rfl]; exact ih (by simp)
      | yield ht hag ha hne hx =>
        have := ih (by simp)
        rw [hx] at this; injection this with this
        rw [snoc _ _ rfl, ← List.append_assoc, ← this]; exact Dict.get?_set_self _ _ _
      | yieldAbs ht hag ha hx hts =>
        have := ih (by simp)
        rw [hx] at this; injection this with this
        rw [snoc _ _ rfl, ← List.append_assoc, ← this]; exact Dict.get?_set_self _ _ _
      | silent => rw [same _ rfl]; exact ih (by simp)
      | resume => rw [ext_none]; exact ih (by simp)
      | resumeEmpty => rw [ext_none]; exact ih (by simp)
      | returned => rw [ext_none]; exact ih (by simp)
      | raised => rw [ext_none]; exact ih hpc'
      | fails => exact absurd rfl (hpc' _)
    · intro h s s' pc _ ih _ he hpc'
      have := hE _ _ he; simp only at this; rw [this]; exact ih hpc'
  exact key hpc

end GS
