import Verif.RunLemmas
/-!
# Invariants of runs: histories, selections, layers
-/

set_option linter.unusedSectionVars false

namespace GS
open Spec
variable {α κ W β : Type _} [DecidableEq α] [DecidableEq κ]
variable {E : Sys α κ W → Sys α κ W → Prop} {a : RunArgs α κ W} {s0 s : Sys α κ W}
variable {abs : Bool} {h : History α κ W} {pc : PC α}

/-- Every entry of a history is a step from a reachable state. -/
theorem Reach.entry (hr : Reach E a s0 abs h s pc) :
    ∀ h1 e h2, h = h1 ++ e :: h2 → ∃ p p', Reach E a s0 abs h1 e.before p ∧
      e.before.step a abs p = (e.after, p', some e.ev) ∧
      Reach E a s0 abs (h1 ++ [e]) e.after p' := by
  induction hr with
  | start hs => intro h1 e h2 hh; simp at hh
  | env _ _ _ ih => exact ih
  | @step abs h s s' pc pc' ev hr hs ih =>
    intro h1 e h2 hh
    cases ev with
    | none => simp at hh; exact ih h1 e h2 hh
    | some x =>
      simp only [Option.toList_some, List.map_cons, List.map_nil] at hh
      rcases List.eq_nil_or_concat h2 with h2nil | ⟨h2', y, h2c⟩
      · subst h2nil
        have := List.append_inj' hh rfl
        obtain ⟨e1, e2⟩ := this
        simp only [List.cons.injEq, and_true] at e2
        subst e1 e2
        exact ⟨pc, pc', hr, hs, by simpa using Reach.step hr hs⟩
      · rw [List.concat_eq_append] at h2c
        subst h2c
        have : h ++ [⟨s, x, s'⟩] = (h1 ++ e :: h2') ++ [y] := by rw [hh]; simp
        have := List.append_inj' this rfl
        exact ih h1 e h2' this.1

/-- Every prefix of a history is the history of a reachable state. -/
theorem Reach.prefix (hr : Reach E a s0 abs h s pc) {h1 h2 : History α κ W} (hh : h = h1 ++ h2) :
    ∃ s' p, Reach E a s0 abs h1 s' p := by
  cases h2 with
  | nil => simp at hh; subst hh; exact ⟨s, pc, hr⟩
  | cons e h2 =>
    obtain ⟨p, _, h, _, _⟩ := hr.entry h1 e h2 hh
    exact ⟨e.before, p, h⟩

/-- The history after a step. -/
def ext (h : History α κ W) (s : Sys α κ W) (ev : Option (Event α)) (s' : Sys α κ W) :
    History α κ W := h ++ ev.toList.map fun x => ⟨s, x, s'⟩

@[simp] theorem ext_none (h : History α κ W) (s s' : Sys α κ W) : ext h s none s' = h := by
  simp [ext]

@[simp] theorem ext_some (h : History α κ W) (s s' : Sys α κ W) (x : Event α) :
    ext h s (some x) s' = h ++ [⟨s, x, s'⟩] := by simp [ext]

/-- Induction over runs with the step relation. -/
theorem Reach.ind {P : History α κ W → Sys α κ W → PC α → Prop}
    (hr : Reach E a s0 abs h s pc)
    (hstart : ∀ s, s0.start a = (s, .ok abs) → P [] s .outer)
    (hstep : ∀ h s s' pc pc' ev, Reach E a s0 abs h s pc → P h s pc →
      StepR a abs s pc s' pc' ev → P (ext h s ev s') s' pc')
    (henv : ∀ h s s' pc, Reach E a s0 abs h s pc → P h s pc → pc.suspended → E s s' → P h s' pc) :
    P h s pc := by
  induction hr with
  | start hs => exact hstart _ hs
  | step hr hs ih => exact hstep _ _ _ _ _ _ hr (ih hstart hstep henv) (Sys.step_stepR hs)
  | env hr hp he ih => exact henv _ _ _ _ hr (ih hstart hstep henv) hp he

/-! ## Executing a run -/

/-- `k` steps of a run without outside interference. -/
def steps (a : RunArgs α κ W) (abs : Bool) :
    Nat → History α κ W → Sys α κ W → PC α → History α κ W × Sys α κ W × PC α
  | 0, h, s, pc => (h, s, pc)
  | k + 1, h, s, pc =>
    steps a abs k (ext h s (s.step a abs pc).2.2 (s.step a abs pc).1) (s.step a abs pc).1
      (s.step a abs pc).2.1

theorem steps_reach {k : Nat} {h' s' pc'} (hr : Reach E a s0 abs h s pc)
    (hs : steps a abs k h s pc = (h', s', pc')) : Reach E a s0 abs h' s' pc' := by
  induction k generalizing h s pc with
  | zero => simp only [steps, Prod.mk.injEq] at hs; obtain ⟨rfl, rfl, rfl⟩ := hs; exact hr
  | succ k ih => exact ih (Reach.step hr rfl) hs

/-- The run from its first `next()`, for `k` steps. -/
def exec (s0 : Sys α κ W) (a : RunArgs α κ W) (k : Nat) :
    Option (Bool × History α κ W × Sys α κ W × PC α) :=
  match s0.start a with
  | (s, .ok abs) => some (abs, steps a abs k [] s .outer)
  | (_, .error _) => none

theorem exec_reach {k : Nat} {abs : Bool} {h' s' pc'}
    (hs : exec s0 a k = some (abs, h', s', pc')) : Reach E a s0 abs h' s' pc' := by
  unfold exec at hs
  split at hs
  · rename_i s1 ab h1
    simp only [Option.some.injEq, Prod.mk.injEq] at hs
    obtain ⟨rfl, h2⟩ := hs
    exact steps_reach (Reach.start h1) h2
  · simp at hs

/-! ## Selections and yields -/

/-- The nodes selected for the set being chosen. -/
def Pending : PC α → List α → Prop
  | .choosing c, r => r = c.exec
  | .raised _, _ => True
  | _, r => r = []

theorem yields_snoc (h : History α κ W) (e : Entry α κ W) :
    yields (h ++ [e]) = yields h ++ e.ev.yield?.toList := by
  rw [yields_append, yields_single]

theorem selections_snoc (h : History α κ W) (e : Entry α κ W) :
    selections (h ++ [e]) = selections h ++ e.ev.add?.toList := by
  rw [selections_append, selections_single]

theorem Reach.pending (hr : Reach E a s0 abs h s pc) :
    ∃ r, Pending pc r ∧ selections h = (yields h).flatten ++ r := by
  refine hr.ind (P := fun h _ pc => ∃ r, Pending pc r ∧ selections h = (yields h).flatten ++ r)
    ?_ ?_ ?_
  · intro s _; exact ⟨[], rfl, rfl⟩
  · intro h s s' pc pc' ev _ ih hst
    obtain ⟨r, hp, hse⟩ := ih
    cases hst with
    | pass => cases hp; exact ⟨[], rfl, by simp [selections_snoc, yields_snoc, hse, Event.add?, Event.yield?]⟩
    | stopSkip => cases hp; exact ⟨[], rfl, by simp [selections_snoc, yields_snoc, hse, Event.add?, Event.yield?]⟩
    | stopIncr => cases hp; exact ⟨[], rfl, by simp [selections_snoc, yields_snoc, hse, Event.add?, Event.yield?]⟩
    | passEnd => cases hp; exact ⟨[], rfl, by simpa using hse⟩
    | emptyYield => cases hp; exact ⟨[], rfl, by simp [selections_snoc, yields_snoc, hse, Event.add?, Event.yield?]⟩
    | consider => cases hp; exact ⟨[], rfl, by simp [selections_snoc, yields_snoc, hse, Event.add?, Event.yield?]⟩
    | again => cases hp; exact ⟨_, rfl, by simpa using hse⟩
    | skip => cases hp; exact ⟨_, rfl, by simpa using hse⟩
    | reject => cases hp; exact ⟨_, rfl, by simpa using hse⟩
    | add => cases hp; exact ⟨_, rfl, by simp [selections_snoc, yields_snoc, hse, Event.add?, Event.yield?]⟩
    | yield => cases hp; exact ⟨[], rfl, by simp [selections_snoc, yields_snoc, hse, Event.add?, Event.yield?]⟩
    | yieldAbs => cases hp; exact ⟨[], rfl, by simp [selections_snoc, yields_snoc, hse, Event.add?, Event.yield?]⟩
    | silent ht hag ha hne =>
      cases hp; exact ⟨[], rfl, by simp [selections_snoc, yields_snoc, hse, Event.add?, Event.yield?, hne]⟩
    | resume => cases hp; exact ⟨[], rfl, by simpa using hse⟩
    | resumeEmpty => cases hp; exact ⟨[], rfl, by simpa using hse⟩
    | returned => cases hp; exact ⟨[], rfl, by simpa using hse⟩
    | raised => exact ⟨r, trivial, by simpa using hse⟩
    | fails h1 h2 hev =>
      rcases hev with rfl | ⟨rfl, rfl, _⟩
      · exact ⟨r, trivial, by simpa using hse⟩
      · exact ⟨r, trivial, by simp [selections_snoc, yields_snoc, hse, Event.add?, Event.yield?]⟩
  · intro h s s' pc _ ih _ _; exact ih

/-! ## Choosing a set -/

/-- Sets chosen, with their positions in the queue. -/
def chosen (h : History α κ W) : List (Nat × List α) :=
  h.filterMap fun e => match e.ev with | .layer i set _ => some (i, set) | _ => none

theorem chosen_snoc (h : History α κ W) (e : Entry α κ W) :
    chosen (h ++ [e]) = chosen h ++
      (match e.ev with | .layer i set _ => some (i, set) | _ => none : Option _).toList := by
  unfold chosen
  rw [List.filterMap_append]
  congr 1

/-- Is the entry the beginning of a choice? -/
def isConsider (e : Entry α κ W) : Bool := match e.ev with | .consider _ _ => true | _ => false

structure ChoiceInv (h : History α κ W) (s : Sys α κ W) (c : Choice α) : Prop where
  nodup : c.exec.Nodup
  sub : ∀ n ∈ c.exec, n ∈ c.layer
  todo : ∃ d, c.layer = d ++ c.todo
  queue : s.queue[c.idx]? = some c.layer
  sel : selections (afterLast isConsider h) = c.exec
  adds : ∀ e ∈ afterLast isConsider h, ∃ n, e.ev = .add n

theorem Reach.choice (hr : Reach E a s0 abs h s pc) :
    ∀ c, pc = .choosing c → ChoiceInv h s c := by
  refine hr.ind (P := fun h s pc => ∀ c, pc = .choosing c → ChoiceInv h s c) ?_ ?_ ?_
  · intro s _ c hc; cases hc
  · intro h s s' pc pc' ev _ ih hst c' hc'
    have hq : s'.queue = s.queue := hst.frame.queue
    cases hst with
    | pass => cases hc'
    | stopSkip => cases hc'
    | stopIncr => cases hc'
    | passEnd => cases hc'
    | emptyYield => cases hc'
    | consider hq' =>
      cases hc'
      have : ∀ i l x, afterLast isConsider (h ++ [⟨s, .consider i l, x⟩] : History α κ W) = [] := by
        intro i l x; rw [afterLast_snoc]; simp [isConsider]
      refine ⟨by simp, by simp, ⟨[], rfl⟩, by rw [hq]; exact hq', ?_, ?_⟩
      · rw [ext_some, this]; rfl
      · rw [ext_some, this]; simp
    | again =>
      cases hc'
      have i := ih _ rfl
      exact ⟨i.nodup, i.sub, ⟨[], rfl⟩, i.queue, by simpa using i.sel, by simpa using i.adds⟩
    | @skip c n ns ht hn =>
      cases hc'
      have i := ih _ rfl
      refine ⟨i.nodup, i.sub, ?_, i.queue, by simpa using i.sel, by simpa using i.adds⟩
      obtain ⟨d, hd⟩ := i.todo
      exact ⟨d ++ [n], by simp only [hd, ht, List.append_assoc, List.singleton_append]⟩
    | @reject c n ns cond st ht hn =>
      cases hc'
      have i := ih _ rfl
      refine ⟨i.nodup, i.sub, ?_, i.queue, by simpa using i.sel, by simpa using i.adds⟩
      obtain ⟨d, hd⟩ := i.todo
      exact ⟨d ++ [n], by simp only [hd, ht, List.append_assoc, List.singleton_append]⟩
    | @add c n ns cond st f u ht hn =>
      cases hc'
      have i := ih _ rfl
      obtain ⟨d, hd⟩ := i.todo
      have hal : ∀ x, afterLast isConsider (h ++ [⟨s, .add n, x⟩] : History α κ W) =
          afterLast isConsider h ++ [⟨s, .add n, x⟩] := by
        intro x; rw [afterLast_snoc]; simp [isConsider]
      refine ⟨?_, ?_, ⟨d ++ [n], by simp [hd, ht]⟩, i.queue, ?_, ?_⟩
      · rw [List.nodup_append]
        refine ⟨i.nodup, by simp, ?_⟩
        intro x hx y hy; simp at hy; subst hy; exact fun e => hn (e ▸ hx)
      · intro m hm
        simp only [List.mem_append, List.mem_singleton] at hm
        rcases hm with hm | rfl
        · exact i.sub m hm
        · rw [hd, ht]; simp
      · rw [ext_some, hal, selections_snoc, i.sel]; rfl
      · rw [ext_some, hal]
        intro e he
        rcases List.mem_append.1 he with he | he
        · exact i.adds e he
        · simp at he; subst he; exact ⟨n, rfl⟩
    | yield => cases hc'
    | yieldAbs => cases hc'
    | silent => cases hc'
    | resume => cases hc'
    | resumeEmpty => cases hc'
    | returned => cases hc'
    | raised => cases hc'
    | fails => cases hc'
  · intro h s s' pc _ ih hp _ c hc
    subst hc; simp [PC.suspended] at hp

/-! ## Order of the layers within a pass -/

/-- The position reached in the queue. -/
def AtIdx : PC α → Nat → Prop
  | .inner i _, k => k = i
  | .choosing c, k => k = c.idx
  | .yielded i _, k => k = i + 1
  | _, _ => True

theorem Reach.layers (hr : Reach E a s0 abs h s pc) :
    ∃ k, AtIdx pc k ∧ (chosen (currentPass h)).map Prod.fst = List.range k := by
  refine hr.ind (P := fun h _ pc => ∃ k, AtIdx pc k ∧
    (chosen (currentPass h)).map Prod.fst = List.range k) ?_ ?_ ?_
  · intro s _; exact ⟨0, trivial, rfl⟩
  · intro h s s' pc pc' ev _ ih hst
    obtain ⟨k, hp, hl⟩ := ih
    cases hst with
    | pass => exact ⟨0, rfl, by simp [currentPass_snoc, chosen]⟩
    | stopSkip => exact ⟨k, trivial, by simp [currentPass_snoc, chosen_snoc, hl]⟩
    | stopIncr => exact ⟨k, trivial, by simp [currentPass_snoc, chosen_snoc, hl]⟩
    | passEnd => exact ⟨k, trivial, by simpa using hl⟩
    | emptyYield => exact ⟨k, trivial, by simp [currentPass_snoc, chosen_snoc, hl]⟩
    | consider => exact ⟨k, hp, by simp [currentPass_snoc, chosen_snoc, hl]⟩
    | again => exact ⟨k, hp, by simpa using hl⟩
    | skip => exact ⟨k, hp, by simpa using hl⟩
    | reject => exact ⟨k, hp, by simpa using hl⟩
    | add => exact ⟨k, hp, by simp [currentPass_snoc, chosen_snoc, hl]⟩
    | yield => cases hp; exact ⟨_, rfl, by simp [currentPass_snoc, chosen_snoc, hl, List.range_succ]⟩
    | yieldAbs => cases hp; exact ⟨_, rfl, by simp [currentPass_snoc, chosen_snoc, hl, List.range_succ]⟩
    | silent => cases hp; exact ⟨_, rfl, by simp [currentPass_snoc, chosen_snoc, hl, List.range_succ]⟩
    | resume => exact ⟨k, hp, by simpa using hl⟩
    | resumeEmpty => exact ⟨k, trivial, by simpa using hl⟩
    | returned => exact ⟨k, trivial, by simpa using hl⟩
    | raised => exact ⟨k, trivial, by simpa using hl⟩
    | fails h1 h2 hev =>
      rcases hev with rfl | ⟨rfl, rfl, _⟩
      · exact ⟨k, trivial, by simpa using hl⟩
      · exact ⟨k, trivial, by simp [currentPass_snoc, chosen_snoc, hl]⟩
  · intro h s s' pc _ ih _ _; exact ih

end GS
