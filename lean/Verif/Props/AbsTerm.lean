import Verif.Props.AbsExact
/-!
# C51: runs until a time
-/

set_option linter.unusedSectionVars false

namespace GS
open Spec Props
variable {α κ W : Type _} [DecidableEq α] [DecidableEq κ]
variable {a : RunArgs α κ W} {abs : Bool} {s s' s0 s1 : Sys α κ W} {pc pc' : PC α}
  {ev : Option (Event α)} {E : Sys α κ W → Sys α κ W → Prop} {h : History α κ W}

theorem eval_term {v : View α κ W} {id : Option κ} {st : Store α κ} {o : OId} {t : Qty} {incl : Bool} :
    ∃ b, eval v id (.leaf o (.timeTermination t incl)) st = (.ok b, st) ∧
      (b = true ↔ ¬ BeforeTime t.val incl (v.clock id).time.absolute) := by
  unfold BeforeTime
  cases incl
  · exact ⟨decide (t.val < (v.clock id).time.absolute), by simp [eval, evalLeaf], by
      simp only [Bool.false_eq_true, if_false, decide_eq_true_eq]; grind⟩
  · exact ⟨decide (t.val ≤ (v.clock id).time.absolute), by simp [eval, evalLeaf], by
      simp only [if_true, decide_eq_true_eq]; grind⟩

theorem Going.before {o : OId} {t : Qty} {incl : Bool} {st : Store α κ}
    (ht : a.esu = .leaf o (.timeTermination t incl)) (hg : Going s a st) :
    BeforeTime t.val incl (s.clock a.id).time.absolute := by
  obtain ⟨st1, h1, _⟩ := hg
  obtain ⟨b, hb, hi⟩ := eval_term (v := s.toView) (id := a.id) (st := s.store) (o := o) (t := t) (incl := incl)
  rw [ht, hb] at h1
  cases h1
  exact Classical.byContradiction fun hn => by simpa using hi.mpr hn

theorem Done.notBefore {o o' : OId} {t : Qty} {incl : Bool} {st : Store α κ}
    (ht : a.esu = .leaf o (.timeTermination t incl)) (hs : a.seq = .leaf o' .never)
    (hd : Done s a st) : ¬ BeforeTime t.val incl (s.clock a.id).time.absolute := by
  obtain ⟨b, hb, hi⟩ := eval_term (v := s.toView) (id := a.id) (st := s.store) (o := o) (t := t) (incl := incl)
  rcases hd with h | ⟨st1, h1, h2⟩
  · rw [ht, hb] at h
    cases h
    exact hi.mp rfl
  · rw [hs] at h2
    cases h2

/-- While a set is chosen, the termination time has not been reached. -/
def ChoiceBefore (id : Option κ) (t : Rat) (incl : Bool) (s : Sys α κ W) : PC α → Prop
  | .choosing _ => BeforeTime t incl (s.clock id).time.absolute
  | _ => True

theorem Reach.before (hr : Reach E a s0 true h s pc) {o : OId} {t : Qty} {incl : Bool}
    (ht : a.esu = .leaf o (.timeTermination t incl)) :
    (∀ y ∈ timedSets a.id h, BeforeTime t.val incl y.2.2) ∧ ChoiceBefore a.id t.val incl s pc := by
  refine hr.ind (P := fun h s pc => (∀ y ∈ timedSets a.id h, BeforeTime t.val incl y.2.2) ∧
    ChoiceBefore a.id t.val incl s pc) ?_ ?_ ?_
  · intro s _; exact ⟨by simp [timedSets], trivial⟩
  · intro h s s' pc pc' ev hr ih hst
    obtain ⟨ih1, ih2⟩ := ih
    have quiet : ∀ {x : Event α}, (∀ i set, x ≠ .layer i set true) →
        timedSets a.id (ext h s (some x) s') = timedSets a.id h := by
      intro x hx
      rw [ext_some, timed_snoc]
      have : timedSet? a.id (⟨s, x, s'⟩ : Entry α κ W) = none := by
        unfold timedSet?
        split
        · rename_i i set e; exact absurd e (hx i set)
        · rfl
      rw [this]; simp
    cases hst with
    | yield _ _ ha => cases ha
    | emptyYield _ ha => cases ha
    | silent _ _ ha => cases ha
    | pass hg => rw [quiet (by simp)]; exact ⟨ih1, trivial⟩
    | stopSkip => rw [quiet (by simp)]; exact ⟨ih1, trivial⟩
    | stopIncr => rw [quiet (by simp)]; exact ⟨ih1, trivial⟩
    | passEnd => rw [ext_none]; exact ⟨ih1, trivial⟩
    | consider hq hg => rw [quiet (by simp)]; exact ⟨ih1, (have := hg.before ht; this)⟩
    | again => rw [ext_none]; exact ⟨ih1, ih2⟩
    | skip => rw [ext_none]; exact ⟨ih1, ih2⟩
    | reject => rw [ext_none]; exact ⟨ih1, ih2⟩
    | add => rw [quiet (by simp)]; exact ⟨ih1, ih2⟩
    | @yieldAbs c =>
      refine ⟨?_, trivial⟩
      rw [ext_some, timed_snoc]
      intro y hy
      rcases List.mem_append.mp hy with hy | hy
      · exact ih1 y hy
      · simp [timedSet?] at hy
        subst hy
        exact ih2
    | resume => rw [ext_none]; exact ⟨ih1, trivial⟩
    | resumeEmpty => rw [ext_none]; exact ⟨ih1, trivial⟩
    | returned => rw [ext_none]; exact ⟨ih1, trivial⟩
    | raised => rw [ext_none]; exact ⟨ih1, trivial⟩
    | fails hp hfr hev =>
      refine ⟨?_, trivial⟩
      rcases hev with rfl | ⟨_, rfl, _⟩
      · rw [ext_none]; exact ih1
      · rw [quiet (by simp)]; exact ih1
  · intro h s s' pc _ ih hs _
    refine ⟨ih.1, ?_⟩
    cases pc <;> first | trivial | cases hs

theorem Reach.returnedAfter (hr : Reach E a s0 true h s pc) {o o' : OId} {t : Qty} {incl : Bool}
    (ht : a.esu = .leaf o (.timeTermination t incl)) (hs : a.seq = .leaf o' .never) :
    pc = .returned → ¬ BeforeTime t.val incl (s.clock a.id).time.absolute := by
  refine hr.ind (P := fun h s pc => pc = .returned →
    ¬ BeforeTime t.val incl (s.clock a.id).time.absolute) ?_ ?_ ?_
  · intro s _ e; cases e
  · intro h s s' pc pc' ev hr ih hst e
    cases hst with
    | stopSkip hd => have := hd.notBefore ht hs; exact this
    | stopIncr hd hst hsk hc =>
      have := hd.notBefore ht hs
      rw [Sys.clock_setClock, (incr_abs hc).2.2, if_neg (fun h => by cases h.2), Rat.add_zero]
      exact this
    | returned => exact ih rfl
    | _ => cases e
  · intro h s s' pc _ ih hs _ e
    subst e; cases hs

end GS

namespace GS.Props
open Spec
variable {α κ W : Type _} [DecidableEq α] [DecidableEq κ]
variable {a : RunArgs α κ W} {abs : Bool} {s s' s0 s1 : Sys α κ W} {pc pc' : PC α}
  {ev : Option (Event α)} {E : Sys α κ W → Sys α κ W → Prop} {h : History α κ W}

/-- C51: with `TimeTermination(t)` no set is yielded at `t` or later (after `t`, if it is
not inclusive). -/
theorem C51_not_after (hr : Reach E a s0 true h s pc) {o : OId} {t : Qty} {incl : Bool}
    (ht : a.esu = .leaf o (.timeTermination t incl)) :
    ∀ y ∈ timedSets a.id h, BeforeTime t.val incl y.2.2 :=
  (hr.before ht).1

/-- C51: and the run returns only when this time is reached: its sets are yielded at all
times `T + k * u` before it, where `T` is the time of the first one and `u` the interval of
the run.  Missing for the full property: that a first set is yielded at all, see
`C51_starts_partial` and `C51_nothing`. -/
theorem C51_until_partial (hr : Reach E a s0 true h s .returned) (hE : Keeps E fun s => s.clock a.id)
    {o o' : OId} {t : Qty} {incl : Bool}
    (ht : a.esu = .leaf o (.timeTermination t incl)) (hs : a.seq = .leaf o' .never)
    (hd : 0 ≤ s0.defaultUnit) :
    ¬ BeforeTime t.val incl (s.clock a.id).time.absolute ∧
    ∀ y0, (timedSets a.id h)[0]? = some y0 → ∀ k : Nat,
      (k < (timedSets a.id h).length ↔
        BeforeTime t.val incl (y0.2.2 + k * (s.clock a.id).time.absolute_interval)) := by
  obtain ⟨s1, hs1⟩ := hr.started
  obtain ⟨hk, _, hat⟩ := hr.absTimes hE hs1
  have hat := hat (fun e => by simp)
  have hret := hr.returnedAfter ht hs rfl
  refine ⟨hret, fun y0 hy0 k => ?_⟩
  have hb := (hr.before ht).1
  have hu : 0 ≤ (s1.clock a.id).time.absolute_interval := by
    rcases start_interval hs1 with ⟨_, h⟩ | ⟨_, hp, hg⟩
    · rw [h]; exact hd
    · exact parts_nonneg hp hg.1
  rw [hat.interval]
  have htime := hat.time
  simp only [PC.suspended, Bool.false_eq_true, if_false, Rat.add_zero] at htime
  have e0 := hk 0 y0 hy0
  have h00 : ((0 : Nat) : Rat) = 0 := rfl
  rw [h00, Rat.zero_mul, Rat.add_zero] at e0
  rw [e0]
  constructor
  · intro hlt
    have := hb _ (List.getElem_mem hlt)
    rw [hk k _ (List.getElem?_eq_getElem hlt)] at this
    exact this
  · intro hbk
    rcases Nat.lt_or_ge k (timedSets a.id h).length with h1 | h1
    · exact h1
    · exfalso
      apply hret
      rw [htime]
      have h2 : ((timedSets a.id h).length : Rat) ≤ (k : Rat) := Rat.natCast_le_natCast.mpr h1
      have h3 := Rat.mul_le_mul_of_nonneg_right h2 hu
      unfold BeforeTime at hbk ⊢
      split at hbk <;> grind

/-- C51: a first set is yielded if the clock is before `t` and some absolute condition of
the run mentions a time before `t`, or no time at all (for instance
`TimeInterval(repeat=r)`). -/
theorem C51_starts_partial (hr : Reach E a s0 true h s .returned) (hE : Keeps E fun s => s.clock a.id)
    (hC : Keeps E fun s => s.conds)
    {o o' : OId} {t : Qty} {incl : Bool}
    (ht : a.esu = .leaf o (.timeTermination t incl)) (hs : a.seq = .leaf o' .never)
    (hc : (s0.clock a.id).time.absolute < t.val)
    (hx : (∃ q, TimeUsed s a q ∧ q.val < t.val) ∨
      (0 < t.val ∧ ∃ c, InForce s a c ∧ c.isAbsolute = true ∧ ∀ q, ¬ MentionsTime c q)) :
    timedSets a.id h ≠ [] := by
  intro he
  obtain ⟨s1, hs1⟩ := hr.started
  obtain ⟨_, _, hat⟩ := hr.absTimes hE hs1
  have hat := hat (fun e => by simp)
  have hret := hr.returnedAfter ht hs rfl
  have htime := hat.time
  have h00 : ((([] : List (Nat × List α × Rat)).length : Nat) : Rat) = 0 := rfl
  simp only [PC.suspended, Bool.false_eq_true, if_false, Rat.add_zero, he] at htime
  rw [h00, Rat.zero_mul, Rat.add_zero] at htime
  have hcs := hr.keepConds hC hs1
  have hT : (s1.clock a.id).time.absolute < t.val := by
    rcases Sys.start_abs hs1 with ⟨h, _⟩ | ⟨_, _, u, hu, hcl⟩
    · cases h
    · have e : (s1.clock a.id).time.absolute =
          Sys.advanceTo (s0.clock a.id).time.absolute (s1.absoluteConds a) := by rw [hcl]
      rw [e]
      rcases hx with ⟨q, hq, hlt⟩ | ⟨h0, c, hf, ha, hno⟩
      · rw [timeUsed_congr hcs] at hq
        obtain ⟨c, hm, hp⟩ := (timeUsed_iff s1 a q).mp hq
        have h1 := advanceTo_le (cur := (s0.clock a.id).time.absolute) hm
        have h2 := firstPoint_le hp
        grind
      · have hm : c ∈ s1.absoluteConds a := by
          refine (mem_absoluteConds s1 a c).mpr ⟨?_, ha⟩
          unfold InForce at hf ⊢
          rw [← hcs]; exact hf
        have h1 := advanceTo_le (cur := (s0.clock a.id).time.absolute) hm
        have h2 : Sys.firstPoint c = 0 := by
          rcases firstPoint_mem c with ⟨_, h⟩ | ⟨q, hq, _⟩
          · exact h
          · exact absurd (mentions_of_mem c hq) (hno q)
        grind
  apply hret
  rw [htime]
  unfold BeforeTime
  split <;> grind

/-- C51 is false if the inclusive `TimeTermination(t)` is the only absolute condition of the
run: the clock is set to `t` at once, and nothing is executed, wherever the clock was. -/
theorem C51_nothing (hr : Reach E a s0 true h s pc) (hE : Keeps E fun s => s.clock a.id)
    (hC : Keeps E fun s => s.conds) {o : OId} {t : Qty}
    (ht : a.esu = .leaf o (.timeTermination t true))
    (hx : ∀ c, InForce s a c → c.isAbsolute = true → c = a.esu) :
    timedSets a.id h = [] := by
  cases hy : timedSets a.id h with
  | nil => rfl
  | cons y ys =>
    exfalso
    obtain ⟨s1, hs1⟩ := hr.started
    obtain ⟨hk, _, _⟩ := hr.absTimes hE hs1
    have hcs := hr.keepConds hC hs1
    have h0 := hk 0 y (by rw [hy]; rfl)
    have h00 : ((0 : Nat) : Rat) = 0 := rfl
    rw [h00, Rat.zero_mul, Rat.add_zero] at h0
    have hb := (hr.before ht).1 y (by rw [hy]; simp)
    unfold BeforeTime at hb
    rw [if_pos rfl, h0] at hb
    rcases Sys.start_abs hs1 with ⟨h, _⟩ | ⟨_, hne, u, hu, hcl⟩
    · cases h
    · have e : (s1.clock a.id).time.absolute =
          Sys.advanceTo (s0.clock a.id).time.absolute (s1.absoluteConds a) := by rw [hcl]
      have hall : ∀ c ∈ s1.absoluteConds a, Sys.firstPoint c = t.val := by
        intro c hc
        obtain ⟨h1, h2⟩ := (mem_absoluteConds s1 a c).mp hc
        have : c = a.esu := hx c (by unfold InForce at h1 ⊢; rw [hcs]; exact h1) h2
        rw [this, ht]; rfl
      rw [e] at hb
      generalize s1.absoluteConds a = cs at hne hall hb
      cases cs with
      | nil => exact hne rfl
      | cons c cs =>
        simp only [Sys.advanceTo] at hb
        have : cs.foldl (fun m x => min m (Sys.firstPoint x)) (Sys.firstPoint c) = t.val := by
          rcases foldl_min_mem Sys.firstPoint cs (Sys.firstPoint c) with h | ⟨x, hx, h⟩
          · rw [h]; exact hall c (by simp)
          · rw [h]; exact hall x (by simp [hx])
        rw [this] at hb
        grind

/-- The example of C49 returns at time 12 exactly. -/
example : (match (runAfter ticking untilTwelve 400).2.2 with | .returned => true | _ => false) = true ∧
    ((runAfter ticking untilTwelve 400).2.1.clock none).time.absolute = 12 ∧
    (timedSets none (runAfter ticking untilTwelve 400).1).length = 24 := by decide +kernel

/-- The hypothesis of `C51_starts_partial` holds in it. -/
example : 0 < (⟨12, 0⟩ : Qty).val ∧ ∃ c, InForce ticking untilTwelve c ∧ c.isAbsolute = true ∧
    ∀ q, ¬ MentionsTime c q :=
  ⟨by decide +kernel, _, .inl ⟨0, List.mem_cons_self⟩, rfl, fun q h => by cases h⟩

/-- Graph `0 -> 1` without any conditions. -/
def plain : Sys Nat Nat Unit := Sys.new [(1, [0])] .standard none 1 demoWorld

/-- A run of it with `TimeTermination(12)` yields nothing and returns at time 12. -/
theorem C51_plain : Reach (fun s s' => s' = s) untilTwelve plain true (runAfter plain untilTwelve 20).1
      (runAfter plain untilTwelve 20).2.1 (runAfter plain untilTwelve 20).2.2 ∧
    (plain.clock none).time.absolute = 0 ∧
    (match (runAfter plain untilTwelve 20).2.2 with | .returned => true | _ => false) = true ∧
    ((runAfter plain untilTwelve 20).2.1.clock none).time.absolute = 12 ∧
    yields (runAfter plain untilTwelve 20).1 = [] :=
  ⟨run_reach (by decide +kernel) _ _, by decide +kernel, by decide +kernel, by decide +kernel,
    by decide +kernel⟩

end GS.Props
