import Verif.Spec.Absolute
import Verif.RunClock
import Verif.Life
/-!
# Absolute time: lemmas
-/

set_option linter.unusedSectionVars false

namespace GS
open Spec
variable {α κ W : Type _} [DecidableEq α] [DecidableEq κ]

/-! ## The beginning of a run -/

namespace Sys

/-- What the absolute-time setup does to the clock. -/
theorem setupAbsolute_cases {s s' : Sys α κ W} {a : RunArgs α κ W} {abs : Bool}
    (h : s.setupAbsolute a = (s', .ok abs)) :
    (abs = false ∧ s.absoluteConds a = [] ∧ s' = s.setClock a.id { (s.clock a.id) with time :=
        { (s.clock a.id).time with absolute_enabled := false } }) ∨
    (abs = true ∧ s.absoluteConds a ≠ [] ∧ ∃ u, s.absoluteUnit (s.absoluteConds a) = .ok u ∧
      s' = s.setClock a.id { (s.clock a.id) with time :=
        { (s.clock a.id).time with
          absolute_interval := u, absolute := advanceTo (s.clock a.id).time.absolute (s.absoluteConds a)
          absolute_enabled := true } }) := by
  unfold setupAbsolute at h
  dsimp only at h
  split at h
  · rename_i hc
    simp only [Prod.mk.injEq, Except.ok.injEq] at h
    exact .inl ⟨h.2.symm, hc, h.1.symm⟩
  · rename_i hc
    split at h
    · simp at h
    · rename_i u hu
      simp only [Prod.mk.injEq, Except.ok.injEq] at h
      exact .inr ⟨h.2.symm, hc, u, hu, h.1.symm⟩

theorem clocks_initCounts {s s' : Sys α κ W} {i base r c} (h : s.initCounts i base = (s', r))
    (hc : Dict.get? s.clocks i = some c) : s'.clocks = s.clocks := by
  have e1 : ∀ {s s' : Sys α κ W}, s.initTotal i base = .ok s' → s'.clocks = s.clocks := by
    intro s s' h
    unfold initTotal at h
    repeat' split at h
    all_goals first | cases h; rfl | cases h
  have e2 : ∀ {s s' : Sys α κ W}, s.initUseable i base = .ok s' → s'.clocks = s.clocks := by
    intro s s' h
    unfold initUseable at h
    repeat' split at h
    all_goals first | cases h; rfl | cases h
  have e3 : ∀ {s s' : Sys α κ W}, s.initList i base = .ok s' → s'.clocks = s.clocks := by
    intro s s' h
    unfold initList at h
    repeat' split at h
    all_goals first | cases h; rfl | cases h
  unfold initCounts at h
  split at h
  · cases h; rfl
  · rename_i s1 h1
    split at h
    · cases h; exact e1 h1
    · rename_i s2 h2
      split at h
      · cases h; rw [e2 h2, e1 h1]
      · rename_i s3 h3
        have hk : s3.clocks = s.clocks := by rw [e3 h3, e2 h2, e1 h1]
        have : s3.initClock i base = .ok s3 := initClock_keep (by rw [hk]; exact hc)
        rw [this] at h
        cases h; exact hk

/-- The clock at the beginning of the loop. -/
theorem start_abs {s0 s : Sys α κ W} {a : RunArgs α κ W} {abs : Bool}
    (h : s0.start a = (s, .ok abs)) :
    (abs = false ∧ s.absoluteConds a = [] ∧
      (s.clock a.id).time = { (s0.clock a.id).time with absolute_enabled := false }) ∨
    (abs = true ∧ s.absoluteConds a ≠ [] ∧ ∃ u, s.absoluteUnit (s.absoluteConds a) = .ok u ∧
      (s.clock a.id).time = { (s0.clock a.id).time with
          absolute_interval := u
          absolute := advanceTo (s0.clock a.id).time.absolute (s.absoluteConds a)
          absolute_enabled := true }) := by
  have hst := start_ok h
  unfold start at h
  rcases h1 : s0.validateRunState with ⟨s1, e1⟩
  cases e1 with
  | some e => simp only [h1, Prod.mk.injEq] at h; exact absurd h.2 (by simp)
  | none =>
    simp only [h1] at h
    obtain ⟨_, cs, st, e1⟩ := validateRunState_ok h1
    obtain ⟨d, ed, hd⟩ := getClock_frame s1 a.id
    have hc1 : (s1.getClock a.id).clock a.id = s0.clock a.id := by
      rw [getClock_clock, e1]
    rcases h2 : (s1.getClock a.id).setupAbsolute a with ⟨s2, e | abs2⟩
    · simp only [h2, Prod.mk.injEq] at h; exact absurd h.2 (by simp)
    · simp only [h2] at h
      have hcl2 : ∃ c, Dict.get? s2.clocks a.id = some c := by
        obtain ⟨ab, ai, ae, e2⟩ := setupAbsolute_ok h2
        exact ⟨_, by rw [e2]; simp [setClock, Dict.get?_set]; rfl⟩
      rcases h3 : s2.initCounts a.id a.base with ⟨s3, e3⟩
      cases e3 with
      | some e => simp only [h3, Prod.mk.injEq] at h; exact absurd h.2 (by simp)
      | none =>
        simp only [h3] at h
        obtain ⟨c, hc⟩ := hcl2
        have hk := clocks_initCounts h3 hc
        have habs : abs2 = abs ∧ s.clocks = s3.clocks := by
          unfold resetTotal at h
          split at h
          · cases h
          · rename_i s4 h4
            split at h4
            · cases h4
            · cases h4; cases h; exact ⟨rfl, rfl⟩
        obtain ⟨rfl, hks⟩ := habs
        have hclk : s.clock a.id = s2.clock a.id := by
          unfold View.clock; rw [hks, hk]
        obtain ⟨s1', h1', hcs, _⟩ := hst.conds
        rw [h1] at h1'
        obtain ⟨rfl, _⟩ := Prod.mk.inj h1'
        have hac : (s1.getClock a.id).absoluteConds a = s.absoluteConds a := by
          unfold absoluteConds
          rw [hcs, ed]
        have hau : ∀ cs, (s1.getClock a.id).absoluteUnit cs = s.absoluteUnit cs := by
          intro cs
          unfold absoluteUnit
          rw [hst.mode, hst.queue, hst.defaultUnit, ed, e1]
        rcases setupAbsolute_cases h2 with ⟨e, hn, hs2⟩ | ⟨e, hn, u, hu, hs2⟩
        · refine .inl ⟨e, by rw [← hac]; exact hn, ?_⟩
          rw [hclk, hs2, clock_setClock, hc1]
        · refine .inr ⟨e, by rw [← hac]; exact hn, u, by rw [← hac, ← hau]; exact hu, ?_⟩
          rw [hclk, hs2, clock_setClock, hc1, hac]

end Sys

/-! ## One step -/

theorem incr_abs {c c' : Clock} {ts : TimeScale} (h : c.incr ts = .ok c') :
    c'.time.absolute_enabled = c.time.absolute_enabled ∧
    c'.time.absolute_interval = c.time.absolute_interval ∧
    c'.time.absolute = c.time.absolute +
      (if c.time.absolute_enabled = true ∧ ts = .consideration_set_execution
        then c.time.absolute_interval else 0) := by
  unfold Clock.incr at h
  split at h
  · cases h
  · cases h
    dsimp only
    have hx : ((c.time.set ts (c.time.get ts + 1)).reset ts).absolute_enabled = c.time.absolute_enabled := rfl
    unfold Time.incr
    dsimp only
    rw [hx]
    by_cases h1 : c.time.absolute_enabled = true
    · by_cases h2 : ts = .consideration_set_execution
      · rw [if_pos (by simp [h1, h2]), if_pos ⟨h1, h2⟩]; exact ⟨rfl, rfl, rfl⟩
      · rw [if_neg (by simp [h2]), if_neg (fun h => h2 h.2)]
        exact ⟨rfl, rfl, by rw [Rat.add_zero]; rfl⟩
    · rw [if_neg (by simp [h1]), if_neg (fun h => h1 h.1)]
      exact ⟨rfl, rfl, by rw [Rat.add_zero]; rfl⟩

variable {a : RunArgs α κ W} {abs : Bool} {s s' s0 : Sys α κ W} {pc pc' : PC α}
  {ev : Option (Event α)} {E : Sys α κ W → Sys α κ W → Prop} {h : History α κ W}

/-- Absolute time in one step that does not raise. -/
theorem StepR.absClock (hst : StepR a abs s pc s' pc' ev) (hp : ∀ e, pc' ≠ .raised e)
    (en : (s.clock a.id).time.absolute_enabled = true) :
    (s'.clock a.id).time.absolute_enabled = true ∧
    (s'.clock a.id).time.absolute_interval = (s.clock a.id).time.absolute_interval ∧
    (s'.clock a.id).time.absolute = (s.clock a.id).time.absolute +
      (if pc.suspended = true then (s.clock a.id).time.absolute_interval else 0) := by
  have same : ∀ {s' : Sys α κ W}, s'.clocks = s.clocks → pc.suspended = false →
      (s'.clock a.id).time.absolute_enabled = true ∧
      (s'.clock a.id).time.absolute_interval = (s.clock a.id).time.absolute_interval ∧
      (s'.clock a.id).time.absolute = (s.clock a.id).time.absolute +
        (if pc.suspended = true then (s.clock a.id).time.absolute_interval else 0) := by
    intro s' h hp
    have : s'.clock a.id = s.clock a.id := by unfold View.clock; rw [h]
    rw [this, hp, if_neg (by simp), Rat.add_zero]
    exact ⟨en, rfl, rfl⟩
  cases hst with
  | pass => exact same rfl rfl
  | stopSkip => exact same rfl rfl
  | stopIncr hd hst hs hc =>
    have := incr_abs hc
    rw [Sys.clock_setClock]
    exact ⟨by rw [this.1]; exact en, this.2.1, by rw [this.2.2]; simp [PC.suspended]⟩
  | passEnd hl hch hc =>
    have := incr_abs hc
    rw [Sys.clock_setClock]
    exact ⟨by rw [this.1]; exact en, this.2.1, by rw [this.2.2]; simp [PC.suspended]⟩
  | emptyYield => exact same rfl rfl
  | consider => exact same rfl rfl
  | again => exact same rfl rfl
  | skip => exact same rfl rfl
  | reject => exact same rfl rfl
  | add => exact same rfl rfl
  | yield => exact same rfl rfl
  | yieldAbs => exact same rfl rfl
  | silent => exact same rfl rfl
  | resume hc =>
    have := incr_abs hc
    rw [Sys.clock_setClock]
    exact ⟨by rw [this.1]; exact en, this.2.1, by rw [this.2.2]; simp [PC.suspended, en]⟩
  | resumeEmpty hc1 hc2 =>
    have h1 := incr_abs hc1
    have h2 := incr_abs hc2
    rw [Sys.clock_setClock]
    exact ⟨by rw [h2.1, h1.1]; exact en, by rw [h2.2.1, h1.2.1], by
      rw [h2.2.2, h1.2.2]; simp [PC.suspended, en, Rat.add_zero]⟩
  | returned => exact same rfl rfl
  | raised => exact absurd rfl (hp _)
  | fails => exact absurd rfl (hp _)

/-- When absolute time is not enabled, it stands still. -/
theorem StepR.still (hst : StepR a abs s pc s' pc' ev)
    (en : (s.clock a.id).time.absolute_enabled = false) :
    (s'.clock a.id).time.absolute_enabled = false ∧
    (s'.clock a.id).time.absolute_interval = (s.clock a.id).time.absolute_interval ∧
    (s'.clock a.id).time.absolute = (s.clock a.id).time.absolute := by
  have same : ∀ {s' : Sys α κ W}, s'.clocks = s.clocks →
      (s'.clock a.id).time.absolute_enabled = false ∧
      (s'.clock a.id).time.absolute_interval = (s.clock a.id).time.absolute_interval ∧
      (s'.clock a.id).time.absolute = (s.clock a.id).time.absolute := by
    intro s' h
    have : s'.clock a.id = s.clock a.id := by unfold View.clock; rw [h]
    rw [this]
    exact ⟨en, rfl, rfl⟩
  have one : ∀ {c c' : Clock} {ts}, c.time.absolute_enabled = false → c.incr ts = .ok c' →
      c'.time.absolute_enabled = false ∧
      c'.time.absolute_interval = c.time.absolute_interval ∧
      c'.time.absolute = c.time.absolute := by
    intro c c' ts he h
    have := incr_abs h
    exact ⟨this.1.trans he, this.2.1, by rw [this.2.2, he]; simp [Rat.add_zero]⟩
  cases hst with
  | pass => exact same rfl
  | stopSkip => exact same rfl
  | stopIncr hd hst hs hc => rw [Sys.clock_setClock]; exact one en hc
  | passEnd hl hch hc => rw [Sys.clock_setClock]; exact one en hc
  | emptyYield => exact same rfl
  | consider => exact same rfl
  | again => exact same rfl
  | skip => exact same rfl
  | reject => exact same rfl
  | add => exact same rfl
  | yield => exact same rfl
  | yieldAbs => exact same rfl
  | silent => exact same rfl
  | resume hc => rw [Sys.clock_setClock]; exact one en hc
  | resumeEmpty hc1 hc2 =>
    have h1 := one en hc1
    have h2 := one h1.1 hc2
    rw [Sys.clock_setClock]
    exact ⟨h2.1, h2.2.1.trans h1.2.1, h2.2.2.trans h1.2.2⟩
  | returned => exact same rfl
  | raised => exact same rfl
  | fails hp hfr hev =>
    cases hfr with
    | store => exact same rfl
    | clock st c _ ts _ hc => rw [Sys.clock_setClock]; exact one en hc
    | list => exact same rfl

/-- In any step, absolute time stays or advances by the interval, which stays. -/
theorem StepR.absTime (hst : StepR a abs s pc s' pc' ev) :
    (s'.clock a.id).time.absolute_interval = (s.clock a.id).time.absolute_interval ∧
    ((s'.clock a.id).time.absolute = (s.clock a.id).time.absolute ∨
     (s'.clock a.id).time.absolute = (s.clock a.id).time.absolute +
      (s.clock a.id).time.absolute_interval) := by
  have same : ∀ {s' : Sys α κ W}, s'.clocks = s.clocks →
    (s'.clock a.id).time.absolute_interval = (s.clock a.id).time.absolute_interval ∧
    ((s'.clock a.id).time.absolute = (s.clock a.id).time.absolute ∨
     (s'.clock a.id).time.absolute = (s.clock a.id).time.absolute +
      (s.clock a.id).time.absolute_interval) := by
    intro s' h
    have : s'.clock a.id = s.clock a.id := by unfold View.clock; rw [h]
    rw [this]; exact ⟨rfl, .inl rfl⟩
  have one : ∀ {s' : Sys α κ W} {c ts}, (s.clock a.id).incr ts = .ok c → s'.clock a.id = c →
    (s'.clock a.id).time.absolute_interval = (s.clock a.id).time.absolute_interval ∧
    ((s'.clock a.id).time.absolute = (s.clock a.id).time.absolute ∨
     (s'.clock a.id).time.absolute = (s.clock a.id).time.absolute +
      (s.clock a.id).time.absolute_interval) := by
    intro s' c ts h hc
    have := incr_abs h
    rw [hc]
    refine ⟨this.2.1, ?_⟩
    rw [this.2.2]
    split
    · exact .inr rfl
    · exact .inl (Rat.add_zero _)
  cases hst with
  | pass => exact same rfl
  | stopSkip => exact same rfl
  | stopIncr hd hst hs hc => exact one hc (Sys.clock_setClock _ _ _)
  | passEnd hl hch hc => exact one hc (Sys.clock_setClock _ _ _)
  | emptyYield => exact same rfl
  | consider => exact same rfl
  | again => exact same rfl
  | skip => exact same rfl
  | reject => exact same rfl
  | add => exact same rfl
  | yield => exact same rfl
  | yieldAbs => exact same rfl
  | silent => exact same rfl
  | resume hc => exact one hc (Sys.clock_setClock _ _ _)
  | resumeEmpty hc1 hc2 =>
    have h2 := incr_abs hc2
    have := one (s' := s.setClock a.id _) hc1 (Sys.clock_setClock _ _ _)
    rw [Sys.clock_setClock] at this ⊢
    rw [h2.2.1, h2.2.2]
    simp only [reduceCtorEq, and_false, if_false, Rat.add_zero]
    exact this
  | returned => exact same rfl
  | raised => exact same rfl
  | fails hp hfr hev =>
    cases hfr with
    | store => exact same rfl
    | clock st c _ ts _ hc => exact one hc (Sys.clock_setClock _ _ _)
    | list => exact same rfl

/-! ## Runs -/

theorem timed_snoc (i : Option κ) (h : History α κ W) (e : Entry α κ W) :
    timedSets i (h ++ [e]) = timedSets i h ++ (timedSet? i e).toList := by
  unfold timedSets
  rw [List.filterMap_append]
  cases hx : timedSet? i e <;> simp [hx]

theorem Reach.started (hr : Reach E a s0 abs h s pc) : ∃ s1, s0.start a = (s1, .ok abs) := by
  refine hr.ind (P := fun _ _ _ => ∃ s1, s0.start a = (s1, .ok abs)) ?_ ?_ ?_
  · intro s hs; exact ⟨s, hs⟩
  · intros; assumption
  · intros; assumption

theorem ratStep {x T u : Rat} {k : Nat} (h : x = T + k * u) : x + u = T + ((k + 1 : Nat) : Rat) * u := by
  grind

/-- Absolute time in a run in absolute-time mode: `T` is the time at the beginning of the
loop, `u` the interval. -/
structure AbsAt (id : Option κ) (T u : Rat) (h : History α κ W) (s : Sys α κ W) (pc : PC α) : Prop where
  enabled : (s.clock id).time.absolute_enabled = true
  interval : (s.clock id).time.absolute_interval = u
  time : (s.clock id).time.absolute + (if pc.suspended = true then u else 0) =
    T + ((timedSets id h).length : Rat) * u

theorem Reach.absTimes (hr : Reach E a s0 true h s pc) (hE : Keeps E fun s => s.clock a.id)
    {s1 : Sys α κ W} (h1 : s0.start a = (s1, .ok true)) :
    (∀ (k : Nat) y, (timedSets a.id h)[k]? = some y → y.2.2 = (s1.clock a.id).time.absolute +
      k * (s1.clock a.id).time.absolute_interval) ∧
    (timedSets a.id h).map (fun y => y.2.1) = yields h ∧
    ((∀ e, pc ≠ .raised e) → AbsAt a.id (s1.clock a.id).time.absolute
      (s1.clock a.id).time.absolute_interval h s pc) := by
  refine hr.ind (P := fun h s pc =>
    (∀ (k : Nat) y, (timedSets a.id h)[k]? = some y → y.2.2 = (s1.clock a.id).time.absolute +
      k * (s1.clock a.id).time.absolute_interval) ∧
    (timedSets a.id h).map (fun y => y.2.1) = yields h ∧
    ((∀ e, pc ≠ .raised e) → AbsAt a.id (s1.clock a.id).time.absolute
      (s1.clock a.id).time.absolute_interval h s pc)) ?_ ?_ ?_
  · intro s hs
    rw [h1] at hs
    obtain ⟨rfl, _⟩ := Prod.mk.inj hs
    refine ⟨by intro k y hy; simp [timedSets] at hy, rfl, fun _ => ⟨?_, rfl, ?_⟩⟩
    · rcases Sys.start_abs h1 with ⟨h, _⟩ | ⟨_, _, u, _, hc⟩
      · cases h
      · rw [hc]
    · simp only [PC.suspended, timedSets, List.filterMap_nil, List.length_nil]
      simp [Rat.add_zero]
  · intro h s s' pc pc' ev hr ih hst
    obtain ⟨ihk, ihy, ih⟩ := ih
    have hnr : ∀ e, pc ≠ .raised e ∨ pc' = .raised e := by
      intro e
      by_cases hp : pc = .raised e
      · subst hp
        right
        cases hst with
        | raised => rfl
        | fails hp => cases hp
      · exact .inl hp
    -- an event that shows nothing
    have quiet : (∀ i set, ev ≠ some (.layer i set true)) → ev ≠ some .emptyPass →
        pc'.suspended = false →
        (∀ (k : Nat) y, (timedSets a.id (ext h s ev s'))[k]? = some y → y.2.2 = (s1.clock a.id).time.absolute +
          k * (s1.clock a.id).time.absolute_interval) ∧
        (timedSets a.id (ext h s ev s')).map (fun y => y.2.1) = yields (ext h s ev s') ∧
        ((∀ e, pc' ≠ .raised e) → AbsAt a.id (s1.clock a.id).time.absolute
          (s1.clock a.id).time.absolute_interval (ext h s ev s') s' pc') := by
      intro hev hem hsus
      have hsh : timedSets a.id (ext h s ev s') = timedSets a.id h ∧ yields (ext h s ev s') = yields h := by
        cases ev with
        | none => rw [ext_none]; exact ⟨rfl, rfl⟩
        | some x =>
          rw [ext_some, timed_snoc, yields_snoc]
          cases x with
          | layer i set b =>
            cases b with
            | true => exact absurd rfl (hev i set)
            | false => simp [timedSet?, Event.yield?]
          | emptyPass => exact absurd rfl hem
          | _ => simp [timedSet?, Event.yield?]
      rw [hsh.1, hsh.2]
      refine ⟨ihk, ihy, fun hp => ?_⟩
      have hp0 : ∀ e, pc ≠ .raised e := fun e => (hnr e).resolve_right (hp e)
      have i0 := ih hp0
      have hc := hst.absClock hp i0.enabled
      refine ⟨hc.1, hc.2.1.trans i0.interval, ?_⟩
      rw [hsus, hsh.1, hc.2.2, i0.interval]
      simp only [Bool.false_eq_true, if_false, Rat.add_zero]
      exact i0.time
    cases hst with
    | yield _ _ ha => cases ha
    | emptyYield _ ha => cases ha
    | silent _ _ ha => cases ha
    | @yieldAbs c l ts ht hag ha hx hts =>
      have i0 := ih (fun e => by simp)
      have ht0 : (s.clock a.id).time.absolute = (s1.clock a.id).time.absolute +
          ((timedSets a.id h).length : Rat) * (s1.clock a.id).time.absolute_interval := by
        have := i0.time
        simpa [PC.suspended, Rat.add_zero] using this
      have hsh : timedSets a.id (h ++ [⟨s, .layer c.idx c.exec true, ((s.putList a.id (l ++ [c.exec])).putStamps
          a.id (ts ++ [(s.clock a.id).time]))⟩]) =
          timedSets a.id h ++ [(c.idx, c.exec, (s.clock a.id).time.absolute)] := by
        rw [timed_snoc]; rfl
      rw [ext_some, hsh]
      refine ⟨?_, ?_, fun _ => ⟨i0.enabled, i0.interval, ?_⟩⟩
      · intro k y hy
        rcases Nat.lt_trichotomy k (timedSets a.id h).length with hk | hk | hk
        · rw [List.getElem?_append_left hk] at hy; exact ihk k y hy
        · rw [hk, List.getElem?_append_right (Nat.le_refl _)] at hy
          simp at hy; subst hy; rw [hk]; exact ht0
        · rw [List.getElem?_eq_none (by simp; omega)] at hy; cases hy
      · rw [List.map_append, ihy, yields_snoc]; rfl
      · have e : ((s.putList a.id (l ++ [c.exec])).putStamps a.id (ts ++ [(s.clock a.id).time])).clock a.id =
            s.clock a.id := rfl
        rw [hsh, e, List.length_append, List.length_singleton]
        simp only [PC.suspended, if_true]
        exact ratStep ht0
    | resume => exact quiet (by simp) (by simp) rfl
    | resumeEmpty => exact quiet (by simp) (by simp) rfl
    | fails hp hfr hev =>
      refine quiet ?_ ?_ rfl
      · rcases hev with rfl | ⟨_, rfl, _⟩ <;> simp
      · rcases hev with rfl | ⟨_, rfl, _⟩ <;> simp
    | _ => exact quiet (by simp) (by simp) rfl
  · intro h s s' pc hr ih hp he
    refine ⟨ih.1, ih.2.1, fun hnr => ?_⟩
    have i0 := ih.2.2 hnr
    have e : s'.clock a.id = s.clock a.id := hE _ _ he
    exact ⟨by rw [e]; exact i0.enabled, by rw [e]; exact i0.interval, by rw [e]; exact i0.time⟩

end GS
