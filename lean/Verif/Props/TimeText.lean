import Verif.TimeText
import Verif.Spec.TimeText
import Verif.Props.Time
import Verif.Props.RunClock
/-!
# C123: the text of a time identifies the moment
-/

set_option linter.unusedSectionVars false

namespace GS.Props
open Spec TimeScale
variable {α κ W β : Type _} [DecidableEq α] [DecidableEq κ]
variable {E : Sys α κ W → Sys α κ W → Prop} {a : RunArgs α κ W} {s0 s : Sys α κ W}
variable {abs : Bool} {h : History α κ W} {pc : PC α}

/-- C123: what the text says, without aliases and absolute time. -/
theorem C123_text (quantity : Rat → Str) (t : Time) (hn : t.absolute_enabled = false) :
    String.ofList (t.repr quantity []) =
      s!"Time(environment_sequence: {t.at_ environment_sequence}, environment_state_update: {t.at_ environment_state_update}, pass: {t.at_ pass}, consideration_set_execution: {t.at_ consideration_set_execution})" ∧
    String.ofList (t.simpleRepr quantity []) =
      s!"Time(environment_sequence: {t.at_ environment_sequence}, environment_state_update: {t.at_ environment_state_update}, consideration_set_execution: {t.at_ consideration_set_execution})" := by
  have hd : ∀ n : Nat, String.ofList (Nat.toDigits 10 n) = toString n := fun n =>
    Nat.toString_eq_ofList_toDigits.symm
  have e1 : String.ofList (Str.lower (name environment_sequence)) = "environment_sequence" := by
    decide +kernel
  have e2 : String.ofList (Str.lower (name environment_state_update)) = "environment_state_update" := by
    decide +kernel
  have e3 : String.ofList (Str.lower (name pass)) = "pass" := by decide +kernel
  have e4 : String.ofList (Str.lower (name consideration_set_execution)) =
    "consideration_set_execution" := by decide +kernel
  have l1 : "Time(environment_sequence: " = "Time(" ++ ("environment_sequence" ++ ": ") := by
    decide +kernel
  have l2 : ", environment_state_update: " = ", " ++ ("environment_state_update" ++ ": ") := by
    decide +kernel
  have l3 : ", pass: " = ", " ++ ("pass" ++ ": ") := by decide +kernel
  have l4 : ", consideration_set_execution: " = ", " ++ ("consideration_set_execution" ++ ": ") := by
    decide +kernel
  have f1 : coarsestFirst.filter (fun ts => decide (ts ∉ [life])) =
    [environment_sequence, environment_state_update, pass, consideration_set_execution] := by
    decide
  have f2 : coarsestFirst.filter (fun ts => decide (ts ∉ [life, pass])) =
    [environment_sequence, environment_state_update, consideration_set_execution] := by
    decide
  have ha : t.absStr quantity = [] := by simp [Time.absStr, hn]
  have hn' : ∀ ts : TimeScale, ts.shownName [] = Str.lower ts.name := fun _ => rfl
  constructor
  · simp only [Time.repr, Time.timeRepr, ha, f1, hn', List.map_cons, List.map_nil, Str.commaJoin,
      Time.get, List.nil_append, String.ofList_append, String.ofList_toList, hd, e1, e2, e3, e4,
      l1, l2, l3, l4, String.append_assoc, toString]
  · simp only [Time.simpleRepr, Time.timeRepr, ha, f2, hn', List.map_cons, List.map_nil,
      Str.commaJoin, Time.get, List.nil_append, String.ofList_append, String.ofList_toList, hd, e1,
      e2, e4, l1, l2, l4, String.append_assoc, toString]

/-- C123: two texts are the same exactly if the times agree in everything but the life; the
absolute time is shown if and only if it is enabled. The text of a quantity has no comma. -/
theorem C123_identifies {quantity : Rat → Str} (hq : ∀ r, ',' ∉ quantity r)
    (aliases : Dict TimeScale Str) (t t' : Time) :
    t.repr quantity aliases = t'.repr quantity aliases ↔
      t.absolute_enabled = t'.absolute_enabled ∧
      (t.absolute_enabled = true → quantity t.absolute = quantity t'.absolute) ∧
      ∀ ts, ts ≠ life → t.at_ ts = t'.at_ ts := by
  refine (text_inj hq aliases t t' [life]).trans ?_
  simp

/-- C123 for `simple_time`: the pass is not shown. -/
theorem C123_simple {quantity : Rat → Str} (hq : ∀ r, ',' ∉ quantity r)
    (aliases : Dict TimeScale Str) (t t' : Time) :
    t.simpleRepr quantity aliases = t'.simpleRepr quantity aliases ↔
      t.absolute_enabled = t'.absolute_enabled ∧
      (t.absolute_enabled = true → quantity t.absolute = quantity t'.absolute) ∧
      ∀ ts, ts ≠ life → ts ≠ pass → t.at_ ts = t'.at_ ts := by
  refine (text_inj hq aliases t t' [life, pass]).trans ?_
  simp

/-- C123: no two moments of the life of a clock have the same text. -/
theorem C123_clock {quantity : Rat → Str} (hq : ∀ r, ',' ∉ quantity r)
    (aliases : Dict TimeScale Str) {pre suf : List TimeScale} (hne : suf ≠ []) {c c' : Clock}
    (hc : Shows c pre) (hc' : Shows c' (pre ++ suf)) :
    c.time.repr quantity aliases ≠ c'.time.repr quantity aliases := by
  intro he
  obtain ⟨_, _, h3⟩ := (C123_identifies hq aliases _ _).mp he
  obtain ⟨n1, _, e1⟩ := shows_iff.mp hc
  obtain ⟨n2, _, e2⟩ := shows_iff.mp hc'
  obtain ⟨s, hs, _⟩ := C20_history_increasing pre suf hne
  have hl : s ≠ life := by
    rintro rfl; rw [field_life n2] at hs; omega
  have := h3 s hl
  rw [e1, e2] at this
  omega

/-- Later, and not only by the life. -/
def Before (f g : TimeScale → Nat) : Prop :=
  ∃ s, s ≠ life ∧ f s < g s ∧ ∀ s', s.val < s'.val → f s' = g s'

theorem Before.trans {f g k : TimeScale → Nat} (x : Before f g) (y : Before g k) : Before f k := by
  obtain ⟨s, h0, h1, h2⟩ := x
  obtain ⟨t, h3, h4, h5⟩ := y
  by_cases hlt : s.val < t.val
  · exact ⟨t, h3, by rw [h2 t hlt]; exact h4, fun s' hs' => by rw [h2 s' (by omega), h5 s' hs']⟩
  · by_cases heq : s.val = t.val
    · have := val_inj heq; subst this
      exact ⟨s, h0, by omega, fun s' hs' => by rw [h2 s' hs', h5 s' hs']⟩
    · exact ⟨s, h0, by rw [← h5 s (by omega)]; exact h1,
        fun s' hs' => by rw [h2 s' hs', h5 s' (by omega)]⟩

theorem before_incr {c c' : Clock} {ts : TimeScale} (hl : ts ≠ life) (h : c.incr ts = .ok c') :
    Before c.time.at_ c'.time.at_ := by
  obtain ⟨_, h1, _, h3, _⟩ := C20_increment c c' ts h
  exact ⟨ts, hl, by omega, fun s' hs' => (h3 s' hs').symm⟩

/-- The times of the yields so far, and the time now. -/
structure Timely (id : Option κ) (h : History α κ W) (s : Sys α κ W) (pc : PC α) : Prop where
  apart : (yieldTimes id h).Pairwise fun t t' => Before t.at_ t'.at_
  now : pc.suspended = true → ∀ t ∈ yieldTimes id h,
    Before t.at_ (s.clock id).time.at_ ∨ t.at_ = (s.clock id).time.at_
  past : pc.suspended = false → (∀ e, pc ≠ .raised e) → ∀ t ∈ yieldTimes id h,
    Before t.at_ (s.clock id).time.at_

theorem yieldTimes_snoc (id : Option κ) (h : History α κ W) (e : Entry α κ W) :
    yieldTimes id (h ++ [e]) = yieldTimes id h ++
      (e.ev.yield?.map fun _ => (e.after.clock id).time).toList := by
  unfold yieldTimes
  rw [List.filterMap_append]
  cases h' : e.ev.yield? <;> simp [h']

theorem Timely.keep {id : Option κ} {s s' : Sys α κ W} {pc pc' : PC α} {h' : History α κ W}
    (ih : Timely id h s pc)
    (hp : pc.suspended = false) (hr : ∀ e, pc ≠ .raised e) (hp' : pc'.suspended = false)
    (hy : yieldTimes id h' = yieldTimes id h)
    (hc : s'.clock id = s.clock id ∨ ∃ ts, ts ≠ life ∧ (s.clock id).incr ts = .ok (s'.clock id)) :
    Timely id h' s' pc' := by
  refine ⟨by rw [hy]; exact ih.apart, fun hh => absurd (hp'.symm.trans hh) (by simp), fun _ _ t ht => ?_⟩
  rw [hy] at ht
  have := ih.past hp hr t ht
  rcases hc with hc | ⟨ts, hl, hc⟩
  · rw [hc]; exact this
  · exact this.trans (before_incr hl hc)

theorem Timely.yields {id : Option κ} {s s' : Sys α κ W} {pc pc' : PC α} {x : Event α}
    {y : List α} (ih : Timely id h s pc)
    (hp : pc.suspended = false) (hr : ∀ e, pc ≠ .raised e) (hp' : pc'.suspended = true)
    (hy : x.yield? = some y) (hc : s'.clock id = s.clock id) :
    Timely id (h ++ [⟨s, x, s'⟩]) s' pc' := by
  have e : yieldTimes id (h ++ [⟨s, x, s'⟩]) = yieldTimes id h ++ [(s'.clock id).time] := by
    rw [yieldTimes_snoc]; simp [hy]
  refine ⟨?_, fun _ t ht => ?_, fun hh => absurd (hp'.symm.trans hh) (by simp)⟩
  · rw [e, List.pairwise_append]
    refine ⟨ih.apart, by simp, fun t ht t' ht' => ?_⟩
    simp at ht'; subst ht'
    rw [hc]; exact ih.past hp hr t ht
  · rw [e] at ht
    rcases List.mem_append.mp ht with ht | ht
    · rw [hc]; exact .inl (ih.past hp hr t ht)
    · simp at ht; subst ht; exact .inr rfl

theorem Timely.resume {id : Option κ} {s s' : Sys α κ W} {pc pc' : PC α}
    (ih : Timely id h s pc) (hp : pc.suspended = true) (hp' : pc'.suspended = false)
    (hc : Before (s.clock id).time.at_ (s'.clock id).time.at_) : Timely id h s' pc' := by
  refine ⟨ih.apart, fun hh => absurd (hp'.symm.trans hh) (by simp), fun _ _ t ht => ?_⟩
  rcases ih.now hp t ht with hb | he
  · exact hb.trans hc
  · rw [he]; exact hc

theorem Timely.failed {id : Option κ} {s s' : Sys α κ W} {pc : PC α} {e : Err}
    {h' : History α κ W} (ih : Timely id h s pc) (hy : yieldTimes id h' = yieldTimes id h) :
    Timely id h' s' (.raised e) :=
  ⟨by rw [hy]; exact ih.apart, fun hh => by simp [PC.suspended] at hh, fun _ hh => absurd rfl (hh e)⟩

theorem Reach.timely (hr : Reach E a s0 abs h s pc) (hE : Keeps E (fun s => s.clock a.id)) :
    Timely a.id h s pc := by
  refine hr.ind (P := fun h s pc => Timely a.id h s pc) ?_ ?_ ?_
  · intro s hs
    exact ⟨by simp [yieldTimes], by simp [yieldTimes], by simp [yieldTimes]⟩
  · intro h s s' pc pc' ev _ ih hst
    have hset : ∀ (s : Sys α κ W) st c, ((s.putStore st).setClock a.id c).clock a.id = c :=
      fun s st c => Sys.clock_setClock _ _ _
    have hno : ∀ (s' : Sys α κ W) (x : Event α), x.yield? = none →
        yieldTimes a.id (h ++ [⟨s, x, s'⟩]) = yieldTimes a.id h := by
      intro s' x hx; rw [yieldTimes_snoc]; simp [hx]
    cases hst with
    | pass hg hf =>
      rw [ext_some]; exact ih.keep rfl (by simp) rfl (hno _ _ rfl) (.inl rfl)
    | stopSkip hd hst hs =>
      rw [ext_some]; exact ih.keep rfl (by simp) rfl (hno _ _ rfl) (.inl rfl)
    | stopIncr hd hst hs hc =>
      rw [ext_some]
      exact ih.keep rfl (by simp) rfl (hno _ _ rfl) (.inr ⟨environment_state_update, by decide, by rw [hset]; exact hc⟩)
    | passEnd hl hch hc =>
      rw [ext_none]
      exact ih.keep rfl (by simp) rfl rfl (.inr ⟨pass, by decide, by rw [hset]; exact hc⟩)
    | emptyYield hl ha hx =>
      rw [ext_some]; exact ih.yields rfl (by simp) rfl (y := []) rfl rfl
    | consider hq hg =>
      rw [ext_some]; exact ih.keep rfl (by simp) rfl (hno _ _ rfl) (.inl rfl)
    | again => rw [ext_none]; exact ih.keep rfl (by simp) rfl rfl (.inl rfl)
    | skip => rw [ext_none]; exact ih.keep rfl (by simp) rfl rfl (.inl rfl)
    | reject => rw [ext_none]; exact ih.keep rfl (by simp) rfl rfl (.inl rfl)
    | add => rw [ext_some]; exact ih.keep rfl (by simp) rfl (hno _ _ rfl) (.inl rfl)
    | @yield c => rw [ext_some]; exact ih.yields rfl (by simp) rfl (y := c.exec) rfl rfl
    | @yieldAbs c => rw [ext_some]; exact ih.yields rfl (by simp) rfl (y := c.exec) rfl rfl
    | silent => rw [ext_some]; exact ih.keep rfl (by simp) rfl (hno _ _ rfl) (.inl rfl)
    | resume hc =>
      rw [ext_none]
      exact ih.resume rfl rfl (by rw [Sys.clock_setClock]; exact before_incr (by decide) hc)
    | resumeEmpty hc1 hc2 =>
      rw [ext_none]
      exact ih.resume rfl rfl (by
        rw [Sys.clock_setClock]
        exact (before_incr (by decide) hc1).trans (before_incr (by decide) hc2))
    | returned => rw [ext_none]; exact ih
    | raised => rw [ext_none]; exact ih
    | fails hp hfr hev =>
      rcases hev with rfl | ⟨rfl, rfl, _⟩
      · rw [ext_none]; exact ih.failed rfl
      · rw [ext_some]; exact ih.failed (hno _ _ rfl)
  · intro h s s' pc _ ih _ he
    have e : s'.clock a.id = s.clock a.id := hE _ _ he
    exact ⟨ih.apart, by rw [e]; exact ih.now, by rw [e]; exact ih.past⟩

/-- C123 for a run: the texts of the times at which its sets are yielded are all different. -/
theorem C123_run {quantity : Rat → Str} (hq : ∀ r, ',' ∉ quantity r)
    (aliases : Dict TimeScale Str) (hr : Reach E a s0 abs h s pc)
    (hE : Keeps E (fun s => s.clock a.id)) :
    ((yieldTimes a.id h).map fun t => t.repr quantity aliases).Nodup := by
  have := (Reach.timely hr hE).apart
  rw [List.Nodup, List.pairwise_map]
  refine this.imp ?_
  rintro t t' ⟨s, hl, hlt, _⟩ he
  have := ((C123_identifies hq aliases _ _).mp he).2.2 s hl
  omega

/-- The number of times is the number of yielded sets. -/
theorem yieldTimes_length (id : Option κ) (h : History α κ W) :
    (yieldTimes id h).length = (yields h).length := by
  unfold yieldTimes yields
  induction h with
  | nil => rfl
  | cons e h ih => cases h' : e.ev.yield? <;> simp [h', ih]

/-! ## Concrete cases -/

example : String.ofList (Time.repr (fun _ => []) [] Time.zero) =
    "Time(environment_sequence: 0, environment_state_update: 0, pass: 0, consideration_set_execution: 0)" := by
  decide +kernel

/-- `set_time_scale_alias('TRIAL', TimeScale.ENVIRONMENT_STATE_UPDATE)`, absolute time. -/
example : String.ofList (Time.repr (fun _ => "15 millisecond".toList)
      [(.environment_state_update, "TRIAL".toList)]
      { Time.zero with at_ := fun s => if s = .pass then 12 else 3, absolute := 15, absolute_enabled := true }) =
    "Time(15 millisecond, environment_sequence: 3, trial: 3, pass: 12, consideration_set_execution: 3)" := by
  decide +kernel

/-- A clock before and after a pass with one set. -/
example {quantity : Rat → Str} (hq : ∀ r, ',' ∉ quantity r) (c c' : Clock)
    (h : Shows c [.pass]) (h' : Shows c' [.pass, .consideration_set_execution, .pass]) :
    c.time.repr quantity [] ≠ c'.time.repr quantity [] :=
  C123_clock hq [] (suf := [.consideration_set_execution, .pass]) (by simp) h h'

example : ∃ c c', Shows c [.pass] ∧ Shows c' [.pass, .consideration_set_execution, .pass] :=
  ⟨_, _, ⟨by decide, _, rfl, rfl, fun _ => rfl⟩, ⟨by decide, _, rfl, rfl, fun _ => rfl⟩⟩

/-- Texts of quantities without a comma. -/
example : ∀ r : Rat, ',' ∉ (fun r : Rat => Nat.toDigits 10 r.num.natAbs ++ " millisecond".toList) r := by
  intro r
  simp only [List.mem_append, not_or]
  exact ⟨comma_digits _, by decide⟩

/-- The run of the example: four sets, four different texts. -/
example : ((yieldTimes none (demoAfter 40).1).map fun t => t.repr (fun _ => []) []).Nodup :=
  C123_run (fun _ => by simp) [] (demo_reach (fun s s' => s = s') 40) (by rintro s s' rfl; rfl)

example : ((yieldTimes none (demoAfter 40).1).map fun t => String.ofList (t.simpleRepr (fun _ => []) [])) =
    ["Time(environment_sequence: 0, environment_state_update: 0, consideration_set_execution: 0)",
     "Time(environment_sequence: 0, environment_state_update: 0, consideration_set_execution: 1)",
     "Time(environment_sequence: 0, environment_state_update: 0, consideration_set_execution: 0)",
     "Time(environment_sequence: 0, environment_state_update: 0, consideration_set_execution: 1)"] := by
  decide +kernel

/-- C123: `simple_time` does not identify the moment: in a run of two passes two sets are
yielded at times with the same text. -/
theorem C123_simple_repeats : ∃ (s0 : Sys Nat Nat Unit) (a : RunArgs Nat Nat Unit)
    (h : History Nat Nat Unit) (s : Sys Nat Nat Unit),
    Reach (fun s s' => s = s') a s0 false h s .returned ∧
    ∀ quantity aliases,
      ¬ ((yieldTimes a.id h).map fun t => t.simpleRepr quantity aliases).Nodup := by
  refine ⟨demo, demoArgs, _, _, by
    have := demo_reach (fun s s' => s = s') 40
    rw [demo_run.2] at this; exact this, ?_⟩
  intro quantity aliases hn
  have hl : (yieldTimes demoArgs.id (demoAfter 40).1).length = 4 := by decide +kernel
  have h0 : ((yieldTimes demoArgs.id (demoAfter 40).1).getD 0 Time.zero).absolute_enabled = false ∧
      ((yieldTimes demoArgs.id (demoAfter 40).1).getD 2 Time.zero).absolute_enabled = false ∧
      ∀ ts ∈ [environment_sequence, environment_state_update, consideration_set_execution],
        ((yieldTimes demoArgs.id (demoAfter 40).1).getD 0 Time.zero).at_ ts =
        ((yieldTimes demoArgs.id (demoAfter 40).1).getD 2 Time.zero).at_ ts := by decide +kernel
  generalize yieldTimes demoArgs.id (demoAfter 40).1 = l at hn hl h0
  obtain ⟨t0, t1, t2, t3, rfl⟩ : ∃ t0 t1 t2 t3, l = [t0, t1, t2, t3] := by
    match l, hl with
    | [t0, t1, t2, t3], _ => exact ⟨t0, t1, t2, t3, rfl⟩
  obtain ⟨a0, a2, hf⟩ := h0
  simp only [List.getD_cons_zero, List.getD_cons_succ] at a0 a2 hf
  have he : t0.simpleRepr quantity aliases = t2.simpleRepr quantity aliases := by
    have g1 := hf environment_sequence (by simp)
    have g2 := hf environment_state_update (by simp)
    have g3 := hf consideration_set_execution (by simp)
    have f2 : coarsestFirst.filter (fun ts => decide (ts ∉ [life, pass])) =
      [environment_sequence, environment_state_update, consideration_set_execution] := by
      decide
    simp only [Time.simpleRepr, Time.absStr, a0, a2, Time.timeRepr, f2, Time.get, List.map_cons,
      List.map_nil, g1, g2, g3, Bool.false_eq_true, if_false]
  simp [he] at hn

end GS.Props
