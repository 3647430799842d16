import Verif.Reference
import Verif.RunPass
import Verif.Props.Order
/-!
# The reference scheduler: runs
-/

set_option linter.unusedSectionVars false

namespace GS
open Spec TimeScale
variable {α κ W : Type _} [DecidableEq α] [DecidableEq κ]
variable {w : List (List α) → World α κ W} {a : RunArgs α κ W} {s0 s : Sys α κ W}
variable {h : History α κ W} {pc : PC α}

/-! ## The reference scheduler -/

section
variable {abs : Bool} {R : α → Past α → Bool} {T : Past α → Bool}

theorem goThrough_frame : ∀ (ns : List α) (p : Past α),
    goThrough R ns p = { p with next := (goThrough R ns p).next }
  | [], _ => rfl
  | n :: ns, p => by
    have ih := goThrough_frame ns
      (if n ∈ p.next then p else if R n p then { p with next := p.next ++ [n] } else p)
    simp only [goThrough]
    rw [ih]
    split
    · rfl
    · split <;> rfl

theorem goThrough_fix : ∀ (ns : List α) (p : Past α), (∀ n ∈ ns, n ∈ p.next ∨ R n p = false) →
    goThrough R ns p = p
  | [], _, _ => rfl
  | n :: ns, p, hp => by
    simp only [goThrough]
    have : (if n ∈ p.next then p else if R n p then { p with next := p.next ++ [n] } else p) = p := by
      rcases hp n (by simp) with h1 | h1
      · rw [if_pos h1]
      · rw [h1]; simp
    rw [this]
    exact goThrough_fix ns p fun n' h' => hp n' (by simp [h'])

theorem goRound_fix {layer : List α} {p : Past α} (hp : goThrough R layer p = p) :
    ∀ k, goRound R layer k p = p
  | 0 => rfl
  | k + 1 => by simp only [goRound]; rw [hp]; exact goRound_fix hp k

theorem passFrom_frame : ∀ (q : List (List α)) (p : Past α),
    (passFrom abs R T q p).runs = p.runs ∧ (passFrom abs R T q p).before = p.before ∧
      (passFrom abs R T q p).next = p.next ∧ p.now <+: (passFrom abs R T q p).now
  | [], _ => ⟨rfl, rfl, rfl, List.prefix_refl _⟩
  | l :: q, p => by
    simp only [passFrom]
    split
    · exact ⟨rfl, rfl, rfl, List.prefix_refl _⟩
    · split
      · exact passFrom_frame q p
      · obtain ⟨h1, h2, h3, h4⟩ := passFrom_frame q { p with now := p.now ++ [choice R l p] }
        exact ⟨h1, h2, h3, (List.prefix_append _ _).trans h4⟩

theorem reference_stop {q : List (List α)} {p : Past α} (hp : T p = true) :
    ∀ N, reference abs R T q N p = p
  | 0 => rfl
  | N + 1 => by simp only [reference, hp, if_true]

theorem reference_succ (q : List (List α)) : ∀ (N : Nat) (p : Past α),
    reference abs R T q (N + 1) p =
      if T (reference abs R T q N p) then reference abs R T q N p
      else closePass abs (passFrom abs R T q (reference abs R T q N p))
  | 0, p => rfl
  | N + 1, p => by
    by_cases hp : T p = true
    · rw [reference_stop hp, reference_stop hp, if_pos hp]
    · have e : ∀ M, reference abs R T q (M + 1) p = reference abs R T q M (closePass abs (passFrom abs R T q p)) := by
        intro M; simp only [reference, hp]; simp
      rw [e (N + 1), e N]
      exact reference_succ q N _

end

/-! ## What has happened -/

/-- The increments of the clock in the runs. -/
def runsLog (runs : List (List (List (List α)))) : List TimeScale :=
  runs.flatMap fun r => passTicks r ++ [environment_state_update]

/-- Where the scheduler stands after the runs. -/
structure Stands (s : Sys α κ W) (id : Option κ) (runs : List (List (List (List α)))) : Prop where
  calls : ∃ f, Dict.get? s.countsTotal id = some f ∧ ∀ ts n, 2 < ts.val →
    f ts n = runs.flatten.flatten.flatten.count n
  list : Dict.get? s.execList id = some runs.flatten.flatten
  clock : Shows (s.clock id) (runsLog runs)

theorem count_passTicks_sets (ps : List (List (List α))) :
    (passTicks ps).count consideration_set_execution = ps.flatten.length := by
  induction ps with
  | nil => rfl
  | cons p ps ih =>
    have : passTicks (p :: ps) =
        List.replicate p.length consideration_set_execution ++ [pass] ++ passTicks ps := by
      simp [passTicks]
    rw [this, List.count_append, List.count_append, ih, List.count_replicate]
    simp

theorem count_passTicks_coarse (ps : List (List (List α))) {q : TimeScale} (hq : pass.val < q.val) :
    (passTicks ps).count q = 0 := by
  rw [List.count_eq_zero]
  intro hm
  have := GS.passTicks_fine ps hm
  omega

theorem runsLog_cons (r : List (List (List α))) (runs : List (List (List (List α)))) :
    runsLog (r :: runs) = passTicks r ++ [environment_state_update] ++ runsLog runs := by
  simp [runsLog]

theorem runsLog_snoc (r : List (List (List α))) (runs : List (List (List (List α)))) :
    runsLog (runs ++ [r]) = runsLog runs ++ passTicks r ++ [environment_state_update] := by
  simp [runsLog]

theorem runsLog_count (runs : List (List (List (List α)))) :
    (runsLog runs).count pass = runs.flatten.length ∧
    (runsLog runs).count consideration_set_execution = runs.flatten.flatten.length ∧
    (runsLog runs).count environment_state_update = runs.length := by
  induction runs with
  | nil => exact ⟨rfl, rfl, rfl⟩
  | cons r runs ih =>
    obtain ⟨h1, h2, h3⟩ := ih
    rw [runsLog_cons]
    simp only [List.count_append, h1, h2, h3, count_passTicks, count_passTicks_sets,
      count_passTicks_coarse r (q := environment_state_update) (by decide)]
    simp
    omega

theorem runsLog_coarse {runs : List (List (List (List α)))} {e : TimeScale} (he : e ∈ runsLog runs) :
    e.val ≤ environment_state_update.val := by
  obtain ⟨r, _, he⟩ := List.mem_flatMap.1 he
  rcases List.mem_append.1 he with h | h
  · exact Nat.le_trans (GS.passTicks_fine _ h) (by decide)
  · rw [List.mem_singleton.1 h]; exact Nat.le_refl _

theorem elapsed_nil (ts q : TimeScale) : elapsed [] ts q = 0 := rfl

/-- The clock after the runs, passes and sets. -/
theorem elapsed_log (runs : List (List (List (List α)))) (before : List (List (List α)))
    (now : List (List α)) (next : List α) (ts : TimeScale) :
    (pass.val < ts.val →
      elapsed (runsLog runs ++ passTicks before ++
        List.replicate now.length consideration_set_execution) ts pass =
          (⟨runs, before, now, next⟩ : Past α).passes ts ∧
      elapsed (runsLog runs ++ passTicks before ++
        List.replicate now.length consideration_set_execution) ts consideration_set_execution =
          (⟨runs, before, now, next⟩ : Past α).sets ts) ∧
    (environment_state_update.val < ts.val →
      elapsed (runsLog runs ++ passTicks before ++
        List.replicate now.length consideration_set_execution) ts environment_state_update =
          runs.length) := by
  have hfine : ∀ {ts : TimeScale}, pass.val < ts.val → ∀ e ∈ passTicks before ++
      List.replicate now.length consideration_set_execution, e.val < ts.val := by
    intro ts hts e he
    rcases List.mem_append.1 he with h | h
    · exact Nat.lt_of_le_of_lt (GS.passTicks_fine _ h) hts
    · rw [(List.mem_replicate.1 h).2]; exact Nat.lt_trans (by decide) hts
  have hsplit : ∀ {ts : TimeScale} (q : TimeScale), pass.val < ts.val →
      elapsed (runsLog runs ++ passTicks before ++
        List.replicate now.length consideration_set_execution) ts q =
      elapsed (runsLog runs) ts q + ((passTicks before).count q +
        (List.replicate now.length consideration_set_execution).count q) := by
    intro ts q hts
    rw [List.append_assoc, Props.elapsed_append _ _ _ _ (hfine hts), List.count_append]
  have hcoarse : ∀ {ts : TimeScale} (q : TimeScale), environment_state_update.val < ts.val →
      elapsed (runsLog runs) ts q = (runsLog runs).count q := by
    intro ts q hts
    have := Props.elapsed_append [] (runsLog runs) ts q
      fun e he => Nat.lt_of_le_of_lt (runsLog_coarse he) hts
    simpa [elapsed_nil] using this
  have hesu : ∀ q, elapsed (runsLog runs) environment_state_update q = 0 := by
    intro q
    induction runs using snocInd with
    | h0 => rfl
    | h1 l x _ =>
      rw [runsLog_snoc, Props.elapsed_snoc, if_neg (by decide)]
  obtain ⟨c1, c2, c3⟩ := runsLog_count runs
  have r1 : (List.replicate now.length consideration_set_execution).count pass = 0 := by
    rw [List.count_replicate]; simp
  have r2 : (List.replicate now.length consideration_set_execution).count
      consideration_set_execution = now.length := by
    rw [List.count_replicate]; simp
  have r3 : (List.replicate now.length consideration_set_execution).count
      environment_state_update = 0 := by
    rw [List.count_replicate]; simp
  refine ⟨fun hts => ?_, fun hts => ?_⟩
  · rw [hsplit _ hts, hsplit _ hts, r1, r2, count_passTicks, count_passTicks_sets]
    cases ts with
    | consideration_set_execution => exact absurd hts (by decide)
    | pass => exact absurd hts (by decide)
    | environment_state_update =>
      rw [hesu, hesu]
      simp [Past.passes, Past.sets, Past.inRun]
    | environment_sequence =>
      rw [hcoarse _ (by decide), hcoarse _ (by decide), c1, c2]
      simp [Past.passes, Past.sets, Past.inRun, Past.all]
    | life =>
      rw [hcoarse _ (by decide), hcoarse _ (by decide), c1, c2]
      simp [Past.passes, Past.sets, Past.inRun, Past.all]
  · rw [hsplit _ (Nat.lt_trans (by decide) hts), hcoarse _ hts, c3, r3,
      count_passTicks_coarse _ (by decide)]
    omega

/-- The sets of the current pass. -/
theorem passYields_current (h : History α κ W) :
    passYields h = [] ∨ ∃ ps, passYields h = ps ++ [yields (currentPass h)] := by
  induction h using snocInd with
  | h0 => exact .inl rfl
  | h1 h e ih =>
    rw [passYields_snoc, yields_cur_snoc]
    by_cases hp : e.ev = .passStart
    · rw [if_pos hp, if_pos hp]; exact .inr ⟨_, rfl⟩
    · rw [if_neg hp, if_neg hp]
      cases hy : e.ev.yield? with
      | none => simpa using ih
      | some y =>
        dsimp only
        rcases ih with ih | ⟨ps, ih⟩
        · rw [ih]; exact .inl rfl
        · rw [ih, addToLast_snoc]; exact .inr ⟨ps, rfl⟩

/-- A run that is suspended has yielded a set. -/
theorem Reach.yielded_ne {E : Sys α κ W → Sys α κ W → Prop} {abs : Bool}
    (hr : Reach E a s0 abs h s pc) : pc.suspended = true → yields h ≠ [] := by
  refine hr.ind (P := fun h _ pc => pc.suspended = true → yields h ≠ []) ?_ ?_ ?_
  · intro s _ hp; cases hp
  · intro h s s' pc pc' ev _ _ hst hp
    cases hst with
    | emptyYield => rw [ext_some, yields_snoc]; simp [Event.yield?]
    | yield => rw [ext_some, yields_snoc]; simp [Event.yield?]
    | yieldAbs => rw [ext_some, yields_snoc]; simp [Event.yield?]
    | _ => cases hp
  · intro h s s' pc _ ih _ _; exact ih

/-- The outside world in a run. -/
theorem Spec.Scripted.world {abs : Bool} (hr : Scripted w a s0 abs h s pc) :
    pc.suspended = true ∨ pc.final = true ∨ (yields h = [] ∧ s.world = s0.world) ∨
      (yields h ≠ [] ∧ s.world = w (yields h)) := by
  induction hr with
  | start hs => exact .inr (.inr (.inl ⟨rfl, (Sys.start_ok hs).world⟩))
  | @step h s s' pc pc' ev hr hst ih =>
    have hst := Sys.step_stepR hst
    have key : ∀ {s1 : Sys α κ W}, pc.suspended = false → pc.final = false →
        s1.world = (resumed w (yields h) s pc).world →
        (yields h = [] ∧ s1.world = s0.world) ∨ (yields h ≠ [] ∧ s1.world = w (yields h)) := by
      intro s1 h1 h2 h3
      rw [resumed_not h1] at h3
      rw [h3]
      rcases ih with ih | ih | ih
      · rw [h1] at ih; cases ih
      · rw [h2] at ih; cases ih
      · exact ih
    rw [yields_ext]
    generalize hu : resumed w (yields h) s pc = u at hst key
    have none' : ∀ x : Event α, x.yield? = none →
        yields h ++ (Option.bind (some x) Event.yield?).toList = yields h := by
      intro x hx; simp [hx]
    cases hst with
    | pass => rw [none' _ rfl]; exact .inr (.inr (key rfl rfl rfl))
    | stopSkip => exact .inr (.inl rfl)
    | stopIncr => exact .inr (.inl rfl)
    | passEnd => simp only [Option.bind_none, Option.toList_none, List.append_nil]; exact .inr (.inr (key rfl rfl rfl))
    | emptyYield => exact .inl rfl
    | consider => rw [none' _ rfl]; exact .inr (.inr (key rfl rfl rfl))
    | again => simp only [Option.bind_none, Option.toList_none, List.append_nil]; exact .inr (.inr (key rfl rfl rfl))
    | skip => simp only [Option.bind_none, Option.toList_none, List.append_nil]; exact .inr (.inr (key rfl rfl rfl))
    | reject => simp only [Option.bind_none, Option.toList_none, List.append_nil]; exact .inr (.inr (key rfl rfl rfl))
    | add => rw [none' _ rfl]; exact .inr (.inr (key rfl rfl rfl))
    | yield => exact .inl rfl
    | yieldAbs => exact .inl rfl
    | silent => rw [none' _ rfl]; exact .inr (.inr (key rfl rfl rfl))
    | resume =>
      simp only [Option.bind_none, Option.toList_none, List.append_nil]
      have hy : yields h ≠ [] := hr.reach.yielded_ne (by rfl)
      refine .inr (.inr (.inr ⟨hy, ?_⟩))
      rw [← hu]; rfl
    | resumeEmpty =>
      simp only [Option.bind_none, Option.toList_none, List.append_nil]
      have hy : yields h ≠ [] := hr.reach.yielded_ne (by rfl)
      refine .inr (.inr (.inr ⟨hy, ?_⟩))
      rw [← hu]; rfl
    | returned => exact .inr (.inl rfl)
    | raised => exact .inr (.inl rfl)
    | fails => exact .inr (.inl rfl)

/-! ## What the scheduler knows during a run -/

variable {runs : List (List (List (List α)))} {ar : Around α κ W}

/-- The past at a point of a run where conditions are evaluated. -/
def PastAt (runs : List (List (List (List α)))) (h : History α κ W) (own : Option α) (p : Past α) :
    PC α → Prop
  | .outer => own = none ∧ p = ⟨runs, passYields h, [], []⟩
  | .inner _ _ => ∃ ps y, passYields h = ps ++ [y] ∧ p = ⟨runs, ps, y, []⟩
  | .choosing c => ∃ ps y, passYields h = ps ++ [y] ∧ p = ⟨runs, ps, y, c.exec⟩
  | _ => False

theorem passYields_last {ps : List (List (List α))} {y : List (List α)}
    (hy : passYields h = ps ++ [y]) : yields (currentPass h) = y := by
  rcases passYields_current h with h1 | ⟨qs, h1⟩
  · rw [h1] at hy; simp at hy
  · rw [h1] at hy
    exact ((List.append_inj' hy rfl).2 |> fun e => by injection e)

/-- The nodes executed in the current pass. -/
def PassNodes (h : History α κ W) : PC α → Prop
  | .inner _ _ | .yielded _ _ => selections (currentPass h) = (yields (currentPass h)).flatten
  | .choosing c => selections (currentPass h) = (yields (currentPass h)).flatten ++ c.exec
  | _ => True

theorem Reach.passNodes {E : Sys α κ W → Sys α κ W → Prop} {abs : Bool}
    (hr : Reach E a s0 abs h s pc) : PassNodes h pc := by
  refine hr.ind (P := fun h _ pc => PassNodes h pc) ?_ ?_ ?_
  · intro s _; trivial
  · intro h s s' pc pc' ev hr ih hst
    cases hst with
    | pass => unfold PassNodes; rw [ext_some, selections_cur_snoc, yields_cur_snoc]; rfl
    | consider =>
      unfold PassNodes at ih ⊢
      rw [ext_some, selections_cur_snoc, yields_cur_snoc]
      simp [Event.yield?, Event.add?, ih]
    | again => rw [ext_none]; exact ih
    | skip => rw [ext_none]; exact ih
    | reject => rw [ext_none]; exact ih
    | add =>
      unfold PassNodes at ih ⊢
      rw [ext_some, selections_cur_snoc, yields_cur_snoc]
      simp [Event.yield?, Event.add?, ih]
    | yield ht hag ha hne hx =>
      unfold PassNodes at ih ⊢
      rw [ext_some, selections_cur_snoc, yields_cur_snoc]
      simp [Event.yield?, Event.add?, ih]
    | yieldAbs =>
      unfold PassNodes at ih ⊢
      rw [ext_some, selections_cur_snoc, yields_cur_snoc]
      simp [Event.yield?, Event.add?, ih]
    | silent ht hag ha hne =>
      unfold PassNodes at ih ⊢
      rw [ext_some, selections_cur_snoc, yields_cur_snoc]
      simp [Event.yield?, Event.add?, ih, hne]
    | resume => rw [ext_none]; exact ih
    | _ => trivial
  · intro h s s' pc _ ih _ _; exact ih

/-- Absolute time in a run. -/
theorem Reach.timeAt {E : Sys α κ W → Sys α κ W → Prop} {abs : Bool} (hr : Reach E a s0 abs h s pc)
    (hE : Keeps E fun s => s.clock a.id) {s1 : Sys α κ W} (h1 : s0.start a = (s1, .ok abs))
    (hp : ∀ e, pc ≠ .raised e) (hq : pc.suspended = false) :
    (s.clock a.id).time.absolute_interval = (s1.clock a.id).time.absolute_interval ∧
    (s.clock a.id).time.absolute = (s1.clock a.id).time.absolute +
      if abs then ((yields h).length : Rat) * (s1.clock a.id).time.absolute_interval else 0 := by
  cases abs with
  | true =>
    obtain ⟨_, h2, h3⟩ := hr.absTimes hE h1
    have h3 := h3 hp
    have h4 := h3.time
    rw [hq, if_neg (by simp), Rat.add_zero, ← List.length_map (f := fun y => y.2.1), h2] at h4
    exact ⟨h3.interval, h4⟩
  | false =>
    have key : (s.clock a.id).time.absolute_enabled = false ∧
        (s.clock a.id).time.absolute_interval = (s1.clock a.id).time.absolute_interval ∧
        (s.clock a.id).time.absolute = (s1.clock a.id).time.absolute := by
      clear hq hp
      refine hr.ind (P := fun _ s _ => (s.clock a.id).time.absolute_enabled = false ∧
        (s.clock a.id).time.absolute_interval = (s1.clock a.id).time.absolute_interval ∧
        (s.clock a.id).time.absolute = (s1.clock a.id).time.absolute) ?_ ?_ ?_
      · intro s hs
        rw [h1] at hs
        obtain ⟨rfl, _⟩ := Prod.mk.inj hs
        refine ⟨?_, rfl, rfl⟩
        rcases Sys.start_abs h1 with ⟨_, _, hc⟩ | ⟨h, _⟩
        · rw [hc]
        · cases h
      · intro h s s' pc pc' ev _ ih hst
        have := hst.still ih.1
        exact ⟨this.1, this.2.1.trans ih.2.1, this.2.2.trans ih.2.2⟩
      · intro h s s' pc _ ih _ he
        have e : s'.clock a.id = s.clock a.id := hE _ _ he
        rw [e]; exact ih
    refine ⟨key.2.1, ?_⟩
    rw [key.2.2]; simp [Rat.add_zero]

theorem Spec.Scripted.knows {abs : Bool} (hr : Scripted w a s0 abs h s pc) (hS : Stands s0 a.id runs)
    (hfin : Tells s0 w a ar) {own : Option α} {p : Past α} (hp : PastAt runs h own p pc) :
    Knows s.toView a.id ar own p := by
  have hre := hr.reach
  obtain ⟨s1, hs1⟩ := Props.scripted_start hr
  have st := Sys.start_ok hs1
  obtain ⟨f0, hf0, hz, hc, _⟩ := st.total
  obtain ⟨g0, hg0, hg⟩ := hS.calls
  have hc := hc g0 hg0
  obtain ⟨f, hf, ci⟩ := hre.counts (by rintro _ _ ⟨_, rfl⟩; rfl) hs1 hf0
  obtain ⟨u, hu, ui⟩ := hre.useable (by rintro _ _ ⟨_, rfl⟩; rfl)
  obtain ⟨l0, hl0, hl, _⟩ := st.list
  have hl := hl _ hS.list
  subst hl
  have hnr : ∀ e, pc ≠ .raised e := by rintro e rfl; exact hp
  have hx := hre.execs (by rintro _ _ ⟨_, rfl⟩; rfl) hnr hs1 hl0
  have hcl := hre.clockAt (by rintro _ _ ⟨_, rfl⟩; rfl) hS.clock
  have hpy := hre.passYields_flatten.1
  obtain ⟨r, hpr, hsel⟩ := hre.pending
  have hps := hre.passNodes
  -- the facts by program counter
  have facts : p.runs = runs ∧ p.inRun = yields h ∧ selections h = p.inRun.flatten ++ p.next ∧
      (own.isSome = true → selections (currentPass h) = p.now.flatten ++ p.next) ∧
      Shows (s.clock a.id) (runsLog runs ++ passTicks p.before ++
        List.replicate p.now.length consideration_set_execution) := by
    cases pc with
    | outer =>
      obtain ⟨rfl, rfl⟩ := hp
      cases hpr
      refine ⟨rfl, ?_, ?_, (by intro h; cases h), ?_⟩
      · simpa [Past.inRun] using hpy
      · simp only [Past.inRun, List.append_nil, hpy]; simpa using hsel
      · have : Shows (s.clock a.id) (runsLog runs ++ passTicks (passYields h)) := hcl
        simpa using this
    | inner idx ch =>
      obtain ⟨ps, y, hy, rfl⟩ := hp
      cases hpr
      have hin : (⟨runs, ps, y, []⟩ : Past α).inRun = yields h := by
        rw [← hpy, hy]; simp [Past.inRun]
      refine ⟨rfl, hin, ?_, ?_, ?_⟩
      · rw [hin]; exact hsel
      · intro _
        have hps : selections _ = _ := hps
        rw [passYields_last hy] at hps
        simpa using hps
      · obtain ⟨ps', y', hy', hc'⟩ := hcl
        rw [hy] at hy'
        obtain ⟨e1, e2⟩ := List.append_inj' hy' rfl
        injection e2 with e2
        subst e1 e2
        exact hc'
    | choosing c =>
      obtain ⟨ps, y, hy, rfl⟩ := hp
      cases hpr
      have hin : (⟨runs, ps, y, c.exec⟩ : Past α).inRun = yields h := by
        rw [← hpy, hy]; simp [Past.inRun]
      refine ⟨rfl, hin, ?_, ?_, ?_⟩
      · rw [hin]; exact hsel
      · intro _
        have hps : selections _ = _ := hps
        rw [passYields_last hy] at hps
        exact hps
      · obtain ⟨ps', y', hy', hc'⟩ := hcl
        rw [hy] at hy'
        obtain ⟨e1, e2⟩ := List.append_inj' hy' rfl
        injection e2 with e2
        subst e1 e2
        exact hc'
    | _ => exact hp.elim
  obtain ⟨e1, e2, e3, e4, e5⟩ := facts
  have hworld : s.world = if yields h = [] then s0.world else w (yields h) := by
    rcases hr.world with h1 | h1 | ⟨h1, h2⟩ | ⟨h1, h2⟩
    · cases pc <;> first | exact hp.elim | cases h1
    · cases pc <;> first | exact hp.elim | cases h1
    · rw [h2, if_pos h1]
    · rw [h2, if_neg h1]
  have hnodes := hre.keepNodes (by rintro _ _ ⟨_, rfl⟩; rfl)
  have hqueue := hre.keepQueue (by rintro _ _ ⟨_, rfl⟩; rfl)
  have hmode : s.mode = s0.mode := hre.keep (fun s => s.mode) (by rintro _ _ ⟨_, rfl⟩; rfl)
    (fun _ _ f => f.mode) fun _ f => f.mode
  have hsus : pc.suspended = false := by cases pc <;> first | rfl | exact hp.elim
  obtain ⟨t1, t2⟩ := hre.timeAt (by rintro _ _ ⟨_, rfl⟩; rfl) hs1 hnr hsus
  obtain ⟨t3, t4⟩ := hfin.time _ _ hs1
  refine ⟨⟨f, hf, ?_⟩, ⟨u, hu, ?_⟩, ⟨_, e5, ?_⟩, ?_, ?_, ?_, ?_, ?_, ?_, ?_, ?_, ?_⟩
  · intro ts n hts
    cases ts with
    | consideration_set_execution =>
      rcases hts with h | ⟨h, _⟩
      · exact absurd h (by decide)
      · cases h
    | pass =>
      rcases hts with h | ⟨_, h⟩
      · exact absurd h (by decide)
      · rw [ci.pass, e4 h]; rfl
    | environment_state_update => rw [ci.run, e3]; rfl
    | environment_sequence =>
      rw [ci.coarse _ _ (by decide), hc _ _ (by decide), hg _ _ (by decide), e3]
      simp [Past.calls, Past.all, e1, Nat.add_assoc]
    | life =>
      rw [ci.coarse _ _ (by decide), hc _ _ (by decide), hg _ _ (by decide), e3]
      simp [Past.calls, Past.all, e1, Nat.add_assoc]
  · intro d n
    unfold Past.callsSince
    by_cases hd : d = n
    · subst hd
      rw [ui.self d, e3, List.count_eq_zero_of_not_mem (not_mem_since d _)]
      simp
    · rw [ui.diff d n hd, e3]; simp [hd]
  · have := elapsed_log p.runs p.before p.now p.next
    rw [e1] at this ⊢
    have eta : (⟨runs, p.before, p.now, p.next⟩ : Past α) = p := by rw [← e1]
    rw [eta] at this
    refine ⟨fun ts h => (this ts).1 h, fun ts h => (this ts).2 h, ?_⟩
    rw [List.count_eq_zero]
    intro hm
    rcases List.mem_append.1 hm with hm | hm
    · rcases List.mem_append.1 hm with hm | hm
      · exact absurd (runsLog_coarse hm) (by decide)
      · exact absurd (GS.passTicks_fine _ hm) (by decide)
    · cases (List.mem_replicate.1 hm).2
  · rw [hx, Past.all, e1, e2]
  · intro n b hb
    rw [e2]
    rw [hworld] at hb
    exact hfin.finished _ n b hb
  · intro n x is g r hb
    rw [e2]
    rw [hworld] at hb
    exact hfin.number _ n x is g r hb
  · intro f o b hf hb
    rw [e2]
    exact hfin.asks _ f _ o b hf hworld hb
  · rw [hfin.nodes, hnodes]
  · intro i n hi
    rw [hqueue] at hi
    exact hfin.place i n hi
  · unfold View.inExactTimeMode
    rw [hmode, hqueue, Bool.eq_iff_iff, hfin.exact]
    simp
  · rw [t1, t3]
  · rw [t2, t4, e2, t3]

end GS
