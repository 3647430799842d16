import Verif.AgainRun
import Verif.Props.Cut
/-!
# C75: what ran before does not matter
-/

set_option linter.unusedSectionVars false

namespace GS.Props
open Spec TimeScale
variable {α κ W : Type _} [DecidableEq α] [DecidableEq κ]
variable {a a' : RunArgs α κ W} {s s' s0 t0 : Sys α κ W} {P : Nat → Prop}
variable {w w' : List (List α) → World α κ W} {h h' : History α κ W} {pc : PC α}

/-- C75: two schedulers with the same graph, and with the same conditions, which look no
further back than the beginning of the current environment state update, begin a run at the
same point of such an update.  Then the two runs go through the same events, and in
particular yield the same sets, if the outside world answers the same — whatever was run on
the two schedulers before, and under whatever execution ids. -/
theorem C75_same_schedule (hg : SameStart P a.id a'.id s0 t0) (he : SameEnds P a a')
    (hw0 : WorldFor a.id a'.id s0.world t0.world) (hw : ∀ ys, WorldFor a.id a'.id (w ys) (w' ys))
    (ht : (t0.start a').2 = .ok false) (hr : Scripted w a s0 false h s pc) :
    ∃ h' s', Scripted w' a' t0 false h' s' pc ∧ h'.map Entry.ev = h.map Entry.ev ∧
      yields h' = yields h := by
  obtain ⟨s1, hs⟩ := scripted_start hr
  have ht : t0.start a' = ((t0.start a').1, .ok false) := Prod.ext rfl ht
  obtain ⟨h', s', k1, k2, _⟩ := Level.run hw hs ht (hg.level hw0 hs ht) (he.level _ _) hr
  exact ⟨h', s', k1, k2, yields_of_events k2⟩

/-- C75, a second run: after a complete run, a run under the same id can begin; it goes
through the same events as the first one, and yields the same sets, if the outside world
answers the same. -/
theorem C75_next_run (hg : Repeatable a.id s0) (he : SameEnds (fun _ => False) a a)
    (hk : a.skip = false) (hr : Scripted w a s0 false h s .returned) {wd : World α κ W}
    (hw0 : WorldFor a.id a.id s0.world wd) (hw : ∀ ys, WorldFor a.id a.id (w ys) (w' ys)) :
    (∃ h' s', Scripted w' a { s with world := wd } false h' s' .returned) ∧
    ∀ h' s', Scripted w' a { s with world := wd } false h' s' .returned →
      h'.map Entry.ev = h.map Entry.ev ∧ yields h' = yields h := by
  obtain ⟨s1, t1, h1, h2, h3⟩ := hg.next he hk hr hw0
  obtain ⟨h', s', k1, k2, _⟩ := Level.run hw h1 h2 h3 (he.level _ _) hr
  refine ⟨⟨h', s', k1⟩, fun h2 s2 hr2 => ?_⟩
  obtain ⟨rfl, _⟩ := k1.returned_unique hr2
  exact ⟨k2, yields_of_events k2⟩

/-- C75, any number of runs: complete runs one after the other all yield the same sets, if
they see the same outside world. -/
theorem C75_every_run {w0 : World α κ W} {yss : List (List (List α))} (hg : Repeatable a.id s0)
    (he : SameEnds (fun _ => False) a a) (hk : a.skip = false) (hr : Successive w0 w a s0 yss) :
    ∀ ys ∈ yss, ∀ zs ∈ yss, ys = zs := by
  have key : ∀ {s0 : Sys α κ W} {yss : List (List (List α))}, Repeatable a.id s0 →
      Successive w0 w a s0 yss → ∀ ys ∈ yss, ∀ zs ∈ yss.head?, ys = zs := by
    intro s0 yss hg hr
    induction hr with
    | none s => intro ys hy; cases hy
    | @more s t h yss h1 h2 ih =>
      have hg' : Repeatable a.id ({ s with world := w0 } : Sys α κ W) := ⟨hg.conds, hg.clock⟩
      have ht := (hg'.after he hk h1).1
      intro ys hy zs hz
      cases hz
      rcases List.mem_cons.1 hy with rfl | hy
      · rfl
      · cases h2 with
        | none s => cases hy
        | @more _ t' h' yss' g1 g2 =>
          rw [ih ht ys hy (yields h') rfl]
          exact ((C75_next_run hg' he hk h1 (wd := w0) (w' := w) ⟨fun _ => rfl, fun _ _ => rfl, fun _ _ _ => rfl⟩
            fun _ => ⟨fun _ => rfl, fun _ _ => rfl, fun _ _ _ => rfl⟩).2 h' t' g1).2
  intro ys hy zs hz
  match yss, hy with
  | y :: yss, hy => rw [key hg hr ys hy y rfl, key hg hr zs hz y rfl]

/-- C75, a new execution id: a run under an id that was never used yields the same sets as a
run, of the scheduler in the same state, under an id that was used before, if the outside
world answers the same under both.  `NWhen` is allowed if it has not been satisfied yet under
either id. -/
theorem C75_new_id (hc : ∀ n c, Dict.get? s0.conds n = some c →
      SameRecent P s0.store.owner s0.store.owner c c ∧ ∀ o, Occurs o c → o < s0.store.fresh)
    (hp : ∀ o, P o → o < s0.store.fresh ∧ s0.store.sat o a.id = 0 ∧ s0.store.sat o a'.id = 0)
    {log : List TimeScale} (hl : Shows (s0.clock a.id) log) (hu : sinceUpdate log = [])
    (hn : Dict.get? s0.clocks a'.id = none) (he : SameEnds P a a')
    (hw0 : WorldFor a.id a'.id s0.world s0.world)
    (hw : ∀ ys, WorldFor a.id a'.id (w ys) (w' ys)) (ht : (s0.start a').2 = .ok false)
    (hr : Scripted w a s0 false h s pc) :
    ∃ h' s', Scripted w' a' s0 false h' s' pc ∧ yields h' = yields h := by
  have hclk : Shows (s0.clock a'.id) [] := by
    unfold View.clock
    rw [hn]
    exact Shows.new
  have hg : SameStart P a.id a'.id s0 s0 := by
    refine ⟨rfl, rfl, rfl, fun n => ?_, fun o ho => ?_, ⟨log, [], hl, hclk, ?_⟩⟩
    · rcases e : Dict.get? s0.conds n with _ | c
      · exact .inl ⟨rfl, rfl⟩
      · obtain ⟨k1, k2⟩ := hc n c e
        exact .inr ⟨c, c, rfl, rfl, k1, k2, k2⟩
    · obtain ⟨k1, k2, k3⟩ := hp o ho
      exact ⟨k1, k1, k3.trans k2.symm⟩
    · rw [hu]; rfl
  obtain ⟨h', s', k1, _, k3⟩ := C75_same_schedule hg he hw0 hw ht hr
  exact ⟨h', s', k1, k3⟩

/-! ## What is excluded -/

/-- `AfterNPasses(1)` and `Never()`. -/
def singlePass : RunArgs Nat Nat Unit :=
  { demoArgs with esu := .leaf 10 (.afterNPasses 1 .environment_state_update) }

/-- Node 0 and its receiver 1 after one run, which yielded `{0}` and `{1}`, and then
`add_condition(0, Not(JustRan(1)))`. -/
def justRanNode : Sys Nat Nat Unit :=
  ((scriptAfter constWorld singlePass (Sys.new [(1, [0])] .standard none 1 demoWorld) 30).2.1.alloc
    2).addBasic 0 (.not 3 (.leaf 4 (.justRan 1)))

/-- C75 does not extend to `JustRan`, which sees the last set of the run before: the second run
yields something else. -/
theorem C75_just_ran : ∃ (s0 s s' : Sys Nat Nat Unit) (h h' : History Nat Nat Unit),
    Scripted constWorld singlePass s0 false h s .returned ∧
    Scripted constWorld singlePass s false h' s' .returned ∧
    yields h = [[]] ∧ yields h' = [[0], [1]] := by
  have k1 := scriptAfter_scripted (w := constWorld) (a := singlePass) (s0 := justRanNode)
    (abs := false) (by decide +kernel) 20
  have e1 : (scriptAfter constWorld singlePass justRanNode 20).2.2 = .returned := by decide +kernel
  have k2 := scriptAfter_scripted (w := constWorld) (a := singlePass)
    (s0 := (scriptAfter constWorld singlePass justRanNode 20).2.1) (abs := false) (by decide +kernel) 20
  have e2 : (scriptAfter constWorld singlePass
      (scriptAfter constWorld singlePass justRanNode 20).2.1 20).2.2 = .returned := by decide +kernel
  rw [e1] at k1
  rw [e2] at k2
  exact ⟨justRanNode, _, _, _, _, k1, k2, by decide +kernel, by decide +kernel⟩

/-- One node, with the condition `AtPass(0)`. -/
def firstPass : Sys Nat Nat Unit :=
  ((Sys.new [(0, [])] .standard none 1 demoWorld).alloc 1).addBasic 0
    (.leaf 0 (.atPass 0 .environment_state_update))

/-- `AfterNPasses(2)` and `Never()`. -/
def passPair : RunArgs Nat Nat Unit :=
  { demoArgs with esu := .leaf 10 (.afterNPasses 2 .environment_state_update) }

/-- C75 needs the run before to be complete: if it is abandoned, the next run goes on in the
middle of an environment state update, because the clock is not set back.  Here node 0 runs in
pass 0 only; the next run finds itself in pass 1. -/
theorem C75_abandoned : ∃ (s0 s s' : Sys Nat Nat Unit) (h h' : History Nat Nat Unit),
    Repeatable none s0 ∧
    Scripted constWorld passPair s0 false h s .yieldedEmpty ∧
    Scripted constWorld passPair s false h' s' .returned ∧
    yields h = [[0], []] ∧ yields h' = [[]] := by
  have k1 := scriptAfter_scripted (w := constWorld) (a := passPair) (s0 := firstPass)
    (abs := false) (by decide +kernel) 13
  have e1 : (scriptAfter constWorld passPair firstPass 13).2.2 = .yieldedEmpty := by decide +kernel
  have k2 := scriptAfter_scripted (w := constWorld) (a := passPair)
    (s0 := (scriptAfter constWorld passPair firstPass 13).2.1) (abs := false) (by decide +kernel) 20
  have e2 : (scriptAfter constWorld passPair
      (scriptAfter constWorld passPair firstPass 13).2.1 20).2.2 = .returned := by decide +kernel
  rw [e1] at k1
  rw [e2] at k2
  refine ⟨firstPass, _, _, _, _, ⟨fun n c hc => ?_, [], Shows.new, rfl⟩, k1, k2, by decide +kernel,
    by decide +kernel⟩
  have hc : Dict.get? [(0, _)] n = some c := hc
  rw [Dict.get?_cons] at hc
  split at hc
  · cases hc
    exact ⟨fun _ => ⟨rfl, rfl, fun _ _ _ => rfl⟩, fun o ho => by cases ho; decide⟩
  · cases hc

/-! ## Examples -/

theorem demo_repeatable : Repeatable none demo := by
  refine ⟨fun n c hc => ?_, [], Shows.new, rfl⟩
  have hc : Dict.get? [(2, _)] n = some c := hc
  rw [Dict.get?_cons] at hc
  split at hc
  · cases hc
    exact ⟨fun _ => ⟨rfl, trivial, fun _ _ _ => rfl⟩, fun o ho => by cases ho; decide⟩
  · cases hc

theorem demoArgs_ends : SameEnds (fun _ => False) demoArgs demoArgs :=
  ⟨rfl, fun _ _ => ⟨rfl, Nat.le_refl _, fun _ _ e => by cases e⟩,
    fun _ _ => ⟨rfl, trivial, fun _ _ e => by cases e⟩⟩

/-- The hypotheses of `C75_next_run` and `C75_every_run` are met by `demo`, whose run
terminates; `EveryNCalls` makes the second pass differ from the first, and the second run
begins as the first one. -/
example : Repeatable demoArgs.id demo ∧ SameEnds (fun _ => False) demoArgs demoArgs ∧
    demoArgs.skip = false ∧
    Scripted constWorld demoArgs demo false (scriptAfter constWorld demoArgs demo 60).1
      (scriptAfter constWorld demoArgs demo 60).2.1 .returned ∧
    yields (scriptAfter constWorld demoArgs demo 60).1 = [[0], [1], [0], [1, 2]] := by
  have k := scriptAfter_scripted (w := constWorld) (a := demoArgs) (s0 := demo) (abs := false)
    (by decide +kernel) 60
  have e : (scriptAfter constWorld demoArgs demo 60).2.2 = .returned := by decide +kernel
  rw [e] at k
  exact ⟨demo_repeatable, demoArgs_ends, rfl, k, by decide +kernel⟩

/-- Node 1 runs twice only, whatever happens; node 0 runs in every pass. -/
def twice : Sys Nat Nat Unit :=
  ((Sys.new [(1, [0])] .standard none 1 demoWorld).alloc 2).addBasic 1
    (.nwhen 0 (.leaf 1 .always) 2)

def threeNew : RunArgs Nat Nat Unit := { threePasses with id := some 5, base := none }

/-- The hypotheses of `C75_new_id` are met by a scheduler with `NWhen` and three passes:
under the old id, and under a new one, node 1 runs in the first two passes. -/
example : (∀ n c, Dict.get? twice.conds n = some c →
      SameRecent (fun o => o = 0) twice.store.owner twice.store.owner c c ∧
      ∀ o, Occurs o c → o < twice.store.fresh) ∧
    (∀ o, o = 0 → o < twice.store.fresh ∧ twice.store.sat o none = 0 ∧ twice.store.sat o (some 5) = 0) ∧
    Shows (twice.clock none) [] ∧ Dict.get? twice.clocks (some 5) = none ∧
    SameEnds (fun o => o = 0) threePasses threeNew ∧
    (twice.start threeNew).2 = .ok false ∧
    Scripted constWorld threePasses twice false (scriptAfter constWorld threePasses twice 60).1
      (scriptAfter constWorld threePasses twice 60).2.1
      (scriptAfter constWorld threePasses twice 60).2.2 ∧
    yields (scriptAfter constWorld threePasses twice 60).1 = [[0], [1], [0], [1], [0]] := by
  refine ⟨fun n c hc => ?_, fun o ho => ?_, Shows.new, by decide, ?_, by decide +kernel,
    scriptAfter_scripted (by decide +kernel) 60, by decide +kernel⟩
  · have hc : Dict.get? [(1, _)] n = some c := hc
    rw [Dict.get?_cons] at hc
    split at hc
    · cases hc
      refine ⟨⟨rfl, rfl, rfl, rfl, trivial, fun _ _ _ => rfl⟩, fun o ho => ?_⟩
      rcases ho with rfl | rfl <;> decide
    · cases hc
  · subst ho; decide
  · exact ⟨rfl, fun _ _ => ⟨rfl, rfl, fun _ _ e => by cases e⟩,
      fun _ _ => ⟨rfl, trivial, fun _ _ e => by cases e⟩⟩

/-- A clock after one environment state update. -/
def laterClock : Clock :=
  match Clock.new.incr .environment_state_update with
  | .ok c => c
  | .error _ => Clock.new

/-- The scheduler `demo` with another past. -/
def demoLater : Sys Nat Nat Unit :=
  { demo with
    execList := [(none, [[0], [1]])]
    countsTotal := [(none, fun _ _ => 7)]
    countsUseable := [(none, fun _ _ => 3)]
    clocks := [(none, laterClock)] }

/-- The hypotheses of `C75_same_schedule` are met by schedulers with different pasts. -/
example : SameStart (fun _ => False) none none demo demoLater ∧
    SameEnds (fun _ => False) demoArgs demoArgs ∧ (demoLater.start demoArgs).2 = .ok false ∧
    yields (scriptAfter constWorld demoArgs demoLater 60).1 = [[0], [1], [0], [1, 2]] := by
  obtain ⟨c, h1, h2⟩ := Shows.new.incr (ts := .environment_state_update) (by decide)
  have hc : laterClock = c := by unfold laterClock; rw [h1]
  refine ⟨⟨rfl, rfl, rfl, fun n => ?_, fun _ ho => ho.elim, [], [.environment_state_update],
    Shows.new, ?_, rfl⟩, demoArgs_ends, by decide +kernel, by decide +kernel⟩
  · rcases e : Dict.get? demo.conds n with _ | c
    · exact .inl ⟨rfl, e⟩
    · obtain ⟨k1, k2⟩ := demo_repeatable.conds n c e
      exact .inr ⟨c, c, rfl, e, k1 _, k2, k2⟩
  · rw [← hc] at h2; exact h2

end GS.Props
