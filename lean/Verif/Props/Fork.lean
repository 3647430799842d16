import Verif.ForkRun
import Verif.Props.Again
/-!
# C106: a fork continues as its base would
-/

set_option linter.unusedSectionVars false

namespace GS.Props
open Spec TimeScale
variable {α κ W : Type _} [DecidableEq α] [DecidableEq κ]
variable {a : RunArgs α κ W} {s s' s0 : Sys α κ W} {P : Nat → Prop} {j : Option κ}
variable {w : List (List α) → World α κ W} {h h' : History α κ W} {pc : PC α}

/-- C106, what the base can do, the fork does: if the scheduler, as it is, can make a run under
the id of `a` then a run under a new id `j` with that id as base goes through the same events, and
in particular yields the same sets.  At each point of the run, the counts at all scales and the
recorded sets of the two ids agree.  The conditions may ask for calls at every scale, and for the
last set executed before the run; `ForkReady` states what they may not ask for. -/
theorem C106_fork_partial (hf : ForkReady P w a j s0) (hr : Scripted w a s0 false h s pc) :
    ∃ h' s', Scripted w (forkArgs j a) s0 false h' s' pc ∧ h'.map Entry.ev = h.map Entry.ev ∧
      yields h' = yields h ∧
      Dict.get? s'.countsTotal j = Dict.get? s.countsTotal a.id ∧
      Dict.get? s'.execList j = Dict.get? s.execList a.id := by
  obtain ⟨s1, hs⟩ := scripted_start hr
  obtain ⟨k, hk⟩ := hr.after
  obtain ⟨k1, k2, k3⟩ := hf.along hs k
  obtain ⟨t, ht, _⟩ := hf.start hs
  have := scriptAfter_scripted (w := w) (a := forkArgs j a) (s0 := s0) (abs := false) (by rw [ht]) k
  rw [hk] at k1 k2 k3
  rw [k2] at this
  exact ⟨_, _, this, k1, yields_of_events k1, k3.view.total, k3.view.list⟩

/-- C106, the fork does nothing else: each run of the fork is one that the base could make. -/
theorem C106_nothing_else_partial (hf : ForkReady P w a j s0) (hs : (s0.start a).2 = .ok false)
    (hr : Scripted w (forkArgs j a) s0 false h s pc) :
    ∃ h' s', Scripted w a s0 false h' s' pc ∧ h'.map Entry.ev = h.map Entry.ev ∧
      yields h' = yields h ∧
      Dict.get? s.countsTotal j = Dict.get? s'.countsTotal a.id ∧
      Dict.get? s.execList j = Dict.get? s'.execList a.id := by
  obtain ⟨k, hk⟩ := hr.after
  obtain ⟨k1, k2, k3⟩ := hf.along (s1 := (s0.start a).1) (Prod.ext rfl hs) k
  have := scriptAfter_scripted (w := w) (a := a) (s0 := s0) (abs := false) hs k
  rw [hk] at k1 k2 k3
  rw [← k2] at this
  exact ⟨_, _, this, k1.symm, (yields_of_events k1).symm, k3.view.total, k3.view.list⟩

/-- C106, after a complete run: after any complete run under the id of `a`, whatever is then asked
of the scheduler under this id (by `b`) can be asked of a new fork `j` instead, with the same
result. -/
theorem C106_after_run_partial {b : RunArgs α κ W} {w' : List (List α) → World α κ W}
    {wd : World α κ W} {h1 : History α κ W} {s1 : Sys α κ W} (hf : Forkable a.id j s0)
    (hk : a.skip = false) (hr : Scripted w a s0 false h s .returned) (hb : b.id = a.id)
    (he : ForkCond (fun _ => False) a.id j b.esu) (hq : ForkCond (fun _ => False) a.id j b.seq)
    (hwd : WorldFor a.id j wd wd) (hw : ∀ ys, WorldFor a.id j (w' ys) (w' ys))
    (hr1 : Scripted w' b { s with world := wd } false h1 s1 pc) :
    ∃ h' s', Scripted w' (forkArgs j b) { s with world := wd } false h' s' pc ∧
      h'.map Entry.ev = h1.map Entry.ev ∧ yields h' = yields h1 := by
  obtain ⟨g1, g2⟩ := hf.after hk hr
  obtain ⟨h', s', k1, k2, k3, _⟩ := C106_fork_partial (g1.ready g2 hb he hq hwd hw) hr1
  exact ⟨h', s', k1, k2, k3⟩

/-! ## A case -/

/-- Node 0 and its receiver 1, with `add_condition(1, AfterNCalls(0, 2, time_scale=LIFE))`. -/
def twoCalls : Sys Nat Nat Unit :=
  ((Sys.new [(1, [0])] .standard none 1 demoWorld).alloc 1).addBasic 1
    (.leaf 0 (.afterNCalls 0 2 .life))

/-- One pass, under the default id. -/
def forkPass : RunArgs Nat Nat Unit :=
  { demoArgs with esu := .leaf 10 (.afterNPasses 1 .environment_state_update) }

theorem twoCalls_forkable : Forkable forkPass.id (some 7) twoCalls := by
  refine ⟨by decide, ⟨by decide +kernel, by decide +kernel, by decide +kernel, by decide +kernel⟩,
    Sys.new_synced [(1, [0])] .standard none 1 demoWorld, ⟨[], Shows.new, rfl⟩, fun n c hc => ?_⟩
  have hc : Dict.get? [(1, _)] n = some c := hc
  rw [Dict.get?_cons] at hc
  split at hc
  · cases hc; exact trivial
  · cases hc

/-- After one pass node 0 was called once. -/
def calledOnce : Sys Nat Nat Unit := (scriptAfter constWorld forkPass twoCalls 20).2.1

/-- The hypotheses are met, and the fork sees the calls of the base: in its first pass, the second
call of node 0 is followed by node 1, as in the second run of the base.  Under a new id without a
base (`NotImplemented`) it is not. -/
example : Scripted constWorld forkPass twoCalls false (scriptAfter constWorld forkPass twoCalls 20).1
      calledOnce .returned ∧
    ForkReady (fun _ => False) constWorld forkPass (some 7) calledOnce ∧
    (calledOnce.start forkPass).2 = .ok false ∧
    yields (scriptAfter constWorld forkPass twoCalls 20).1 = [[0]] ∧
    yields (scriptAfter constWorld forkPass calledOnce 20).1 = [[0], [1]] ∧
    yields (scriptAfter constWorld (forkArgs (some 7) forkPass) calledOnce 20).1 = [[0], [1]] ∧
    yields (scriptAfter constWorld { forkPass with id := some 7, base := none } calledOnce 20).1 =
      [[0]] := by
  have hr := scriptAfter_scripted (w := constWorld) (a := forkPass) (s0 := twoCalls)
    (abs := false) (by decide +kernel) 20
  have e : (scriptAfter constWorld forkPass twoCalls 20).2.2 = .returned := by decide +kernel
  rw [e] at hr
  obtain ⟨g1, g2⟩ := twoCalls_forkable.after rfl hr
  exact ⟨hr, g1.ready g2 rfl rfl trivial ⟨fun _ => rfl, fun _ _ => rfl, fun _ _ _ => rfl⟩
    fun _ => ⟨fun _ => rfl, fun _ _ => rfl, fun _ _ _ => rfl⟩, by decide +kernel, by decide +kernel,
    by decide +kernel, by decide +kernel, by decide +kernel⟩

/-! ## What a fork does not take over -/

/-- One node, with `add_condition(0, AfterPass(0, time_scale=LIFE))`. -/
def afterFirstPass : Sys Nat Nat Unit :=
  ((Sys.new [(0, [])] .standard none 1 demoWorld).alloc 1).addBasic 0 (.leaf 0 (.afterPass 0 .life))

/-- C106 is false of the code for conditions about the time before the run: the clock is not
copied.  In its second run the base is past pass 0 of its life and runs node 0.  The fork is in pass
0 of its life, and does not. -/
theorem C106_time : ∃ (s0 s : Sys Nat Nat Unit) (h h1 h2 : History Nat Nat Unit)
    (s1 s2 : Sys Nat Nat Unit),
    Scripted constWorld forkPass s0 false h s .returned ∧
    Scripted constWorld forkPass s false h1 s1 .returned ∧
    Scripted constWorld (forkArgs (some 7) forkPass) s false h2 s2 .returned ∧
    yields h1 = [[0]] ∧ yields h2 = [[]] := by
  have k0 := scriptAfter_scripted (w := constWorld) (a := forkPass) (s0 := afterFirstPass) (abs := false)
    (by decide +kernel) 20
  have k1 := scriptAfter_scripted (w := constWorld) (a := forkPass)
    (s0 := (scriptAfter constWorld forkPass afterFirstPass 20).2.1) (abs := false) (by decide +kernel) 20
  have k2 := scriptAfter_scripted (w := constWorld) (a := forkArgs (some 7) forkPass)
    (s0 := (scriptAfter constWorld forkPass afterFirstPass 20).2.1) (abs := false) (by decide +kernel) 20
  have e0 : (scriptAfter constWorld forkPass afterFirstPass 20).2.2 = .returned := by decide +kernel
  have e1 : (scriptAfter constWorld forkPass
      (scriptAfter constWorld forkPass afterFirstPass 20).2.1 20).2.2 = .returned := by decide +kernel
  have e2 : (scriptAfter constWorld (forkArgs (some 7) forkPass)
      (scriptAfter constWorld forkPass afterFirstPass 20).2.1 20).2.2 = .returned := by decide +kernel
  rw [e0] at k0
  rw [e1] at k1
  rw [e2] at k2
  exact ⟨_, _, _, _, _, _, _, k0, k1, k2, by decide +kernel, by decide +kernel⟩

/-- One node, with `add_condition(0, NWhen(Always(), 1))`. -/
def onceOnly : Sys Nat Nat Unit :=
  ((Sys.new [(0, [])] .standard none 1 demoWorld).alloc 2).addBasic 0 (.nwhen 0 (.leaf 1 .always) 1)

/-- C106 is false of the code for `NWhen`: how often the condition was satisfied is not copied.
The base has used its single execution, the fork has not. -/
theorem C106_quota : ∃ (s0 s : Sys Nat Nat Unit) (h h1 h2 : History Nat Nat Unit)
    (s1 s2 : Sys Nat Nat Unit),
    Scripted constWorld forkPass s0 false h s .returned ∧
    Scripted constWorld forkPass s false h1 s1 .returned ∧
    Scripted constWorld (forkArgs (some 7) forkPass) s false h2 s2 .returned ∧
    yields h1 = [[]] ∧ yields h2 = [[0]] := by
  have k0 := scriptAfter_scripted (w := constWorld) (a := forkPass) (s0 := onceOnly) (abs := false)
    (by decide +kernel) 20
  have k1 := scriptAfter_scripted (w := constWorld) (a := forkPass)
    (s0 := (scriptAfter constWorld forkPass onceOnly 20).2.1) (abs := false) (by decide +kernel) 20
  have k2 := scriptAfter_scripted (w := constWorld) (a := forkArgs (some 7) forkPass)
    (s0 := (scriptAfter constWorld forkPass onceOnly 20).2.1) (abs := false) (by decide +kernel) 20
  have e0 : (scriptAfter constWorld forkPass onceOnly 20).2.2 = .returned := by decide +kernel
  have e1 : (scriptAfter constWorld forkPass
      (scriptAfter constWorld forkPass onceOnly 20).2.1 20).2.2 = .returned := by decide +kernel
  have e2 : (scriptAfter constWorld (forkArgs (some 7) forkPass)
      (scriptAfter constWorld forkPass onceOnly 20).2.1 20).2.2 = .returned := by decide +kernel
  rw [e0] at k0
  rw [e1] at k1
  rw [e2] at k2
  exact ⟨_, _, _, _, _, _, _, k0, k1, k2, by decide +kernel, by decide +kernel⟩

/-- C106 is false of the code if the last run of the base was abandoned: a further run of the base
goes on in the middle of its environment state update, and the fork begins a new one.  Here the
node runs in pass 0 only, and two passes make an update. -/
theorem C106_abandoned : ∃ (s0 s : Sys Nat Nat Unit) (h h1 h2 : History Nat Nat Unit)
    (s1 s2 : Sys Nat Nat Unit),
    Scripted constWorld passPair s0 false h s .yieldedEmpty ∧
    Scripted constWorld passPair s false h1 s1 .returned ∧
    Scripted constWorld (forkArgs (some 7) passPair) s false h2 s2 .returned ∧
    yields h1 = [[]] ∧ yields h2 = [[0], []] := by
  have k0 := scriptAfter_scripted (w := constWorld) (a := passPair) (s0 := firstPass) (abs := false)
    (by decide +kernel) 13
  have k1 := scriptAfter_scripted (w := constWorld) (a := passPair)
    (s0 := (scriptAfter constWorld passPair firstPass 13).2.1) (abs := false) (by decide +kernel) 30
  have k2 := scriptAfter_scripted (w := constWorld) (a := forkArgs (some 7) passPair)
    (s0 := (scriptAfter constWorld passPair firstPass 13).2.1) (abs := false) (by decide +kernel) 30
  have e0 : (scriptAfter constWorld passPair firstPass 13).2.2 = .yieldedEmpty := by decide +kernel
  have e1 : (scriptAfter constWorld passPair
      (scriptAfter constWorld passPair firstPass 13).2.1 30).2.2 = .returned := by decide +kernel
  have e2 : (scriptAfter constWorld (forkArgs (some 7) passPair)
      (scriptAfter constWorld passPair firstPass 13).2.1 30).2.2 = .returned := by decide +kernel
  rw [e0] at k0
  rw [e1] at k1
  rw [e2] at k2
  exact ⟨_, _, _, _, _, _, _, k0, k1, k2, by decide +kernel, by decide +kernel⟩

end GS.Props
