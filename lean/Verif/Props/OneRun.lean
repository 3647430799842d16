import Verif.OneRun
import Verif.Props.RateChain
/-!
# C133: two runs and one run
-/

set_option linter.unusedSectionVars false

namespace GS.Props
open Spec
variable {α κ W : Type _} [DecidableEq α] [DecidableEq κ]
variable {s0 s s' s'' t t' t'' : Sys α κ W} {w w' w'' : List (List α) → World α κ W}
variable {a a' a'' : RunArgs α κ W} {h h' h'' : History α κ W}
variable {runs : List (List (List (List α)))} {abs : Bool}

/-- **C133.** If no condition of a node looks at the current run, it does not matter where runs end: a
run of `N` passes and then a run of `M` passes yield together what one run of `N + M` passes yields
in their place. -/
theorem C133_one_run (hd : DescribedNodes s0) (hl : LifeNodes s0) (hq : s0.queue.flatten.Nodup)
    (hu : Unused s0 a.id) (hu' : Unused s0 a'.id) (hu'' : Unused s0 a''.id)
    {N M : Nat} (hE : AfterPasses N a) (hE' : AfterPasses M a') (hE'' : AfterPasses (N + M) a'')
    (hc : CompleteRuns a.id s0 runs s) (hr : Scripted w a s abs h t .returned)
    (hc' : CompleteRuns a'.id s0 (runs ++ [passYields h]) s') (hr' : Scripted w' a' s' abs h' t' .returned)
    (hc'' : CompleteRuns a''.id s0 runs s'') (hr'' : Scripted w'' a'' s'' abs h'' t'' .returned) :
    passYields h'' = passYields h ++ passYields h' := by
  have tells : ∀ {id : Option κ} {rs : List (List (List (List α)))} {x : Sys α κ W}
      (w : List (List α) → World α κ W) (b : RunArgs α κ W), CompleteRuns id s0 rs x →
      Tells x w b (aroundOf x w b) := fun w b k => C81_tells _ w b (fun i j n hi hj =>
    places_of_nodup hq i j n (by rw [← (k.like hd).queue]; exact hi) (by rw [← (k.like hd).queue]; exact hj))
  obtain ⟨l1, k1⟩ := passes_of_returned hd hu hc hE (tells w a hc) hr
  obtain ⟨l2, k2⟩ := passes_of_returned hd hu' hc' hE' (tells w' a' hc') hr'
  obtain ⟨l3, k3⟩ := passes_of_returned hd hu'' hc'' hE'' (tells w'' a'' hc'') hr''
  rw [← passYields_passes hr.reach, l1] at k1
  rw [← passYields_passes hr'.reach, l2] at k2
  rw [← passYields_passes hr''.reach, l3] at k3
  have n1 : (aroundOf s w a).nodes = s0.nodes := (hc.like hd).nodes
  have n2 : (aroundOf s' w' a').nodes = s0.nodes := (hc'.like hd).nodes
  have n3 : (aroundOf s'' w'' a'').nodes = s0.nodes := (hc''.like hd).nodes
  have first := reference_shorter (abs := abs) (q := s0.queue) (R := rule s0 (aroundOf s'' w'' a''))
    (R' := rule s0 (aroundOf s w a)) (T := stop a'' (aroundOf s'' w'' a''))
    (T' := stop a (aroundOf s w a)) (N := N) (M := M) (p := ⟨runs, [], [], []⟩) rfl
    (fun l hl' n hn p p' hp => hp.rule hl (n1.trans n3.symm) (List.mem_flatten.2 ⟨l, hl', hn⟩))
    (fun p => hE''.stop _ p) (fun p => hE.stop _ p) N (Nat.le_refl _)
  rw [k1] at first
  have split : ∀ (k : Nat), reference abs (rule s0 (aroundOf s'' w'' a'')) (stop a'' (aroundOf s'' w'' a''))
      s0.queue (N + k) ⟨runs, [], [], []⟩ =
      reference abs (rule s0 (aroundOf s'' w'' a'')) (stop a'' (aroundOf s'' w'' a'')) s0.queue k
        (reference abs (rule s0 (aroundOf s'' w'' a'')) (stop a'' (aroundOf s'' w'' a'')) s0.queue N
          ⟨runs, [], [], []⟩) := by
    intro k
    induction k with
    | zero => rfl
    | succ k ih => rw [← Nat.add_assoc, reference_succ, reference_succ, ih]
  have s3 := split M
  rw [k3] at s3
  obtain ⟨f1, f2, f3⟩ := first
  revert f1 f2 s3
  generalize reference abs (rule s0 (aroundOf s'' w'' a'')) (stop a'' (aroundOf s'' w'' a'')) s0.queue N
    ⟨runs, [], [], []⟩ = x
  intro s3 f1 f2
  have second := reference_life (abs := abs) (q := s0.queue) (R := rule s0 (aroundOf s'' w'' a''))
    (R' := rule s0 (aroundOf s' w' a')) (T := stop a'' (aroundOf s'' w'' a''))
    (T' := stop a' (aroundOf s' w' a')) (N := N) (M := M) (E := passYields h) (p := x)
    (p' := ⟨runs ++ [passYields h], [], [], []⟩)
    ⟨by
      have := f1.all
      rw [← this]
      simp [Past.all, Past.inRun], f1.now, f1.next, by
      have := f1.passes
      rw [← this]
      simp⟩ f2 rfl
    (fun l hl' n hn p p' hp => hp.rule hl (n2.trans n3.symm) (List.mem_flatten.2 ⟨l, hl', hn⟩))
    (fun p k => (hE''.stop _ p).trans (decide_eq_false (by omega))) (fun p => hE'.stop _ p) l1 M (Nat.le_refl _)
  rw [k2, ← s3] at second
  exact second.2.1

theorem _root_.GS.Spec.PassRuns.complete {id : Option κ} {M : Nat} (hp : PassRuns id abs s0 M runs s) :
    CompleteRuns id s0 runs s := by
  induction hp with
  | nil => exact .nil
  | world x _ ih => exact .world x ih
  | run _ hid hsk hE hr ih => exact .run ih hid hsk hE.described.apart hr

theorem _root_.GS.Spec.PassRuns.reference {id : Option κ} (hd : DescribedNodes s0) (hl : LifeNodes s0)
    (hq : s0.queue.flatten.Nodup) (hu : Unused s0 id) {e : Around α κ W} (he : e.nodes = s0.nodes) {M : Nat}
    (hp : PassRuns id abs s0 M runs s) :
    (Spec.reference abs (rule s0 e) (fun _ => false) s0.queue M ⟨[], [], [], []⟩).before = runs.flatten ∧
      SameLife (Spec.reference abs (rule s0 e) (fun _ => false) s0.queue M ⟨[], [], [], []⟩)
        ⟨runs, [], [], []⟩ ∧ runs.flatten.length = M := by
  induction hp with
  | nil => exact ⟨rfl, ⟨rfl, rfl, rfl, rfl⟩, rfl⟩
  | world x _ ih => exact ih
  | @run M N runs s s' w a h hp hid hsk hE hr ih =>
    obtain ⟨i1, i2, i3⟩ := ih
    have hc := hp.complete
    subst hid
    have tells : Tells s w a (aroundOf s w a) := C81_tells _ w a (fun i j n hi hj =>
      places_of_nodup hq i j n (by rw [← (hc.like hd).queue]; exact hi)
        (by rw [← (hc.like hd).queue]; exact hj))
    obtain ⟨l1, k1⟩ := passes_of_returned hd hu hc hE tells hr
    rw [← passYields_passes hr.reach, l1] at k1
    have n1 : (aroundOf s w a).nodes = s0.nodes := (hc.like hd).nodes
    have split : ∀ k, Spec.reference abs (rule s0 e) (fun _ => false) s0.queue (M + k) ⟨[], [], [], []⟩ =
        Spec.reference abs (rule s0 e) (fun _ => false) s0.queue k
          (Spec.reference abs (rule s0 e) (fun _ => false) s0.queue M ⟨[], [], [], []⟩) := by
      intro k
      induction k with
      | zero => rfl
      | succ k ih => rw [← Nat.add_assoc, reference_succ, reference_succ, ih]
    rw [split]
    revert i1 i2
    generalize Spec.reference abs (rule s0 e) (fun _ => false) s0.queue M ⟨[], [], [], []⟩ = x
    intro i1 i2
    have second := reference_life (abs := abs) (q := s0.queue) (R := rule s0 e)
      (R' := rule s0 (aroundOf s w a)) (T := fun _ => false) (T' := stop a (aroundOf s w a)) (N := M)
      (M := N) (E := runs.flatten) i2 i1 rfl
      (fun l hl' n hn p p' hp => hp.rule hl (n1.trans he.symm) (List.mem_flatten.2 ⟨l, hl', hn⟩))
      (fun _ _ => rfl) (fun p => hE.stop _ p) i3 N (Nat.le_refl _)
    rw [k1] at second
    obtain ⟨j1, j2, j3⟩ := second
    refine ⟨by rw [j2]; simp, ⟨?_, j1.now, j1.next, ?_⟩, ?_⟩
    · rw [← j1.all]
      simp [Past.all, Past.inRun]
    · rw [← j1.passes]
      simp
    · rw [List.flatten_append, List.length_append, i3, List.flatten_singleton, l1]

/-- **C133.** However a number of passes is divided into runs: together the runs yield the same. -/
theorem C133_divided {id id' : Option κ} (hd : DescribedNodes s0) (hl : LifeNodes s0)
    (hq : s0.queue.flatten.Nodup) (hu : Unused s0 id) (hu' : Unused s0 id') {M : Nat}
    {runs' : List (List (List (List α)))} (hp : PassRuns id abs s0 M runs s)
    (hp' : PassRuns id' abs s0 M runs' s') : runs.flatten = runs'.flatten := by
  let e : Around α κ W := ⟨s0.nodes, fun _ => 0, false, fun _ _ => false, fun _ _ _ _ _ => 0,
    fun _ _ => false, fun _ => 0, 0⟩
  rw [← (hp.reference hd hl hq hu (e := e) rfl).1, ← (hp'.reference hd hl hq hu' (e := e) rfl).1]

/-! ## A concrete case -/

/-- `0 → 1`: node 0 executes in every second pass since the scheduler exists; node 1 executes in the
passes in which 0 does not, when 0 has executed twice and 1 is not in the last set. -/
def lifeSys : Sys Nat Nat Unit :=
  (((Sys.new [(1, [0])] .standard none 0 demoWorld).alloc 7).addBasic 0
    (.leaf 0 (.everyNPasses 2 .environment_sequence))).addBasic 1
    (.all 1 [.leaf 2 (.afterNCalls 0 2 .life), .leaf 3 (.beforeNCalls 0 1 .pass),
      .not 4 (.leaf 5 (.justRan 1))])

/-- A run of `N` passes. -/
def ofPasses (N : Nat) : RunArgs Nat Nat Unit :=
  { id := none, esu := .leaf 20 (.afterNPasses N .environment_state_update), seq := .leaf 23 .never }

def lifeFirst := scriptAfter constWorld (ofPasses 3) lifeSys 100
def lifeSecond := scriptAfter constWorld (ofPasses 4) lifeFirst.2.1 100
def lifeWhole := scriptAfter constWorld (ofPasses 7) lifeSys 200

theorem lifeFirst_run : passYields lifeFirst.1 = [[[0]], [[]], [[0]]] ∧ lifeFirst.2.2 = .returned := by
  decide +kernel

theorem lifeSecond_run : passYields lifeSecond.1 = [[[1]], [[0]], [[1]], [[0]]] ∧
    lifeSecond.2.2 = .returned := by
  decide +kernel

theorem lifeWhole_run : passYields lifeWhole.1 = [[[0]], [[]], [[0]], [[1]], [[0]], [[1]], [[0]]] ∧
    lifeWhole.2.2 = .returned := by
  decide +kernel

theorem life_nodes {n : Nat} (hn : n ∈ lifeSys.queue.flatten) : n = 0 ∨ n = 1 := by
  have e : lifeSys.queue.flatten = [0, 1] := by decide +kernel
  rw [e] at hn; simpa using hn

theorem life_described : DescribedNodes lifeSys := by
  intro n hn
  rcases life_nodes hn with rfl | rfl
  · exact ⟨by decide +kernel, .inl ⟨_, rfl, .leaf (by show 1 < 3; decide) (fun e => e.elim)⟩⟩
  · refine ⟨by decide +kernel, .inl ⟨_, rfl, .all ?_⟩⟩
    intro c hc
    rcases List.mem_cons.1 hc with rfl | hc
    · exact .leaf (.inl (by decide)) (fun e => e.elim)
    · rcases List.mem_cons.1 hc with rfl | hc
      · exact .leaf (.inr ⟨rfl, rfl⟩) (fun e => e.elim)
      · rw [List.mem_singleton] at hc
        subst hc
        exact .not (.leaf trivial (fun e => e.elim))

theorem life_life : LifeNodes lifeSys := by
  intro n hn
  rcases life_nodes hn with rfl | rfl
  · exact .inl ⟨_, rfl, .leaf (.inl rfl)⟩
  · refine .inl ⟨_, rfl, .all ?_⟩
    intro c hc
    rcases List.mem_cons.1 hc with rfl | hc
    · exact .leaf (.inr (.inr rfl))
    · rcases List.mem_cons.1 hc with rfl | hc
      · exact .leaf (.inl rfl)
      · rw [List.mem_singleton] at hc
        subst hc
        exact .not (.leaf trivial)

/-- The hypotheses of `C133_one_run` hold for this scheduler. -/
example : DescribedNodes lifeSys ∧ LifeNodes lifeSys ∧ lifeSys.queue.flatten.Nodup ∧
    Unused lifeSys none ∧ AfterPasses 3 (ofPasses 3) ∧ AfterPasses 4 (ofPasses 4) ∧
    AfterPasses (3 + 4) (ofPasses 7) ∧
    Scripted constWorld (ofPasses 3) lifeSys false lifeFirst.1 lifeFirst.2.1 .returned ∧
    CompleteRuns none lifeSys [passYields lifeFirst.1] lifeFirst.2.1 ∧
    Scripted constWorld (ofPasses 4) lifeFirst.2.1 false lifeSecond.1 lifeSecond.2.1 .returned ∧
    Scripted constWorld (ofPasses 7) lifeSys false lifeWhole.1 lifeWhole.2.1 .returned := by
  have k1 := scriptAfter_scripted (w := constWorld) (a := ofPasses 3) (s0 := lifeSys) (abs := false)
    (by decide +kernel) 100
  have k2 := scriptAfter_scripted (w := constWorld) (a := ofPasses 4) (s0 := lifeFirst.2.1) (abs := false)
    (by decide +kernel) 100
  have k3 := scriptAfter_scripted (w := constWorld) (a := ofPasses 7) (s0 := lifeSys) (abs := false)
    (by decide +kernel) 200
  have e1 : (scriptAfter constWorld (ofPasses 3) lifeSys 100).2.2 = .returned := lifeFirst_run.2
  have e2 : (scriptAfter constWorld (ofPasses 4) lifeFirst.2.1 100).2.2 = .returned := lifeSecond_run.2
  have e3 : (scriptAfter constWorld (ofPasses 7) lifeSys 200).2.2 = .returned := lifeWhole_run.2
  rw [e1] at k1
  rw [e2] at k2
  rw [e3] at k3
  have hE : AfterPasses 3 (ofPasses 3) := ⟨rfl, rfl⟩
  exact ⟨life_described, life_life, by decide +kernel, ⟨by rfl, by rfl, .new, noNWhen_sat (by decide +kernel)⟩,
    hE, ⟨rfl, rfl⟩, ⟨rfl, rfl⟩, k1, .run .nil rfl rfl hE.described.apart k1, k2, k3⟩

/-- Seven passes divided into runs in two ways. -/
example : PassRuns none false lifeSys 7 [passYields lifeFirst.1, passYields lifeSecond.1] lifeSecond.2.1 ∧
    PassRuns none false lifeSys 7 [passYields lifeWhole.1] lifeWhole.2.1 := by
  have k1 := scriptAfter_scripted (w := constWorld) (a := ofPasses 3) (s0 := lifeSys) (abs := false)
    (by decide +kernel) 100
  have k2 := scriptAfter_scripted (w := constWorld) (a := ofPasses 4) (s0 := lifeFirst.2.1) (abs := false)
    (by decide +kernel) 100
  have k3 := scriptAfter_scripted (w := constWorld) (a := ofPasses 7) (s0 := lifeSys) (abs := false)
    (by decide +kernel) 200
  have e1 : (scriptAfter constWorld (ofPasses 3) lifeSys 100).2.2 = .returned := lifeFirst_run.2
  have e2 : (scriptAfter constWorld (ofPasses 4) lifeFirst.2.1 100).2.2 = .returned := lifeSecond_run.2
  have e3 : (scriptAfter constWorld (ofPasses 7) lifeSys 200).2.2 = .returned := lifeWhole_run.2
  rw [e1] at k1
  rw [e2] at k2
  rw [e3] at k3
  have r1 : PassRuns none false lifeSys (0 + 3) ([] ++ [passYields lifeFirst.1]) lifeFirst.2.1 :=
    .run (a := ofPasses 3) .nil rfl rfl ⟨rfl, rfl⟩ k1
  have r2 : PassRuns none false lifeSys (0 + 3 + 4) ([] ++ [passYields lifeFirst.1] ++
      [passYields lifeSecond.1]) lifeSecond.2.1 := .run (a := ofPasses 4) r1 rfl rfl ⟨rfl, rfl⟩ k2
  have r3 : PassRuns none false lifeSys (0 + 7) ([] ++ [passYields lifeWhole.1]) lifeWhole.2.1 :=
    .run (a := ofPasses 7) .nil rfl rfl ⟨rfl, rfl⟩ k3
  exact ⟨r2, r3⟩

end GS.Props
