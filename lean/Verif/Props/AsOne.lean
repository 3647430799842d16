import Verif.AsOne
import Verif.Props.ByPass
import Verif.Props.Graph
/-!
# C129: a graph whose origins execute in certain passes executes as a whole in exactly these passes
-/

set_option linter.unusedSectionVars false

namespace GS.Props
open Spec
variable {α κ W : Type _} [DecidableEq α] [DecidableEq κ]
variable {s0 s t : Sys α κ W} {w : List (List α) → World α κ W} {a : RunArgs α κ W}
variable {h : History α κ W} {runs : List (List (List (List α)))} {abs : Bool}

theorem at_split {q q1 : List (List α)} {l : List α} {q2 : List (List α)} (e : q = q1 ++ l :: q2)
    {j : Nat} {d : α} (h : At q j d) (hj : j < q1.length) : d ∈ q1.flatten := by
  obtain ⟨x, hx, hd⟩ := h
  rw [e, List.getElem?_append_left hj] at hx
  exact List.mem_flatten.2 ⟨x, List.mem_of_getElem? hx, hd⟩

/-- **C129.** Let the nodes of an acyclic graph either have a condition on the numbers of passes and
runs, which names the passes `D` for all of them, or have no condition and at least one sender (or no
sender, if `D` are all passes). In a run that ends after `N` passes there are `N` passes. In the passes `D` the whole graph executes, set
by set in the order of the graph; in the other passes nothing does: one empty set is yielded, or, in
absolute time, an empty set for each set of the graph. -/
theorem C129_as_one (g : Graph α) (hg : Dict.WF g) (hcyc : ¬ HasCycle g) (hsome : ∃ n, IsNode g n)
    (hsg : s0.graph = baseGraph g) (hsq : s0.queue = queueOf (baseGraph g))
    (hd : DescribedNodes s0) (hu : Unused s0 a.id) (hr' : CompleteRuns a.id s0 runs s)
    {N : Nat} (hE : AfterPasses N a) (hr : Scripted w a s abs h t .returned) (D : Nat → Prop)
    (hD : ∀ n, IsNode g n →
      (∃ c, Dict.get? s0.conds n = some c ∧ PassCond c ∧ ∀ i, dueIn runs.length i c ↔ D i) ∨
      (Dict.get? s0.conds n = none ∧ ((∃ d, Edge g d n) ∨ ∀ i, D i))) :
    (passYields h).length = N ∧ ∀ i P, (passYields h)[i]? = some P →
      (D i → SameSets P s0.queue) ∧
        (¬ D i → P = if abs then List.replicate s0.queue.length [] else [[]]) := by
  obtain ⟨p1, p2, p3⟩ := C01_partition g hg hcyc
  rw [← hsq] at p1 p2 p3
  have hl := hr'.like hd
  have htell := C81_tells s w a (fun i j n hi hj => places_of_nodup p2 i j n
    (by rw [← hl.queue]; exact hi) (by rw [← hl.queue]; exact hj))
  obtain ⟨hlen, key⟩ := passes_of_returned hd hu hr' hE htell hr
  have hq0 : s0.queue ≠ [] := by
    intro e
    obtain ⟨n, hn⟩ := hsome
    have := (p3 n).2 hn
    rw [e] at this; cases this
  obtain ⟨_, _, _, _, k⟩ := reference_asOne (abs := abs) (T := stop a (aroundOf s w a))
    (R := rule s0 (aroundOf s w a)) (runs := runs) (D := D) p2 p1 hq0 (fun n hn => by
      have hcase : (∃ c, Dict.get? s0.conds n = some c ∧ PassCond c ∧ ∀ i, dueIn runs.length i c ↔ D i) ∨
          (Dict.get? s0.conds n = none ∧ ∃ d, Edge g d n) ∨
          (Dict.get? s0.conds n = none ∧ (∀ d, ¬ Edge g d n) ∧ ∀ i, D i) := by
        rcases hD n ((p3 n).1 hn) with k | ⟨k1, k2⟩
        · exact .inl k
        · by_cases k3 : ∃ d, Edge g d n
          · exact .inr (.inl ⟨k1, k3⟩)
          · exact .inr (.inr ⟨k1, fun d hd => k3 ⟨d, hd⟩, k2.resolve_left k3⟩)
      rcases hcase with ⟨c, h1, h2, h3⟩ | ⟨h1, d, h2⟩ | ⟨h1, h2, h3⟩
      · refine .inl fun p e => ?_
        rw [rule_due h1 h2, e]
        exact h3 _
      · obtain ⟨ds, h3, h4⟩ := (edge_iff_get? (baseGraph_wf g) d n).1 ((baseGraph_edge g hg d n).2 h2)
        rw [← hsg] at h3
        have hne : ∀ d ∈ ds, d ≠ n := by
          rcases (hd n hn).2 with ⟨c, k, _⟩ | ⟨_, _, _, k, _⟩ | ⟨_, ds', k, k'⟩
          · rw [h1] at k; cases k
          · rw [h1] at k; cases k
          · rw [h3] at k
            cases k
            exact fun d hd => (k' d hd).2
        refine .inr ⟨ds, List.ne_nil_of_mem h4, fun d' hd' q1 l q2 e hnl => ?_, fun p => ?_⟩
        · have he : Edge g d' n := (baseGraph_edge g hg d' n).1
            ((edge_iff_get? (baseGraph_wf g) d' n).2 ⟨ds, by rw [← hsg]; exact h3, hd'⟩)
          have hin := (p3 d').2 (by
            obtain ⟨x, hx, _, hx2⟩ := he
            exact .inr ⟨x, hx, hx2⟩)
          obtain ⟨l', hl', hdl'⟩ := List.mem_flatten.1 hin
          obtain ⟨j, hj⟩ := List.getElem?_of_mem hl'
          have hat : At s0.queue j d' := ⟨l', hj, hdl'⟩
          have hat2 : At s0.queue q1.length n := ⟨l, by rw [e]; simp, hnl⟩
          exact at_split e hat (C02_senders_first g hg hcyc d' n he (hne d' hd') j q1.length
            (hsq ▸ hat) (hsq ▸ hat2))
        · unfold rule
          rw [h1]
          simp only
          rw [h3]
      · obtain ⟨ds, h4⟩ : ∃ ds, Dict.get? s0.graph n = some ds :=
          Option.isSome_iff_exists.1 (Dict.get?_isSome.2
            (by rw [hsg]; exact (baseGraph_keys g hg n).2 ((p3 n).1 hn)))
        have h5 : ds = [] := List.eq_nil_iff_forall_not_mem.2 fun d hd => h2 d
          ((baseGraph_edge g hg d n).1 ((edge_iff_get? (baseGraph_wf g) d n).2 ⟨ds, hsg ▸ h4, hd⟩))
        refine .inl fun p _ => ⟨fun _ => h3 _, fun _ => ?_⟩
        unfold rule
        rw [h1]
        simp only
        rw [h4, h5]
        exact decide_eq_true (fun _ hd => by cases hd))
    (fun p p' e => by rw [hE.stop, hE.stop, e]) (passes h)
  rw [key] at k
  exact ⟨hlen, k⟩

/-- **C129.** Without conditions the whole graph executes in every pass. -/
theorem C129_plain (g : Graph α) (hg : Dict.WF g) (hcyc : ¬ HasCycle g) (hsome : ∃ n, IsNode g n)
    (hsg : s0.graph = baseGraph g) (hsq : s0.queue = queueOf (baseGraph g))
    (hd : DescribedNodes s0) (hu : Unused s0 a.id) (hr' : CompleteRuns a.id s0 runs s)
    {N : Nat} (hE : AfterPasses N a) (hr : Scripted w a s abs h t .returned)
    (hD : ∀ n, IsNode g n → Dict.get? s0.conds n = none) :
    (passYields h).length = N ∧ ∀ P ∈ passYields h, SameSets P s0.queue := by
  obtain ⟨k1, k2⟩ := C129_as_one g hg hcyc hsome hsg hsq hd hu hr' hE hr (fun _ => True)
    (fun n hn => .inr ⟨hD n hn, .inr fun _ => trivial⟩)
  refine ⟨k1, fun P hP => ?_⟩
  obtain ⟨i, hi⟩ := List.getElem?_of_mem hP
  exact (k2 i P hi).1 trivial

/-! ## A concrete case -/

/-- `0 → 1 → 3`, `0 → 2 → 3`, `4 → 3`: the origins 0 and 4 execute in every second pass, said in two
ways; the other nodes have no condition. -/
def flowGraph : Graph Nat := [(1, [0]), (2, [0]), (3, [1, 2, 4])]

def flowSys : Sys Nat Nat Unit :=
  (((Sys.new flowGraph .standard none 0 demoWorld).alloc 7).addBasic 0
    (.leaf 1 (.everyNPasses 2 .environment_state_update))).addBasic 4
    (.any 2 [.leaf 3 (.everyNPasses 2 .environment_state_update),
      .leaf 4 (.everyNPasses (-4) .environment_state_update)])

def flowFirst := scriptAfter constWorld sixPasses flowSys 200
def flowSecond := scriptAfter constWorld sixPasses flowFirst.2.1 200

theorem flowFirst_run : flowFirst.2.2 = .returned := by decide +kernel

theorem flowSecond_run : passYields flowSecond.1 =
    [[[0, 4], [1, 2], [3]], [[]], [[0, 4], [1, 2], [3]], [[]], [[0, 4], [1, 2], [3]], [[]]] ∧
    flowSecond.2.2 = .returned := by
  decide +kernel

theorem flow_described : DescribedNodes flowSys := by
  intro n hn
  have : n = 0 ∨ n = 4 ∨ n = 1 ∨ n = 2 ∨ n = 3 := by
    have e : flowSys.queue.flatten = [0, 4, 1, 2, 3] := by decide +kernel
    rw [e] at hn; simpa using hn
  rcases this with rfl | rfl | rfl | rfl | rfl
  · exact ⟨by decide +kernel, .inl ⟨_, rfl, .leaf (by show 1 < 2; decide) (fun e => e.elim)⟩⟩
  · refine ⟨by decide +kernel, .inl ⟨_, rfl, .any ?_⟩⟩
    intro c hc
    rcases List.mem_cons.1 hc with rfl | hc
    · exact .leaf (by show 1 < 2; decide) (fun e => e.elim)
    · rw [List.mem_singleton] at hc
      subst hc
      exact .leaf (by show 1 < 2; decide) (fun e => e.elim)
  · exact ⟨by decide +kernel, .inr (.inr ⟨by rfl, [0], by decide +kernel, by decide +kernel⟩)⟩
  · exact ⟨by decide +kernel, .inr (.inr ⟨by rfl, [0], by decide +kernel, by decide +kernel⟩)⟩
  · exact ⟨by decide +kernel, .inr (.inr ⟨by rfl, [1, 2, 4], by decide +kernel, by decide +kernel⟩)⟩

theorem flow_acyclic : ¬ HasCycle flowGraph := by
  have hup : ∀ s r, ProperEdge flowGraph s r → (s = 4 ∧ r = 3) ∨ (s < r ∧ s ≠ 3 ∧ r ≠ 4) := by
    rintro s r ⟨⟨p, hp, rfl, hs⟩, _⟩
    simp [flowGraph] at hp
    rcases hp with rfl | rfl | rfl <;> simp at hs <;> omega
  rintro ⟨n, hn⟩
  have key : ∀ x y, Relation.TransGen (ProperEdge flowGraph) x y → (x = 4 ∧ y = 3) ∨ (x < y ∧ x ≠ 3 ∧ y ≠ 4) := by
    intro x y h
    induction h with
    | single h => exact hup _ _ h
    | tail _ h ih => have := hup _ _ h; omega
  have := key n n hn
  omega

/-- The hypotheses of `C129_as_one` hold for the second run of this scheduler. -/
example : Dict.WF flowGraph ∧ ¬ HasCycle flowGraph ∧ (∃ n, IsNode flowGraph n) ∧
    flowSys.graph = baseGraph flowGraph ∧ flowSys.queue = queueOf (baseGraph flowGraph) ∧
    DescribedNodes flowSys ∧ Unused flowSys sixPasses.id ∧
    CompleteRuns sixPasses.id flowSys [passYields flowFirst.1] flowFirst.2.1 ∧
    AfterPasses 6 sixPasses ∧
    Scripted constWorld sixPasses flowFirst.2.1 false flowSecond.1 flowSecond.2.1 .returned ∧
    ∀ n, IsNode flowGraph n →
      (∃ c, Dict.get? flowSys.conds n = some c ∧ PassCond c ∧
        ∀ i, dueIn 1 i c ↔ ∃ k : Int, (i : Int) = 2 * k) ∨
      (Dict.get? flowSys.conds n = none ∧ ((∃ d, Edge flowGraph d n) ∨
        ∀ i : Nat, ∃ k : Int, (i : Int) = 2 * k)) := by
  have k1 := scriptAfter_scripted (w := constWorld) (a := sixPasses) (s0 := flowSys) (abs := false)
    (by decide +kernel) 200
  have k2 := scriptAfter_scripted (w := constWorld) (a := sixPasses) (s0 := flowFirst.2.1) (abs := false)
    (by decide +kernel) 200
  have e1 : (scriptAfter constWorld sixPasses flowSys 200).2.2 = .returned := flowFirst_run
  have e2 : (scriptAfter constWorld sixPasses flowFirst.2.1 200).2.2 = .returned := flowSecond_run.2
  rw [e1] at k1
  rw [e2] at k2
  refine ⟨by unfold Dict.WF; decide +kernel, flow_acyclic, ⟨0, .inr ⟨(1, [0]), by decide, by decide⟩⟩, rfl, rfl,
    flow_described, ⟨by rfl, by rfl, .new, noNWhen_sat (by decide +kernel)⟩,
    .run .nil rfl rfl pass_end.described.apart k1, pass_end, k2, ?_⟩
  intro n hn
  have hn' : n = 0 ∨ n = 4 ∨ n = 1 ∨ n = 2 ∨ n = 3 := by
    rcases hn with ⟨p, hp, rfl⟩ | ⟨p, hp, hs⟩
    · simp [flowGraph] at hp
      rcases hp with rfl | rfl | rfl <;> simp
    · simp [flowGraph] at hp
      rcases hp with rfl | rfl | rfl <;> simp at hs <;> omega
  rcases hn' with rfl | rfl | rfl | rfl | rfl
  · exact .inl ⟨_, rfl, .leaf rfl, fun i => Iff.rfl⟩
  · refine .inl ⟨_, rfl, .any ?_, fun i => ?_⟩
    · intro c hc
      rcases List.mem_cons.1 hc with rfl | hc
      · exact .leaf rfl
      · rw [List.mem_singleton] at hc
        subst hc
        exact .leaf rfl
    · constructor
      · rintro (h | ⟨k, h⟩ | h)
        · exact h
        · exact ⟨-2 * k, by rw [h]; omega⟩
        · exact h.elim
      · exact .inl
  · exact .inr ⟨rfl, .inl ⟨0, (1, [0]), by decide, rfl, by decide⟩⟩
  · exact .inr ⟨rfl, .inl ⟨0, (2, [0]), by decide, rfl, by decide⟩⟩
  · exact .inr ⟨rfl, .inl ⟨1, (3, [1, 2, 4]), by decide, rfl, by decide⟩⟩

/-- A run of six passes in absolute time, because of a termination condition for another time scale. -/
def sixTimed : RunArgs Nat Nat Unit :=
  { sixPasses with others := [.leaf 30 (.timeTermination ⟨1000, 0⟩ true)] }

def flowTimed := scriptAfter constWorld sixTimed flowSys 400

theorem flowTimed_run : passYields flowTimed.1 =
    [[[0, 4], [1, 2], [3]], [[], [], []], [[0, 4], [1, 2], [3]], [[], [], []],
      [[0, 4], [1, 2], [3]], [[], [], []]] ∧ flowTimed.2.2 = .returned := by
  decide +kernel

example : AfterPasses 6 sixTimed ∧ Unused flowSys sixTimed.id ∧
    CompleteRuns sixTimed.id flowSys [] flowSys ∧
    Scripted constWorld sixTimed flowSys true flowTimed.1 flowTimed.2.1 .returned := by
  have k1 := scriptAfter_scripted (w := constWorld) (a := sixTimed) (s0 := flowSys) (abs := true)
    (by decide +kernel) 400
  have e1 : (scriptAfter constWorld sixTimed flowSys 400).2.2 = .returned := flowTimed_run.2
  rw [e1] at k1
  exact ⟨⟨rfl, rfl⟩, ⟨by rfl, by rfl, .new, noNWhen_sat (by decide +kernel)⟩, .nil, k1⟩

/-- The hypotheses of `C129_plain` hold for this graph without conditions. -/
example : (∀ n, IsNode flowGraph n →
      Dict.get? (Sys.new flowGraph .standard none 0 demoWorld : Sys Nat Nat Unit).conds n = none) ∧
    DescribedNodes (Sys.new flowGraph .standard none 0 demoWorld : Sys Nat Nat Unit) ∧
    Unused (Sys.new flowGraph .standard none 0 demoWorld : Sys Nat Nat Unit) sixPasses.id ∧
    ∃ h t, Scripted constWorld sixPasses (Sys.new flowGraph .standard none 0 demoWorld) false h t .returned ∧
      passYields h = List.replicate 6 [[0, 4], [1, 2], [3]] := by
  have k1 := scriptAfter_scripted (w := constWorld) (a := sixPasses)
    (s0 := (Sys.new flowGraph .standard none 0 demoWorld : Sys Nat Nat Unit)) (abs := false)
    (by decide +kernel) 200
  have e1 : (scriptAfter constWorld sixPasses
    (Sys.new flowGraph .standard none 0 demoWorld : Sys Nat Nat Unit) 200).2.2 = .returned := by
    decide +kernel
  rw [e1] at k1
  refine ⟨fun _ _ => rfl, ?_, ⟨by rfl, by rfl, .new, noNWhen_sat (by decide +kernel)⟩, _, _, k1,
    by decide +kernel⟩
  intro n hn
  have : n = 0 ∨ n = 4 ∨ n = 1 ∨ n = 2 ∨ n = 3 := by
    have e : (Sys.new flowGraph .standard none 0 demoWorld : Sys Nat Nat Unit).queue.flatten =
      [0, 4, 1, 2, 3] := by decide +kernel
    rw [e] at hn; simpa using hn
  rcases this with rfl | rfl | rfl | rfl | rfl
  · exact ⟨by decide +kernel, .inr (.inr ⟨by rfl, [], by decide +kernel, by decide +kernel⟩)⟩
  · exact ⟨by decide +kernel, .inr (.inr ⟨by rfl, [], by decide +kernel, by decide +kernel⟩)⟩
  · exact ⟨by decide +kernel, .inr (.inr ⟨by rfl, [0], by decide +kernel, by decide +kernel⟩)⟩
  · exact ⟨by decide +kernel, .inr (.inr ⟨by rfl, [0], by decide +kernel, by decide +kernel⟩)⟩
  · exact ⟨by decide +kernel, .inr (.inr ⟨by rfl, [1, 2, 4], by decide +kernel, by decide +kernel⟩)⟩

end GS.Props
