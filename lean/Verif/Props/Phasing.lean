import Verif.Phasing
import Verif.Props.GoesFirst
/-!
# C120: the phasing examples of the documentation, with any numbers

Specification: `Verif/Spec/Phasing.lean`.
-/

set_option linter.unusedSectionVars false

namespace GS
open Spec Props
variable {α κ W : Type _} [DecidableEq α] [DecidableEq κ]
variable {s : Sys α κ W} {a b c : α} {n k i j m : Nat}

theorem Spec.UntilCalls.described {args : RunArgs α κ W} (h : UntilCalls b m args) : DescribedEnd args := by
  obtain ⟨o, o', h1, h2⟩ := h
  intro st
  rw [h1, h2]
  exact ⟨.leaf (by simp [DescribedLeaf, TimeScale.val]) (by simp [UsesOwner]),
    .leaf (by simp [DescribedLeaf]) (by simp [UsesOwner])⟩

theorem Spec.UntilCalls.stop_eq {args : RunArgs α κ W} (h : UntilCalls b m args) (e : Around α κ W)
    (p : Past α) : stop args e p = decide (m ≤ (p.inRun.flatten ++ p.next).count b) := by
  obtain ⟨o, o', h1, h2⟩ := h
  unfold Spec.stop
  rw [h1, h2]
  rw [Bool.eq_iff_iff]
  simp only [Spec.holds, holdsLeaf, Bool.or_false, decide_eq_true_eq]
  simp only [Past.calls]
  omega

theorem Spec.Alternates.described (h : Alternates s a b n) : DescribedNodes s := by
  intro x hx
  rw [h.queue] at hx
  have hx : x = a ∨ x = b := by simpa using hx
  refine ⟨(h.nodes x).2 hx, .inl ?_⟩
  rcases hx with rfl | rfl
  · obtain ⟨o, o1, o2, h1, h2⟩ := h.first
    refine ⟨_, h1, .any fun c hc => ?_⟩
    simp only [List.mem_cons, List.not_mem_nil, or_false] at hc
    rcases hc with rfl | rfl
    · exact .leaf (by simp [DescribedLeaf, TimeScale.val]) (by simp [UsesOwner])
    · exact .leaf rfl fun _ => h2
  · obtain ⟨o, o1, o2, h1, h2, h3⟩ := h.second
    refine ⟨_, h1, .any fun c hc => ?_⟩
    simp only [List.mem_cons, List.not_mem_nil, or_false] at hc
    rcases hc with rfl | rfl
    · exact .leaf rfl fun _ => h2
    · exact .leaf rfl fun _ => h3

theorem Spec.Alternates.rule_a (h : Alternates s a b n) (e : Around α κ W) (p : Past α) :
    rule s e a p = (decide (p.before.length = 0) ||
      decide (n ≤ (since a (p.inRun.flatten ++ p.next)).count b)) := by
  obtain ⟨o, o1, o2, h1, _⟩ := h.first
  have hba : b ≠ a := fun e => h.apart e.symm
  unfold Spec.rule
  rw [h1]
  rw [Bool.eq_iff_iff]
  simp only [holds, holdsAny, holdsLeaf, Bool.or_false, Bool.or_eq_true, decide_eq_true_eq]
  simp only [Past.passes, Past.callsSince, hba, false_and, if_false]
  omega

theorem Spec.Alternates.rule_b (h : Alternates s a b n) (e : Around α κ W) (p : Past α) :
    rule s e b p = (decide (1 ≤ (since b (p.inRun.flatten ++ p.next)).count a) ||
      decide (b ∈ p.inRun.flatten ++ p.next)) := by
  obtain ⟨o, o1, o2, h1, _⟩ := h.second
  unfold Spec.rule
  rw [h1]
  simp only [holds, holdsAny, holdsLeaf, Bool.or_false, Past.callsSince, h.apart, false_and, if_false, true_and]
  have h0 : (since b (p.inRun.flatten ++ p.next)).count b = 0 :=
    List.count_eq_zero.2 (not_mem_since _ _)
  rw [h0, Bool.eq_iff_iff]
  simp only [Bool.or_eq_true, decide_eq_true_eq]
  by_cases hm : b ∈ p.inRun.flatten ++ p.next
  · simp [hm]
  · simp only [hm, if_false, or_false]; omega

theorem Spec.TwoProcesses.described (h : TwoProcesses s a b c k i j) : DescribedNodes s := by
  intro x hx
  have hx : x = a ∨ x = b ∨ x = c := by
    rcases h.queue with h | h <;> rw [h] at hx <;> simp at hx
    · exact hx
    · rcases hx with h | h | h
      · exact .inr (.inl h)
      · exact .inl h
      · exact .inr (.inr h)
  refine ⟨(h.nodes x).2 hx, .inl ?_⟩
  rcases hx with rfl | rfl | rfl
  · obtain ⟨o, h1⟩ := h.first
    exact ⟨_, h1, .leaf (by simp [DescribedLeaf, TimeScale.val]) (by simp [UsesOwner])⟩
  · obtain ⟨o, h1, h2⟩ := h.second
    exact ⟨_, h1, .leaf rfl fun _ => h2⟩
  · obtain ⟨o, o1, o2, h1⟩ := h.third
    refine ⟨_, h1, .any fun c hc => ?_⟩
    simp only [List.mem_cons, List.not_mem_nil, or_false] at hc
    rcases hc with rfl | rfl
    · exact .leaf (by simp [DescribedLeaf, TimeScale.val]) (by simp [UsesOwner])
    · exact .leaf (by simp [DescribedLeaf, TimeScale.val]) (by simp [UsesOwner])

theorem Spec.TwoProcesses.rule_a (h : TwoProcesses s a b c k i j) (e : Around α κ W) (p : Past α) :
    rule s e a p = true := by
  obtain ⟨o, h1⟩ := h.first
  unfold Spec.rule
  rw [h1]
  simp only [holds, holdsLeaf, decide_eq_true_eq]
  exact Int.one_dvd _

theorem Spec.TwoProcesses.rule_b (h : TwoProcesses s a b c k i j) (e : Around α κ W) (p : Past α) :
    rule s e b p = decide (k ≤ (since b (p.inRun.flatten ++ p.next)).count a) := by
  obtain ⟨o, h1, _⟩ := h.second
  unfold Spec.rule
  rw [h1]
  simp only [holds, holdsLeaf, Past.callsSince, h.apart.1, false_and, if_false]
  rw [Bool.eq_iff_iff]
  simp only [decide_eq_true_eq]
  omega

theorem Spec.TwoProcesses.rule_c (h : TwoProcesses s a b c k i j) (e : Around α κ W) (p : Past α) :
    rule s e c p = (decide (i ≤ (p.inRun.flatten ++ p.next).count a) ||
      decide (j ≤ (p.inRun.flatten ++ p.next).count b)) := by
  obtain ⟨o, o1, o2, h1⟩ := h.third
  unfold Spec.rule
  rw [h1]
  rw [Bool.eq_iff_iff]
  simp only [holds, holdsAny, holdsLeaf, Bool.or_false, Bool.or_eq_true, decide_eq_true_eq]
  simp only [Past.calls]
  omega

end GS

namespace GS.Props
open Spec TimeScale
variable {α κ W : Type _} [DecidableEq α] [DecidableEq κ]
variable {w : List (List α) → World α κ W} {args : RunArgs α κ W} {s0 s s1 t : Sys α κ W} {a b c : α}
variable {h : History α κ W} {n k i j m : Nat} {runs : List (List (List (List α)))}

/-- What a run has yielded when it has returned, if the reference scheduler stops. -/
theorem returned_of_reference (hD : DescribedNodes s0) (hu : Unused s0 args.id)
    (hc : CompleteRuns args.id s0 runs s) (hE : DescribedEnd args) (hq : s0.queue.flatten.Nodup)
    (hr : Scripted w args s false h t .returned) {N : Nat} {B : List (List (List α))}
    (hB : reference false (rule s0 (aroundOf s w args)) (stop args (aroundOf s w args)) s0.queue N
      ⟨runs, [], [], []⟩ = ⟨runs, B, [], []⟩)
    (hS : stop args (aroundOf s w args) ⟨runs, B, [], []⟩ = true) : passYields h = B := by
  have hl := hc.like hD
  have htell := C81_tells s w args (fun i j n hi hj => places_of_nodup hq i j n
    (by rw [← hl.queue]; exact hi) (by rw [← hl.queue]; exact hj))
  have key := (C81_returned hD hu hc hE htell hr).2 (N + passes h) (by omega)
  have more : ∀ m, reference false (rule s0 (aroundOf s w args)) (stop args (aroundOf s w args)) s0.queue
      (N + m) ⟨runs, [], [], []⟩ = ⟨runs, B, [], []⟩ := by
    intro m
    induction m with
    | zero => exact hB
    | succ m ih => rw [← Nat.add_assoc, reference_succ, ih, if_pos hS]
  rw [more] at key
  injection key with _ key
  exact key.symm

/-- There is such a run. -/
theorem run_of_reference (hH : Healthy s0) (hD : DescribedNodes s0) (hu : Unused s0 args.id)
    (hE : DescribedEnd args) (hq : s0.queue.flatten.Nodup) (hs : s0.start args = (s1, .ok false))
    (hC : SaneConds (settingOf s0 args.id fun w => w = s0.world) s0)
    (hesu : Sane (settingOf s0 args.id fun w => w = s0.world) s0.store args.esu)
    (hseq : Sane (settingOf s0 args.id fun w => w = s0.world) s0.store args.seq)
    {N : Nat} {B : List (List (List α))}
    (hB : reference false (rule s0 (aroundOf s0 (fun _ => s0.world) args))
      (stop args (aroundOf s0 (fun _ => s0.world) args)) s0.queue N ⟨[], [], [], []⟩ = ⟨[], B, [], []⟩)
    (hS : stop args (aroundOf s0 (fun _ => s0.world) args) ⟨[], B, [], []⟩ = true) :
    ∃ k h s, exec s0 args k = some (false, h, s, .returned) ∧ passYields h = B := by
  have htell := C81_tells s0 (fun _ => s0.world) args (fun i j n hi hj => places_of_nodup hq i j n hi hj)
  have more : ∀ m, reference false (rule s0 (aroundOf s0 (fun _ => s0.world) args))
      (stop args (aroundOf s0 (fun _ => s0.world) args)) s0.queue (N + m) ⟨[], [], [], []⟩ = ⟨[], B, [], []⟩ := by
    intro m
    induction m with
    | zero => exact hB
    | succ m ih => rw [← Nat.add_assoc, reference_succ, ih, if_pos hS]
  obtain ⟨k, h, s, pc, g1, g2⟩ := bounded_ends hs B.flatten.length (by
    intro j h s pc hj
    have hr : Reach (fun _ _ => False) args s0 false h s pc := steps_reach (.start hs) hj
    have := C81_prefix hD hu .nil hE htell (alone_scripted hr).1 (N := N + passes h) (by omega)
    rw [more] at this
    exact this.length_le)
  have hr : Reach (fun _ _ => False) args s0 false h s pc := steps_reach (.start hs) g1
  have hN : ∀ e, pc ≠ .raised e :=
    C90_never_raises (P := fun w => w = s0.world) hH rfl hC hesu hseq (fun h => by cases h)
      (steps_reach (.start hs) g1)
  have hpc : pc = .returned := by
    cases pc with
    | returned => rfl
    | raised e => exact absurd rfl (hN e)
    | _ => cases g2
  subst hpc
  exact ⟨k, h, s, by unfold exec; rw [hs]; simp only [g1],
    returned_of_reference hD hu .nil hE hq (alone_scripted hr).1 hB hS⟩

/-- C120, "alternate basic phasing": a run that ends after `m` executions of `b` has `m` passes;
`b` is executed in each, `a` before it in the first one and then in every `n`-th. -/
theorem C120_alternates (hn : 1 ≤ n) (hA : Alternates s0 a b n) (hu : Unused s0 args.id)
    (hc : CompleteRuns args.id s0 runs s) (ha : UntilCalls b m args)
    (hr : Scripted w args s false h t .returned) :
    passYields h = (List.range m).map (alternatePass a b n) := by
  have hq : s0.queue.flatten.Nodup := by rw [hA.queue]; simp [hA.apart]
  obtain ⟨h1, h2, _⟩ := reference_alternates (R := rule s0 (aroundOf s w args))
    (S := stop args (aroundOf s w args)) (runs := runs) hn hA.apart (hA.rule_a _) (hA.rule_b _)
    (ha.stop_eq _) m (Nat.le_refl m)
  rw [← hA.queue] at h1
  refine returned_of_reference hA.described hu hc ha.described hq hr h1 ?_
  rw [ha.stop_eq]
  simp [Past.inRun, h2]

/-- C120: such a run, left alone, raises nothing and returns. -/
theorem C120_alternates_run (hn : 1 ≤ n) (hA : Alternates s0 a b n) (hH : Healthy s0) (hu : Unused s0 args.id)
    (ho : ∀ x c, Dict.get? s0.conds x = some c → x ∈ s0.nodes)
    (ha : UntilCalls b m args) (hs : s0.start args = (s1, .ok false)) :
    ∃ k h s, exec s0 args k = some (false, h, s, .returned) ∧
      passYields h = (List.range m).map (alternatePass a b n) := by
  have hq : s0.queue.flatten.Nodup := by rw [hA.queue]; simp [hA.apart]
  have hb : b ∈ s0.nodes := (hA.nodes b).2 (.inr rfl)
  have ha' : a ∈ s0.nodes := (hA.nodes a).2 (.inl rfl)
  obtain ⟨h1, h2, _⟩ := reference_alternates (R := rule s0 (aroundOf s0 (fun _ => s0.world) args))
    (S := stop args (aroundOf s0 (fun _ => s0.world) args)) (runs := []) hn hA.apart (hA.rule_a _) (hA.rule_b _)
    (ha.stop_eq _) m (Nat.le_refl m)
  rw [← hA.queue] at h1
  have ha0 := ha
  obtain ⟨p, p', e1, e2⟩ := ha
  refine run_of_reference hH hA.described hu ha0.described hq hs ?_ (by rw [e1]; exact hb) (by rw [e2]; trivial)
    h1 (by rw [ha0.stop_eq]; simp [Past.inRun, h2])
  intro x c hx
  rcases (hA.nodes x).1 (ho x c hx) with rfl | rfl
  · obtain ⟨o, o1, o2, g1, g2⟩ := hA.first
    rw [hx] at g1; cases g1
    exact ⟨trivial, ⟨hb, g2.1, _, ha', g2.2⟩, trivial⟩
  · obtain ⟨o, o1, o2, g1, g2, g3⟩ := hA.second
    rw [hx] at g1; cases g1
    exact ⟨⟨ha', g2.1, _, hb, g2.2⟩, ⟨hb, g3.1, _, hb, g3.2⟩, trivial⟩

/-- C120, "basic phasing in two processes": in each pass `a` is executed, with every `k`-th
execution of `a` also `b`, in the same set, in whatever order the set is gone through; then
`c`, from the pass on in which `a` has executed `i` times or `b` has executed `j` times. A run
that ends after `m` executions of `c` has `min(i, j * k) - 1 + m` passes. -/
theorem C120_two_processes (hk : 1 ≤ k) (hi : 1 ≤ i) (hj : 1 ≤ j) (hm : 1 ≤ m)
    (hA : TwoProcesses s0 a b c k i j) (hu : Unused s0 args.id)
    (hc : CompleteRuns args.id s0 runs s) (ha : UntilCalls c m args)
    (hr : Scripted w args s false h t .returned) :
    passYields h = (List.range (min i (j * k) - 1 + m)).map (twoProcessPass a b c k i j) := by
  obtain ⟨hab, hac, hbc⟩ := hA.apart
  have hq : s0.queue.flatten.Nodup := by
    rcases hA.queue with h | h <;> rw [h] <;> simp [hab, hac, hbc, Ne.symm hab]
  obtain ⟨h1, _, _, h2, _⟩ := reference_twoProcesses (R := rule s0 (aroundOf s w args))
    (S := stop args (aroundOf s w args)) (runs := runs) hk hi hj hm hab hac hbc (hA.rule_a _) (hA.rule_b _)
    (hA.rule_c _) (ha.stop_eq _) hA.queue _ (Nat.le_refl _)
  refine returned_of_reference hA.described hu hc ha.described hq hr h1 ?_
  rw [ha.stop_eq]
  simp only [Past.inRun, List.append_nil, h2]
  simp

/-- C120: such a run, left alone, raises nothing and returns. -/
theorem C120_two_processes_run (hk : 1 ≤ k) (hi : 1 ≤ i) (hj : 1 ≤ j) (hm : 1 ≤ m)
    (hA : TwoProcesses s0 a b c k i j) (hH : Healthy s0) (hu : Unused s0 args.id)
    (ho : ∀ x c, Dict.get? s0.conds x = some c → x ∈ s0.nodes)
    (ha : UntilCalls c m args) (hs : s0.start args = (s1, .ok false)) :
    ∃ l h s, exec s0 args l = some (false, h, s, .returned) ∧
      passYields h = (List.range (min i (j * k) - 1 + m)).map (twoProcessPass a b c k i j) := by
  obtain ⟨hab, hac, hbc⟩ := hA.apart
  have hq : s0.queue.flatten.Nodup := by
    rcases hA.queue with h | h <;> rw [h] <;> simp [hab, hac, hbc, Ne.symm hab]
  have na : a ∈ s0.nodes := (hA.nodes a).2 (.inl rfl)
  have nb : b ∈ s0.nodes := (hA.nodes b).2 (.inr (.inl rfl))
  have nc : c ∈ s0.nodes := (hA.nodes c).2 (.inr (.inr rfl))
  obtain ⟨h1, _, _, h2, _⟩ := reference_twoProcesses (R := rule s0 (aroundOf s0 (fun _ => s0.world) args))
    (S := stop args (aroundOf s0 (fun _ => s0.world) args)) (runs := []) hk hi hj hm hab hac hbc (hA.rule_a _)
    (hA.rule_b _) (hA.rule_c _) (ha.stop_eq _) hA.queue _ (Nat.le_refl _)
  have ha0 := ha
  obtain ⟨p, p', e1, e2⟩ := ha
  refine run_of_reference hH hA.described hu ha0.described hq hs ?_ (by rw [e1]; exact nc) (by rw [e2]; trivial)
    h1 (by rw [ha0.stop_eq]; simp only [Past.inRun, List.append_nil, h2]; simp)
  intro x y hx
  rcases (hA.nodes x).1 (ho x y hx) with rfl | rfl | rfl
  · obtain ⟨o, g1⟩ := hA.first
    rw [hx] at g1; cases g1
    exact (by decide : (1 : Int) ≠ 0)
  · obtain ⟨o, g1, g2⟩ := hA.second
    rw [hx] at g1; cases g1
    exact ⟨na, g2.1, _, nb, g2.2⟩
  · obtain ⟨o, o1, o2, g1⟩ := hA.third
    rw [hx] at g1; cases g1
    exact ⟨na, nb, trivial⟩

/-! ## The examples themselves (scheduler.py:256-300) -/

def alternateConds (n : Nat) : List (Nat × Cond Nat Nat Unit) :=
  [(0, .any 0 [.leaf 1 (.atPass 0 environment_state_update), .leaf 2 (.everyNCalls 1 n)]),
   (1, .any 3 [.leaf 4 (.everyNCalls 0 1), .leaf 5 (.everyNCalls 1 1)])]

def alternate (n : Nat) : Sys Nat Nat Unit :=
  withConds ((Sys.new [(0, []), (1, [0])] .standard none 1 demoWorld).alloc 6) (alternateConds n)

def untilCalls (c : Nat) (m : Nat) : RunArgs Nat Nat Unit :=
  { id := none, esu := .leaf 90 (.afterNCalls c m environment_state_update), seq := .leaf 91 .never }

theorem alternate_alternates (n : Nat) : Alternates (alternate n) 0 1 n := by
  refine ⟨?_, by decide, ?_, ⟨0, 1, 2, rfl, ?_, rfl⟩, ⟨3, 4, 5, rfl, ⟨?_, rfl⟩, ?_, rfl⟩⟩
  · show (Sys.new [(0, []), (1, [0])] .standard (none : Option Nat) 1 demoWorld).queue = _
    decide +kernel
  · intro m
    have : (alternate n).nodes = [0, 1] := by
      show (Sys.new [(0, []), (1, [0])] .standard (none : Option Nat) 1 demoWorld).nodes = _
      decide +kernel
    rw [this]; simp
  all_goals
    show _ < 6
    decide

/-- `C120_alternates`, applied for every `n` and `m`. -/
example {n m k : Nat} (hn : 1 ≤ n) {h : History Nat Nat Unit} {s : Sys Nat Nat Unit}
    (hx : exec (alternate n) (untilCalls 1 m) k = some (false, h, s, .returned)) :
    passYields h = (List.range m).map (alternatePass 0 1 n) :=
  C120_alternates (args := untilCalls 1 m) hn (alternate_alternates n)
    ⟨rfl, rfl, (C81_new [(0, []), (1, [0])] .standard none 1 demoWorld).clock, fun x o c k h => by
      rcases withConds_get? (alternateConds n) _ x _ h with h | h
      · simp [alternateConds] at h
      · cases h⟩ .nil ⟨_, _, rfl, rfl⟩ (alone_scripted (exec_reach hx)).1

/-- The run of the documentation. -/
example : (exec (alternate 2) (untilCalls 1 4) 200).map (fun r => (r.1, yields r.2.1, r.2.2.2)) =
      some (false, [[0], [1], [1], [0], [1], [1]], .returned) ∧
    ((List.range 4).map (alternatePass 0 1 2)).flatten = [[0], [1], [1], [0], [1], [1]] := by decide +kernel

theorem alternate_unused (n : Nat) : Unused (alternate n) none :=
  ⟨rfl, rfl, (C81_new [(0, []), (1, [0])] .standard none 1 demoWorld).clock, fun x o c k h => by
    rcases withConds_get? (alternateConds n) _ x _ h with h | h
    · simp [alternateConds] at h
    · cases h⟩

/-- `C120_alternates_run`, applied for every `n` and `m`. -/
theorem alternate_run {n : Nat} (hn : 1 ≤ n) (m : Nat) :
    ∃ k h s, exec (alternate n) (untilCalls 1 m) k = some (false, h, s, .returned) ∧
      passYields h = (List.range m).map (alternatePass 0 1 n) := by
  have hH0 := C90_new (κ := Nat) (W := Unit) [(0, []), (1, [0])] (by decide) (by
    rcases toposort_spec [(0, []), (1, [0])] (by decide) with ⟨_, _, _, _, _, h⟩ | ⟨h, _⟩
    · exact h
    · exact absurd h (by decide)) .standard none 1 demoWorld
  have hA := alternate_alternates n
  have hw := withConds_like (alternateConds n) ((Sys.new [(0, []), (1, [0])] .standard none 1 demoWorld).alloc 6)
  have hH : Healthy (alternate n) := by
    unfold alternate; rw [hw]
    exact ⟨hH0.placed, hH0.known, hH0.senders, hH0.acyclic, hH0.synced, hH0.clock⟩
  have hget : ∀ x c, Dict.get? (alternate n).conds x = some c → (x, c) ∈ alternateConds n := by
    intro x c h
    rcases withConds_get? (alternateConds n) _ x c h with h | h
    · exact h
    · cases h
  obtain ⟨s1, ab, hs⟩ := C90_begins (a := untilCalls 1 m) hH (by rw [hA.queue]; simp) (.inl ⟨rfl, rfl, rfl⟩)
  have hab : ab = false := by
    refine start_relative hs (fun x hx => ?_) (fun c hc => ?_)
    · rcases (hA.nodes x).1 hx with rfl | rfl <;> rfl
    · rw [List.mem_append, List.mem_cons, List.mem_cons] at hc
      rcases hc with hc | rfl | rfl | hc
      · have : (alternate n).conds.map Prod.snd = (alternateConds n).map Prod.snd := rfl
        rw [this] at hc
        simp only [alternateConds, List.map_cons, List.map_nil, List.mem_cons, List.not_mem_nil, or_false] at hc
        rcases hc with rfl | rfl <;> rfl
      · rfl
      · rfl
      · cases hc
  subst hab
  refine C120_alternates_run hn hA hH (alternate_unused n) (fun x c h => ?_) ⟨_, _, rfl, rfl⟩ hs
  have := hget x c h
  simp only [alternateConds, List.mem_cons, List.not_mem_nil, or_false, Prod.mk.injEq] at this
  exact (hA.nodes x).2 (this.imp And.left And.left)

def twoProcessConds (k i j : Nat) : List (Nat × Cond Nat Nat Unit) :=
  [(0, .leaf 0 (.everyNPasses 1 environment_state_update)), (1, .leaf 1 (.everyNCalls 0 k)),
   (2, .any 2 [.leaf 3 (.afterNCalls 0 i environment_state_update),
     .leaf 4 (.afterNCalls 1 j environment_state_update)])]

def twoProcess (k i j : Nat) : Sys Nat Nat Unit :=
  withConds ((Sys.new [(0, []), (1, []), (2, [0, 1])] .standard none 1 demoWorld).alloc 5) (twoProcessConds k i j)

theorem twoProcess_twoProcesses (k i j : Nat) : TwoProcesses (twoProcess k i j) 0 1 2 k i j := by
  refine ⟨.inl ?_, by decide, ?_, ⟨0, rfl⟩, ⟨1, rfl, ?_, rfl⟩, ⟨2, 3, 4, rfl⟩⟩
  · show (Sys.new [(0, []), (1, []), (2, [0, 1])] .standard (none : Option Nat) 1 demoWorld).queue = _
    decide +kernel
  · intro m
    have : (twoProcess k i j).nodes = [0, 1, 2] := by
      show (Sys.new [(0, []), (1, []), (2, [0, 1])] .standard (none : Option Nat) 1 demoWorld).nodes = _
      decide +kernel
    rw [this]; simp
  · show _ < 5
    decide

/-- `C120_two_processes`, applied for all numbers. -/
example {k i j m l : Nat} (hk : 1 ≤ k) (hi : 1 ≤ i) (hj : 1 ≤ j) (hm : 1 ≤ m) {h : History Nat Nat Unit}
    {s : Sys Nat Nat Unit} (hx : exec (twoProcess k i j) (untilCalls 2 m) l = some (false, h, s, .returned)) :
    passYields h = (List.range (min i (j * k) - 1 + m)).map (twoProcessPass 0 1 2 k i j) :=
  C120_two_processes (args := untilCalls 2 m) hk hi hj hm (twoProcess_twoProcesses k i j)
    ⟨rfl, rfl, (C81_new [(0, []), (1, []), (2, [0, 1])] .standard none 1 demoWorld).clock, fun x o c l h => by
      rcases withConds_get? (twoProcessConds k i j) _ x _ h with h | h
      · simp [twoProcessConds] at h
      · cases h⟩ .nil ⟨_, _, rfl, rfl⟩ (alone_scripted (exec_reach hx)).1

/-- The run of the documentation. -/
example : (exec (twoProcess 2 3 3) (untilCalls 2 4) 400).map (fun r => (r.1, yields r.2.1, r.2.2.2)) =
      some (false, [[0], [0, 1], [0], [2], [0, 1], [2], [0], [2], [0, 1], [2]], .returned) ∧
    ((List.range (min 3 (3 * 2) - 1 + 4)).map (twoProcessPass 0 1 2 2 3 3)).flatten =
      [[0], [0, 1], [0], [2], [0, 1], [2], [0], [2], [0, 1], [2]] := by decide +kernel

end GS.Props
