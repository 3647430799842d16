import Verif.GoesFirst
import Verif.Props.Patterns
import Verif.Props.AsIf
/-!
# C118: a node that goes first

Specification: `Verif/Spec/GoesFirst.lean`.
-/

set_option linter.unusedSectionVars false

namespace GS
open Spec Props
variable {α κ W : Type _} [DecidableEq α] [DecidableEq κ]
variable {a : RunArgs α κ W} {s s0 : Sys α κ W} {d : α}

theorem Spec.GoesFirst.described (hG : GoesFirst s d) (hq : ∀ n ∈ s.queue.flatten, n ∈ s.nodes) :
    DescribedNodes s := by
  intro n hn
  refine ⟨hq n hn, .inl ?_⟩
  by_cases hnd : n = d
  · subst hnd
    obtain ⟨o, ho⟩ := hG.always
    exact ⟨_, ho, .leaf (by simp [DescribedLeaf]) (by simp [UsesOwner])⟩
  · obtain ⟨o, h1, h2, h3⟩ := hG.every n (hq n hn) hnd
    exact ⟨_, h1, .leaf rfl (fun _ => ⟨h2, h3⟩)⟩

theorem Spec.GoesFirst.rule_first (hG : GoesFirst s d) (e : Around α κ W) (p : Past α) :
    rule s e d p = true := by
  obtain ⟨o, ho⟩ := hG.always
  unfold Spec.rule
  rw [ho]
  rfl

theorem Spec.GoesFirst.rule_other (hG : GoesFirst s d) (e : Around α κ W) {n : α} (hn : n ∈ s.nodes)
    (hnd : n ≠ d) (p : Past α) :
    rule s e n p = decide (d ∈ since n (p.inRun.flatten ++ p.next)) := by
  obtain ⟨o, h1, _⟩ := hG.every n hn hnd
  unfold Spec.rule
  rw [h1]
  simp only [Spec.holds, holdsLeaf]
  rw [decide_eq_decide, ← List.count_pos_iff]
  have e1 : p.callsSince n d = (since n (p.inRun.flatten ++ p.next)).count d := by
    have hdn : d ≠ n := fun e => hnd e.symm
    simp [Past.callsSince, hdn]
  rw [e1]
  omega

theorem defaultTermination_stop (ha : DefaultTermination a) (e : Around α κ W) (p : Past α) :
    stop a e p = true ↔ ∀ n ∈ e.nodes, n ∈ p.inRun.flatten ++ p.next := by
  obtain ⟨o, o', h1, h2⟩ := ha
  unfold Spec.stop
  rw [h1, h2]
  simp only [Spec.holds, holdsLeaf, Bool.or_false, if_true, decide_eq_true_eq, Past.calls]
  constructor
  · intro h n hn; exact List.count_pos_iff.1 (h n hn)
  · intro h n hn; exact List.count_pos_iff.2 (h n hn)

theorem defaultTermination_described (ha : DefaultTermination a) : DescribedEnd a := by
  obtain ⟨o, o', h1, h2⟩ := ha
  intro st
  rw [h1, h2]
  exact ⟨.leaf (by simp [DescribedLeaf, TimeScale.val]) (by simp [UsesOwner]),
    .leaf (by simp [DescribedLeaf]) (by simp [UsesOwner])⟩

theorem Spec.GoesFirst.sane (hG : GoesFirst s d) (hd : d ∈ s.nodes)
    (ho : ∀ n c, Dict.get? s.conds n = some c → n ∈ s.nodes) (id : Option κ) (P : World α κ W → Prop) :
    SaneConds (settingOf s id P) s := by
  intro n c hc
  by_cases hnd : n = d
  · subst hnd
    obtain ⟨o, h⟩ := hG.always
    rw [hc] at h; cases h
    trivial
  · obtain ⟨o, h1, h2, h3⟩ := hG.every n (ho n c hc) hnd
    rw [hc] at h1; cases h1
    exact ⟨hd, h2, n, ho n _ hc, h3⟩

end GS

namespace GS.Props
open Spec TimeScale
variable {α κ W : Type _} [DecidableEq α] [DecidableEq κ]
variable {w : List (List α) → World α κ W} {a : RunArgs α κ W} {s0 s s1 t : Sys α κ W} {d : α}
variable {h : History α κ W} {pc : PC α} {runs : List (List (List (List α)))} {abs : Bool}

/-- C118: if a node has `Always()` and every other node `EveryNCalls` of it, a run with the
default termination conditions yields the consideration sets in turn, each completely, but
beginning with the one of that node: the sets before it come last.  This is so whatever the
nodes do in the meantime and whatever runs were completed before. -/
theorem C118_default (hq : s0.queue.flatten.Nodup) (hqn : ∀ n, n ∈ s0.queue.flatten ↔ n ∈ s0.nodes)
    (hne : ∀ l ∈ s0.queue, l ≠ []) (hd : d ∈ s0.nodes) (hG : GoesFirst s0 d) (hu : Unused s0 a.id)
    (hc : CompleteRuns a.id s0 runs s) (ha : DefaultTermination a)
    (hr : Scripted w a s false h t .returned) :
    SameSets (yields h) (fromSet d s0.queue ++ beforeSet d s0.queue) := by
  have hD := hG.described fun n hn => (hqn n).1 hn
  have hl := hc.like hD
  have htell := C81_tells s w a (fun i j n hi hj => places_of_nodup hq i j n
    (by rw [← hl.queue]; exact hi) (by rw [← hl.queue]; exact hj))
  have hen : (aroundOf s w a).nodes = s0.nodes := htell.nodes.trans hl.nodes
  have key := (C81_returned hD hu hc (defaultTermination_described ha) htell hr).2 (2 + passes h) (by omega)
  obtain ⟨Q, L, Q', h1, h2, h3, h4, h5⟩ := split_at_set ((hqn d).2 hd)
  rw [h4, h5]
  obtain ⟨B, k1, k2, k3⟩ := reference_first_all (R := rule s0 (aroundOf s w a))
    (S := stop a (aroundOf s w a)) (runs := runs) (fun p => hG.rule_first _ p)
    (fun n hn hnd p => hG.rule_other _ ((hqn n).1 hn) hnd p) h1 h2 h3 hq hne (fun p hp => by
      rw [defaultTermination_stop ha, hen, hp, List.append_nil]
      exact ⟨fun h n hn => h n ((hqn n).1 hn), fun h n hn => h n ((hqn n).2 hn)⟩)
  have more : ∀ m, reference false (rule s0 (aroundOf s w a)) (stop a (aroundOf s w a)) s0.queue
      (2 + m) ⟨runs, [], [], []⟩ = ⟨runs, B, [], []⟩ := by
    intro m
    induction m with
    | zero => exact k1
    | succ m ih => rw [← Nat.add_assoc, reference_succ, ih, if_pos k3]
  rw [more] at key
  have hB : B = passYields h := by injection key
  rw [hB, hr.reach.passYields_flatten.1] at k2
  exact k2

/-- C118: a run of `N` passes: the first pass begins with the set of that node, all others
are complete. -/
theorem C118_passes (hq : s0.queue.flatten.Nodup) (hqn : ∀ n, n ∈ s0.queue.flatten ↔ n ∈ s0.nodes)
    (hne : ∀ l ∈ s0.queue, l ≠ []) (hd : d ∈ s0.nodes) (hG : GoesFirst s0 d) (hu : Unused s0 a.id)
    (hc : CompleteRuns a.id s0 runs s) {N : Nat} (ha : AfterPasses N a)
    (hr : Scripted w a s false h t .returned) :
    SamePasses (passYields h) ((fromSet d s0.queue :: List.replicate (N - 1) s0.queue).take N) := by
  have hD := hG.described fun n hn => (hqn n).1 hn
  have hl := hc.like hD
  have htell := C81_tells s w a (fun i j n hi hj => places_of_nodup hq i j n
    (by rw [← hl.queue]; exact hi) (by rw [← hl.queue]; exact hj))
  have key := (C81_returned hD hu hc ha.described htell hr).2 (N + passes h) (by omega)
  obtain ⟨Q, L, Q', h1, h2, h3, h4, h5⟩ := split_at_set ((hqn d).2 hd)
  rw [h4]
  obtain ⟨B, k1, k2, _⟩ := reference_first_passes (R := rule s0 (aroundOf s w a))
    (S := stop a (aroundOf s w a)) (runs := runs) (fun p => hG.rule_first _ p)
    (fun n hn hnd p => hG.rule_other _ ((hqn n).1 hn) hnd p) h1 h2 h3 hq hne
    (fun p => ha.stop _ p) N (Nat.le_refl _)
  have hlen : B.length = N := by rw [All2.length k2]; simp; omega
  have more : ∀ m, reference false (rule s0 (aroundOf s w a)) (stop a (aroundOf s w a)) s0.queue
      (N + m) ⟨runs, [], [], []⟩ = ⟨runs, B, [], []⟩ := by
    intro m
    induction m with
    | zero => exact k1
    | succ m ih =>
      rw [← Nat.add_assoc, reference_succ, ih, if_pos]
      rw [ha.stop]; simp [hlen]
  rw [more] at key
  have hB : B = passYields h := by injection key
  rw [← hB]
  exact k2

/-! ## Such a run returns -/

theorem goesFirst_relative (hG : GoesFirst s0 d) (ho : ∀ n c, Dict.get? s0.conds n = some c → n ∈ s0.nodes)
    (hwf : Dict.WF s0.conds) : ∀ c ∈ s0.conds.map Prod.snd, c.isAbsolute = false := by
  intro c hc
  obtain ⟨p, h1, rfl⟩ := List.mem_map.1 hc
  have hp := Dict.get?_of_mem hwf (k := p.1) (v := p.2) h1
  by_cases hnd : p.1 = d
  · obtain ⟨o, h⟩ := hG.always
    rw [hnd, h] at hp; injection hp with hp; rw [← hp]; rfl
  · obtain ⟨o, h, _⟩ := hG.every p.1 (ho _ _ hp) hnd
    rw [h] at hp; injection hp with hp; rw [← hp]; rfl

/-- C118: and there is such a run: left alone, it begins, raises nothing, returns, and has
yielded the consideration sets beginning with the one of `d`. -/
theorem C118_run (hH : Healthy s0) (hne : ∀ l ∈ s0.queue, l ≠ []) (hk : CanBegin a s0)
    (hq : s0.queue.flatten.Nodup) (hd : d ∈ s0.nodes) (hG : GoesFirst s0 d) (hu : Unused s0 a.id)
    (ha : DefaultTermination a) (hao : ∀ c ∈ a.others, c.isAbsolute = false)
    (ho : ∀ n c, Dict.get? s0.conds n = some c → n ∈ s0.nodes) (hwf : Dict.WF s0.conds) :
    ∃ k h s, exec s0 a k = some (false, h, s, .returned) ∧
      SameSets (yields h) (fromSet d s0.queue ++ beforeSet d s0.queue) := by
  have ha' := ha
  obtain ⟨o, o', e1, e2⟩ := ha
  have hqn := hH.placed
  have hq0 : s0.queue ≠ [] := by
    intro e; have := (hqn d).2 hd; rw [e] at this; cases this
  obtain ⟨s1, ab, hs⟩ := C90_begins hH hq0 hk
  have hab : ab = false := by
    refine start_relative hs (fun n hn => ?_) (fun c hc => ?_)
    · by_cases hnd : n = d
      · obtain ⟨o, h⟩ := hG.always; rw [hnd, h]; rfl
      · obtain ⟨o, h, _⟩ := hG.every n hn hnd; rw [h]; rfl
    · rw [List.mem_append, List.mem_cons, List.mem_cons] at hc
      rcases hc with hc | rfl | rfl | hc
      · exact goesFirst_relative hG ho hwf c hc
      · rw [e2]; rfl
      · rw [e1]; rfl
      · exact hao c hc
  subst hab
  have hD := hG.described fun n hn => (hqn n).1 hn
  have htell := C81_tells s0 (fun _ => s0.world) a (fun i j n hi hj => places_of_nodup hq i j n hi hj)
  obtain ⟨Q, L, Q', h1, h2, h3, h4, h5⟩ := split_at_set ((hqn d).2 hd)
  obtain ⟨B, k1, k2, k3⟩ := reference_first_all (R := rule s0 (aroundOf s0 (fun _ => s0.world) a))
    (S := stop a (aroundOf s0 (fun _ => s0.world) a)) (runs := []) (fun p => hG.rule_first _ p)
    (fun n hn hnd p => hG.rule_other _ ((hqn n).1 hn) hnd p) h1 h2 h3 hq hne (fun p hp => by
      rw [defaultTermination_stop ha', htell.nodes, hp, List.append_nil]
      exact ⟨fun h n hn => h n ((hqn n).1 hn), fun h n hn => h n ((hqn n).2 hn)⟩)
  have more : ∀ m, reference false (rule s0 (aroundOf s0 (fun _ => s0.world) a))
      (stop a (aroundOf s0 (fun _ => s0.world) a)) s0.queue (2 + m) ⟨[], [], [], []⟩ = ⟨[], B, [], []⟩ := by
    intro m
    induction m with
    | zero => exact k1
    | succ m ih => rw [← Nat.add_assoc, reference_succ, ih, if_pos k3]
  obtain ⟨k, h, s, pc, g1, g2⟩ := bounded_ends hs B.flatten.length (by
    intro j h s pc hj
    have hr : Reach (fun _ _ => False) a s0 false h s pc := steps_reach (.start hs) hj
    have := C81_prefix hD hu .nil (defaultTermination_described ha') htell (alone_scripted hr).1
      (N := 2 + passes h) (by omega)
    rw [more] at this
    exact this.length_le)
  have hr : Reach (fun _ _ => False) a s0 false h s pc := steps_reach (.start hs) g1
  have hS : ∀ e, pc ≠ .raised e := by
    refine C90_never_raises (P := fun w => w = s0.world) hH rfl (hG.sane hd ho _ _)
      (by rw [e1]; intro d hd; cases hd) (by rw [e2]; trivial) (fun h => by cases h)
      (steps_reach (.start hs) g1)
  have hpc : pc = .returned := by
    cases pc with
    | returned => rfl
    | raised e => exact absurd rfl (hS e)
    | _ => cases g2
  subst hpc
  refine ⟨k, h, s, by unfold exec; rw [hs]; simp only [g1], ?_⟩
  exact C118_default hq hqn hne hd hG hu .nil ha' (alone_scripted hr).1

/-- C118, for every graph: take an acyclic graph and a node `d` of it, and give the nodes of a
new scheduler these conditions. A run with the default termination conditions returns, having
yielded the consideration sets beginning with the one of `d`. -/
theorem C118_graph (g : Graph α) (hg : Dict.WF g) (hc : ¬ HasCycle g) (hd : IsNode g d)
    (unit : Rat) (wd : World α κ W) (ha : DefaultTermination a) (hao : a.others = [])
    (l : List (α × Cond α κ W)) (hl : ∀ p ∈ l, IsNode g p.1) (k : Nat)
    (hG : GoesFirst (withConds ((Sys.new g .standard a.id unit wd).alloc k) l) d) :
    ∃ j h s, exec (withConds ((Sys.new g .standard a.id unit wd).alloc k) l) a j =
        some (false, h, s, .returned) ∧
      SameSets (yields h) (fromSet d (queueOf (baseGraph g)) ++ beforeSet d (queueOf (baseGraph g))) := by
  have hH0 := C90_new g hg hc .standard a.id unit wd
  have hU0 := C81_new g .standard a.id unit wd
  have hs := withConds_like l ((Sys.new g .standard a.id unit wd).alloc k)
  have hget := withConds_get? l ((Sys.new g .standard a.id unit wd).alloc k)
  have hwf := withConds_wf l ((Sys.new g .standard a.id unit wd).alloc k) (by simp [Sys.new, Sys.alloc, Dict.WF])
  generalize withConds ((Sys.new g .standard a.id unit wd).alloc k) l = s0 at hs hget hwf hG
  have hkey : ∀ m, m ∈ (Sys.new g .standard a.id unit wd).nodes ↔ IsNode g m := baseGraph_keys g hg
  have hget' : ∀ n c, Dict.get? s0.conds n = some c → IsNode g n := fun n c h =>
    (hget n c h).elim (hl _) fun h => by cases h
  have hno : ∀ n o c k, Dict.get? s0.conds n ≠ some (.nwhen o c k) := by
    intro n o c k h
    by_cases hnd : n = d
    · obtain ⟨o', h'⟩ := hG.always
      rw [hnd, h'] at h; cases h
    · obtain ⟨o', h', _⟩ := hG.every n (by rw [hs]; exact (hkey n).2 (hget' n _ h)) hnd
      rw [h'] at h; cases h
  obtain ⟨p1, p2, p3⟩ := C01_partition g hg hc
  have hq : s0.queue = queueOf (baseGraph g) := by rw [hs]; rfl
  have hn : s0.nodes = (Sys.new g .standard a.id unit wd).nodes := by rw [hs]; rfl
  rw [← hq]
  refine C118_run ?_ (by rw [hq]; exact p1) ?_ (by rw [hq]; exact p2) (by rw [hn]; exact (hkey d).2 hd) hG ?_ ha
    (by simp [hao]) (fun n c h => by rw [hn]; exact (hkey n).2 (hget' n c h)) hwf
  · rw [hs]; exact ⟨hH0.placed, hH0.known, hH0.senders, hH0.acyclic, hH0.synced, hH0.clock⟩
  · rw [hs]; refine .inl ⟨?_, ?_, ?_⟩ <;> simp [Sys.new, Sys.alloc, Dict.get?]
  · refine ⟨by rw [hs]; exact hU0.calls, by rw [hs]; exact hU0.sets, by rw [hs]; exact hU0.clock,
      fun n o c k h => absurd h (hno n o c k)⟩

/-! ## The example of the documentation (condition.py:100-119) -/

/-- `EveryNCalls(D, 1)` for A, B and C, and `Always()` for D. -/
def feedbackConds : List (Nat × Cond Nat Nat Unit) :=
  [(0, .leaf 0 (.everyNCalls 3 1)), (1, .leaf 1 (.everyNCalls 3 1)), (2, .leaf 2 (.everyNCalls 3 1)),
   (3, .leaf 3 .always)]

def feedbackFirst : Sys Nat Nat Unit :=
  withConds ((Sys.new feedbackGraph .standard none 1 demoWorld).alloc 4) feedbackConds

def untilAllHave : RunArgs Nat Nat Unit :=
  { id := none, esu := .leaf 90 (.allHaveRun [] environment_state_update), seq := .leaf 91 .never }

theorem feedback_goesFirst : GoesFirst feedbackFirst 3 := by
  refine ⟨⟨3, rfl⟩, fun n hn hne => ?_⟩
  have e : feedbackFirst.nodes = [0, 1, 2, 3] := by decide +kernel
  rw [e] at hn
  simp only [List.mem_cons, List.not_mem_nil, or_false] at hn
  rcases hn with rfl | rfl | rfl | rfl
  · exact ⟨0, rfl, by decide, rfl⟩
  · exact ⟨1, rfl, by decide, rfl⟩
  · exact ⟨2, rfl, by decide, rfl⟩
  · exact absurd rfl hne

/-- `C118_graph`, applied: the run yields `[{D}, {A, C}, {B}]`. -/
theorem feedback_pattern : ∃ k h s, exec feedbackFirst untilAllHave k = some (false, h, s, .returned) ∧
    SameSets (yields h) [[3], [0, 2], [1]] := by
  have := C118_graph (a := untilAllHave) (d := 3) feedbackGraph (by decide) (by
    rcases toposort_spec feedbackGraph (by decide) with ⟨_, _, _, _, _, h⟩ | ⟨h, _⟩
    · exact h
    · exact absurd h (by decide)) (.inl ⟨(3, [1, 2]), by decide, rfl⟩) 1 demoWorld ⟨_, _, rfl, rfl⟩ rfl
    feedbackConds (by
      intro p hp
      simp only [feedbackConds, List.mem_cons, List.not_mem_nil, or_false] at hp
      rcases hp with rfl | rfl | rfl | rfl
      · exact .inl ⟨(0, []), by decide, rfl⟩
      · exact .inl ⟨(1, [0]), by decide, rfl⟩
      · exact .inl ⟨(2, []), by decide, rfl⟩
      · exact .inl ⟨(3, [1, 2]), by decide, rfl⟩) 4 feedback_goesFirst
  have e : fromSet 3 (queueOf (baseGraph feedbackGraph)) ++ beforeSet 3 (queueOf (baseGraph feedbackGraph)) =
      [[3], [0, 2], [1]] := by decide +kernel
  rw [e] at this
  exact this

def feedbackThree : RunArgs Nat Nat Unit :=
  { id := none, esu := .leaf 90 (.afterNPasses 3 environment_state_update), seq := .leaf 91 .never }

/-- `C118_passes`, applied. -/
example {k : Nat} {h : History Nat Nat Unit} {s : Sys Nat Nat Unit}
    (hx : exec feedbackFirst feedbackThree k = some (false, h, s, .returned)) :
    SamePasses (passYields h) [[[3]], [[0, 2], [1], [3]], [[0, 2], [1], [3]]] := by
  have e : feedbackFirst.queue = [[0, 2], [1], [3]] := by decide +kernel
  have en : feedbackFirst.nodes = [0, 1, 2, 3] := by decide +kernel
  have := C118_passes (a := feedbackThree) (d := 3) (N := 3) (by rw [e]; decide)
    (fun n => by rw [e, en]; simp only [List.flatten_cons, List.flatten_nil, List.append_nil, List.mem_append,
                   List.mem_cons, List.not_mem_nil, or_false]; grind)
    (by rw [e]; decide) (by rw [en]; decide) feedback_goesFirst
    ⟨rfl, rfl, (C81_new feedbackGraph .standard none 1 demoWorld).clock, fun n o c k h => by
      rcases withConds_get? feedbackConds ((Sys.new feedbackGraph .standard none 1 demoWorld).alloc 4) n _ h with h | h
      · simp [feedbackConds] at h
      · cases h⟩ .nil ⟨rfl, rfl⟩
    (alone_scripted (exec_reach hx)).1
  rw [e] at this
  exact this

/-- The run itself, and one of three passes. -/
example : (exec feedbackFirst untilAllHave 200).map (fun r => (yields r.2.1, r.2.2.2)) =
      some ([[3], [0, 2], [1]], .returned) ∧
    (exec feedbackFirst feedbackThree 200).map (fun r => (passYields r.2.1, r.2.2.2)) =
      some ([[[3]], [[0, 2], [1], [3]], [[0, 2], [1], [3]]], .returned) := by decide +kernel

end GS.Props
