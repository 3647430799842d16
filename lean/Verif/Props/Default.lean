import Verif.LifeDefault
import Verif.Props.Life
/-!
# C04 and C09
-/

set_option linter.unusedSectionVars false

namespace GS.Props
open Spec TimeScale
variable {α κ W β : Type _} [DecidableEq α] [DecidableEq κ]
variable {E U : Sys α κ W → Sys α κ W → Prop} {a : RunArgs α κ W} {s0 s s' : Sys α κ W}
variable {abs : Bool} {h : History α κ W} {pc : PC α}

/-! ## C04 -/

/-- C04: if the graph has a cycle through at least two nodes, the first `next()` raises
`SchedulerError`, changes nothing and yields nothing. -/
theorem C04_cycle_rejected (g : Graph α) (hg : Dict.WF g) (hc : HasCycle g)
    (hs : s.graph = baseGraph g) (a : RunArgs α κ W) :
    s.start a = (s, .error .schedulerError) ∧
    ∀ E abs h s' pc, ¬ Reach E a s abs h s' pc := by
  have ht : ∃ e, toposort (baseGraph g) = .error e := by
    rcases toposort_spec (baseGraph g) (baseGraph_wf g) with ⟨ls, h1, h2, h3, h4, h5⟩ | ⟨h1, _⟩
    · exact absurd ((baseGraph_same g hg).cycle.2 hc) h5
    · exact ⟨_, h1⟩
  obtain ⟨e, ht⟩ := ht
  have h1 : s.start a = (s, .error .schedulerError) := by
    unfold Sys.start Sys.validateRunState
    rw [hs, ht]
  refine ⟨h1, ?_⟩
  intro E abs h s' pc hr
  induction hr with
  | start hs' => rw [h1] at hs'; cases hs'
  | step _ _ ih => exact ih
  | env _ _ _ ih => exact ih

/-- C04: a run of a scheduler for a graph `g` is rejected with `SchedulerError` if and
only if `g` has a cycle through at least two nodes.  (`CanBegin`: the id is known, or the
context it is to be copied from is; see C29 for the other case.) -/
theorem C04_rejected_iff (g : Graph α) (hg : Dict.WF g) (hs : s.graph = baseGraph g)
    (hn : s.nodes = Dict.keys (baseGraph g)) (hy : Synced s) (hk : CanBegin a s) :
    (s.start a).2 = .error .schedulerError ↔ HasCycle g := by
  constructor
  · intro h
    apply Classical.byContradiction
    intro hc
    obtain ⟨ht, _⟩ := queue_ok g hg hc
    have hno := validateConditions_total s.nodes s (by
      intro n hm; rw [hs]; rw [hn] at hm; exact Dict.get?_isSome.2 hm)
    rcases hv : Sys.validateConditions s.nodes s with ⟨s1, r⟩
    rw [hv] at hno
    have hr : r = none := hno
    subst hr
    have hv' : s.validateRunState = (s1, none) := by
      unfold Sys.validateRunState; rw [hs, ht]; exact hv
    by_cases he : s1.absoluteConds a = []
    · obtain ⟨s', h'⟩ := Sys.start_runs hy hv' hk (.inl he)
      rw [h'] at h; cases h
    · cases hu : s1.absoluteUnit (s1.absoluteConds a) with
      | ok u =>
        obtain ⟨s', h'⟩ := Sys.start_runs hy hv' hk (.inr ⟨u, hu⟩)
        rw [h'] at h; cases h
      | error e =>
        have hze : e = .zeroDivisionError := by
          unfold Sys.absoluteUnit at hu
          dsimp only at hu
          generalize (s1.absoluteConds a).flatMap _ = is at hu
          repeat' split at hu
          all_goals first | exact (Except.error.inj hu).symm | cases hu
        have hab : (s1.getClock a.id).absoluteConds a = s1.absoluteConds a := by
          unfold Sys.getClock; split <;> rfl
        have hun : ∀ cs, (s1.getClock a.id).absoluteUnit cs = s1.absoluteUnit cs := by
          intro cs; unfold Sys.getClock; split <;> rfl
        unfold Sys.start at h
        rw [hv'] at h
        dsimp only at h
        unfold Sys.setupAbsolute at h
        dsimp only at h
        rw [hab, if_neg he, hun, hu] at h
        subst hze
        cases h
  · intro hc
    rw [(C04_cycle_rejected g hg hc hs a).1]

/-- C04 for the life of a scheduler: whatever runs there were, and whatever the user did
(other than changing the graph). -/
theorem C04_life {log gs} (g : Graph α) (hg : Dict.WF g) (mode : Mode) (id : Option κ)
    (unit : Rat) (w : World α κ W) (hl : Life U (Sys.new g mode id unit w) log s gs)
    (hU : ∀ s s', U s s' → s'.graph = s.graph ∧ s'.nodes = s.nodes ∧ (Synced s → Synced s'))
    (hk : CanBegin a s) : (s.start a).2 = .error .schedulerError ↔ HasCycle g := by
  have key : s.graph = baseGraph g ∧ s.nodes = Dict.keys (baseGraph g) ∧ Synced s := by
    clear hk
    induction hl with
    | init => exact ⟨rfl, rfl, Sys.new_synced g mode id unit w⟩
    | start _ hs ih =>
      have m := Mild.start hs
      exact ⟨m.graph.trans ih.1, m.nodes.trans ih.2.1, (Sys.start_synced ih.2.2 hs).1⟩
    | startFails _ hs ih =>
      have m := Mild.start hs
      exact ⟨m.graph.trans ih.1, m.nodes.trans ih.2.1, (Sys.start_synced ih.2.2 hs).1⟩
    | step _ _ hs ih =>
      have hr := Sys.step_stepR hs
      exact ⟨hr.frame.graph.trans ih.1, hr.frame.nodes.trans ih.2.1, hr.synced ih.2.2⟩
    | user _ hu ih =>
      obtain ⟨u1, u2, u3⟩ := hU _ _ hu
      exact ⟨u1.trans ih.1, u2.trans ih.2.1, u3 ih.2.2⟩
  exact C04_rejected_iff g hg key.1 key.2.1 key.2.2 hk

/-- Two nodes in a cycle, as a dependency dict. -/
def ring : Graph Nat := [(0, [1]), (1, [0])]

example : HasCycle ring ∧
    CanBegin demoArgs (Sys.new ring .standard none 1 demoWorld) ∧
    ((Sys.new ring .standard none 1 demoWorld).start demoArgs).2 = .error .schedulerError ∧
    (demo.start demoArgs).2 = .ok false ∧ CanBegin demoArgs demo ∧ Synced demo := by
  refine ⟨⟨0, .tail (.single ⟨⟨(1, [0]), by simp [ring], rfl, by simp⟩, by simp⟩)
    ⟨⟨(0, [1]), by simp [ring], rfl, by simp⟩, by simp⟩⟩, .inl ⟨?_, ?_, ?_⟩, ?_, demo_start,
    .inl ⟨?_, ?_, ?_⟩, ?_⟩
  all_goals first | decide | skip
  exact Sys.new_synced [(1, [0]), (2, [0])] .standard none 1 demoWorld

/-! ## C09 -/

/-- C09: a scheduler for an acyclic graph without self-edges, no conditions, the default
termination conditions.  Whatever runs were begun, completed or abandoned before (under
any ids and with any termination conditions), iterating `run()` to the end yields exactly
the consideration queue and then returns. -/
theorem C09_default_schedule {log gs} (g : Graph α) (hg : Dict.WF g) (hc : ¬ HasCycle g)
    (hs : ∀ n, ¬ Edge g n n) (id : Option κ) (unit : Rat) (w : World α κ W)
    (hl : Life ClockUse (Sys.new g .standard id unit w) log s gs)
    (ha : DefaultTermination a) (ho : ∀ c ∈ a.others, c.isAbsolute = false) (hk : CanBegin a s) :
    ∃ k h s', exec s a k = some (false, h, s', .returned) ∧ yields h = queueOf (baseGraph g) := by
  obtain ⟨h1, h2, h3, h4, h5, h6⟩ := hl.default (DefaultSched.new g hg hc hs id unit w)
    (fun i => ⟨[], by
      have : (Sys.new g .standard id unit w).clock i = Clock.new := by
        unfold View.clock
        simp only [Sys.new, Dict.get?]
        by_cases hi : id = i <;> simp [hi]
      rw [this]; exact .new⟩) (Sys.new_synced g .standard id unit w)
  obtain ⟨ht, _⟩ := queue_ok g hg hc
  obtain ⟨s1, hs1⟩ := h1.start h3 (by rw [h5]; exact ht) ha ho hk
  obtain ⟨lg, hlg⟩ := h2 a.id
  obtain ⟨k, h, s', e1, e2⟩ := whole_returns h1 ha hlg hs1
  exact ⟨k, h, s', e1, by rw [e2, h4]; rfl⟩

/-- C09 for `run()` under the scheduler's own execution id: it always begins. -/
theorem C09_default_id {log gs} (g : Graph α) (hg : Dict.WF g) (hc : ¬ HasCycle g)
    (hs : ∀ n, ¬ Edge g n n) (id : Option κ) (unit : Rat) (w : World α κ W)
    (hl : Life ClockUse (Sys.new g .standard id unit w) log s gs)
    (ha : DefaultTermination a) (ho : ∀ c ∈ a.others, c.isAbsolute = false) (hid : a.id = id) :
    ∃ k h s', exec s a k = some (false, h, s', .returned) ∧ yields h = queueOf (baseGraph g) := by
  have hU : Keeps (ClockUse (α := α) (κ := κ) (W := W)) fun s => Dict.get? s.countsTotal id := by
    rintro s s' (⟨j, rfl⟩ | ⟨j, hj⟩)
    · unfold Sys.getClock; split <;> rfl
    · obtain ⟨c, _, rfl⟩ := Sys.incrClock_ok hj; rfl
  have hU2 : ∀ s s' : Sys α κ W, ClockUse s s' → Synced s → Synced s' := by
    rintro s s' (⟨j, rfl⟩ | ⟨j, hj⟩) h
    · unfold Sys.getClock; split <;> exact h
    · obtain ⟨c, _, rfl⟩ := Sys.incrClock_ok hj; exact h
  obtain ⟨f, hf, _⟩ := hl.coarse hU (f0 := fun _ _ => 0) (by simp [Sys.new, Dict.get?])
  have hsy := hl.synced hU2 (Sys.new_synced g .standard id unit w)
  exact C09_default_schedule g hg hc hs id unit w hl ha ho
    (.inl (by rw [hid]; exact hsy.known (by rw [hf]; rfl)))

/-- C09 for a run that is interleaved with others: while it is suspended, `E` may change
anything that does not belong to its execution id. -/
theorem C09_interleaved {log gs} (g : Graph α) (hg : Dict.WF g) (hc : ¬ HasCycle g)
    (hs : ∀ n, ¬ Edge g n n) (id : Option κ) (unit : Rat) (w : World α κ W)
    (hl : Life ClockUse (Sys.new g .standard id unit w) log s gs)
    (ha : DefaultTermination a) (hE : ∀ s s', E s s' → Agree a.id s s')
    (hr : Reach E a s false h s' pc) :
    (∀ e, pc ≠ .raised e) ∧ (∃ k, yields h = (queueOf (baseGraph g)).take k) ∧
    (pc = .returned → yields h = queueOf (baseGraph g)) := by
  obtain ⟨h1, h2, h3, h4, h5, h6⟩ := hl.default (DefaultSched.new g hg hc hs id unit w)
    (fun i => ⟨[], by
      have : (Sys.new g .standard id unit w).clock i = Clock.new := by
        unfold View.clock
        simp only [Sys.new, Dict.get?]
        by_cases hi : id = i <;> simp [hi]
      rw [this]; exact .new⟩) (Sys.new_synced g .standard id unit w)
  obtain ⟨lg, hlg⟩ := h2 a.id
  have hw := hr.whole h1 ha hE hlg
  have hq : s.queue = queueOf (baseGraph g) := h4
  rw [hq] at hw
  refine ⟨by rintro e rfl; exact hw, ?_, by rintro rfl; exact hw⟩
  cases pc with
  | outer =>
    rcases hw with hw | hw
    · exact ⟨0, by simpa using hw⟩
    · exact ⟨(queueOf (baseGraph g)).length, by rw [List.take_length]; exact hw.1⟩
  | inner => exact ⟨_, hw.1⟩
  | choosing => exact ⟨_, hw.1⟩
  | yielded => exact ⟨_, hw.2.1⟩
  | yieldedEmpty => exact hw.elim
  | returned => exact ⟨(queueOf (baseGraph g)).length, by rw [List.take_length]; exact hw⟩
  | raised => exact hw.elim

/-- A graph with four nodes, without conditions. -/
def fan : Graph Nat := [(3, [1, 2]), (1, [0]), (2, [0])]

/-- The scheduler for `fan`. -/
def fanSched : Sys Nat Nat Unit := Sys.new fan .standard none 1 demoWorld

/-- An earlier run that was abandoned at its first set, and then one from the start. -/
example : ∃ log s gs, Life ClockUse fanSched log s gs ∧
    yields (under none log) = [[0]] ∧ DefaultTermination demoArgs ∧ demoArgs.id = none ∧
    ¬ HasCycle fan ∧ (∀ n, ¬ Edge fan n n) ∧ queueOf (baseGraph fan) = [[0], [1, 2], [3]] := by
  have h0 : (fanSched.start demoArgs).2 = .ok false := by decide +kernel
  refine ⟨_, _, _, life_of_run (run_reach h0 _ 6), by decide +kernel, ⟨10, 11, rfl, rfl⟩, rfl,
    ?_, ?_, by decide⟩
  · rcases toposort_spec fan (by decide) with ⟨_, _, _, _, _, h⟩ | ⟨h, _⟩
    · exact h
    · exact absurd h (by decide)
  · rintro n ⟨p, hp, rfl, hn⟩
    simp [fan] at hp
    rcases hp with rfl | rfl | rfl <;> simp at hn

/-- C09 does not extend to graphs with self-edges: with implicit conditions, a node that
is its own sender never executes, and a run with the default termination conditions never
returns. -/
theorem C09_self_edge_never (hr : Reach E a s0 abs h s pc)
    (hE : ∀ s s', E s s' → Agree a.id s s')
    {n : α} {deps : List α} (hn : n ∈ s0.nodes) (hc : Dict.get? s0.conds n = none)
    (hg : Dict.get? s0.graph n = some deps) (hd : ∀ d ∈ deps, d ∈ s0.nodes) (hself : n ∈ deps) :
    n ∉ selections h ∧ (DefaultTermination a → pc ≠ .returned) := by
  have key : n ∉ selections h := by
    refine hr.ind (P := fun h _ _ => n ∉ selections h) ?_ ?_ ?_
    · intro s _; simp [selections]
    · intro h s s' pc pc' ev hr ih hst
      obtain ⟨s1, hs1, hc1, ho1, hf1⟩ := hr.conds_start (fun s s' he => (hE s s' he).conds)
        (fun s s' he => (hE s s' he).store.owner)
        (fun s s' he => Nat.le_of_eq (hE s s' he).store.fresh.symm)
      obtain ⟨_, _, x3, _⟩ := (Sys.start_ok hs1).conds_spec
      obtain ⟨deps', c, e1, e2, e3⟩ := x3 n hn hc
      rw [hg] at e1; injection e1 with e1; subst e1
      obtain ⟨u, hu, ui⟩ := hr.useable (fun s s' he => (hE s s' he).view.useable)
      have hnodes : s.nodes = s0.nodes := hr.keepNodes (fun s s' he => (hE s s' he).view.nodes)
      have hev := (e3.grow ho1 hf1).eval (v := s.toView) (id := a.id) hu (by rw [hnodes]; exact hn)
        (fun d hdd => by rw [hnodes]; exact hd d hdd)
      have hu0 : u n n = 0 := by rw [ui.self, if_neg ih]
      cases ev with
      | none => simpa using ih
      | some x =>
        rw [ext_some, selections_snoc]
        cases hst with
        | @add c' m ns cond st f u' ht hm hcc he =>
          intro hx
          rcases List.mem_append.1 hx with hx | hx
          · exact ih hx
          · simp [Event.add?] at hx
            subst hx
            rw [hc1, e2] at hcc; injection hcc with hcc; subst hcc
            rw [hev] at he
            simp only [Prod.mk.injEq, Except.ok.injEq, decide_eq_true_eq] at he
            have := he.1 n hself
            omega
        | fails _ _ hx =>
          rcases hx with hx | ⟨_, hx, _⟩
          · cases hx
          · injection hx with hx; subst hx; simpa [Event.add?] using ih
        | _ => simpa [Event.add?] using ih
    · intros; assumption
  refine ⟨key, ?_⟩
  rintro ha rfl
  obtain ⟨set, h1, h2⟩ := C15_all_have_run ha hr (fun s s' he => (hE s s' he).view.total)
    (fun s s' he => (hE s s' he).view.nodes) n hn
  apply key
  obtain ⟨r, _, hsel⟩ := hr.pending
  rw [hsel]
  exact List.mem_append_left _ (List.mem_flatten.2 ⟨set, h1, h2⟩)

/-- A node with an edge to itself and a sender. -/
def loopSched : Sys Nat Nat Unit := Sys.new [(1, [0, 1])] .standard none 1 demoWorld

example : ∃ h s pc, Reach (fun _ _ => False) demoArgs loopSched false h s pc ∧
    yields h = [[0], [0]] ∧ Dict.get? loopSched.conds 1 = none ∧
    Dict.get? loopSched.graph 1 = some [0, 1] ∧ 1 ∈ loopSched.nodes :=
  ⟨_, _, _, run_reach (by decide) _ 25, by decide +kernel, by decide, by decide, by decide⟩

end GS.Props
