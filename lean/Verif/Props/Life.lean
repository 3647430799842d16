import Verif.Life
import Verif.Props.RunCounts
/-!
# Properties of several runs: C11, C17, C27–C30
-/

set_option linter.unusedSectionVars false

namespace GS.Props
open Spec
variable {α κ W : Type _} [DecidableEq α] [DecidableEq κ]
variable {U E : Sys α κ W → Sys α κ W → Prop} {s0 s t : Sys α κ W} {gs : List (Gen α κ W)}
variable {log : List (Option κ × Entry α κ W)} {i : Option κ}
variable {a : RunArgs α κ W} {abs : Bool} {h : History α κ W} {pc : PC α}

/-- A single undisturbed run is a life. -/
theorem life_of_run (hr : Reach (fun _ _ => False) a s0 abs h s pc) :
    Life U s0 (h.map fun e => (a.id, e)) s [⟨a, abs, pc⟩] := by
  induction hr with
  | start hs => exact Life.start Life.init hs
  | @step abs h s s' pc pc' ev hr hs ih =>
    have := Life.step (k := 0) ih rfl hs
    rw [List.map_append]
    cases ev <;> exact this
  | env _ _ he => exact he.elim

/-! ## C11 over several runs -/

/-- C11 (LIFE), over any number of runs: the life-time counter of a node under an
execution id is what it was plus the number of selections of the node under this id, in
all runs since, in whatever way they were interleaved or abandoned. (The counter for
`ENVIRONMENT_SEQUENCE` always has the same value: the code never resets it.) -/
theorem C11_life_count (hl : Life U s0 log s gs) (hU : Keeps U fun s => Dict.get? s.countsTotal i)
    {f0} (hf0 : Dict.get? s0.countsTotal i = some f0) :
    ∃ f, Dict.get? s.countsTotal i = some f ∧ ∀ n,
      f .life n = f0 .life n + (selections (under i log)).count n ∧
      f .environment_sequence n = f0 .environment_sequence n + (selections (under i log)).count n := by
  obtain ⟨f, h1, h2⟩ := hl.coarse hU hf0
  exact ⟨f, h1, fun n => ⟨h2 .life n (by decide), h2 .environment_sequence n (by decide)⟩⟩

/-- C11 (LIFE) from the construction of the scheduler on, for the default execution id. -/
theorem C11_life_count_new {g : Graph α} {mode : Mode} {unit : Rat} {w : World α κ W}
    (hl : Life U (Sys.new g mode i unit w) log s gs)
    (hU : Keeps U fun s => Dict.get? s.countsTotal i) :
    ∃ f, Dict.get? s.countsTotal i = some f ∧ ∀ n,
      f .life n = (selections (under i log)).count n := by
  obtain ⟨f, h1, h2⟩ := C11_life_count hl hU (f0 := fun _ _ => 0) (by simp [Sys.new, Dict.get?])
  exact ⟨f, h1, fun n => by rw [(h2 n).1]; omega⟩

/-- Two complete runs of the demo scheduler, one after the other. -/
example : ∃ log s gs, Life (fun _ _ => False) demo log s gs ∧
    yields (under none log) = [[0], [1], [0], [1, 2]] ∧
    (selections (under none log)).count 0 = 2 :=
  ⟨_, _, _, life_of_run (demo_reach _ 40), by decide +kernel⟩

/-! ## C17 over several runs -/

/-- C17: after any history of runs under any ids, complete, abandoned or interleaved,
`execution_list[id]` is what it was followed by all sets yielded under the id, in order.
The id has an entry in `execution_timestamps` (as the default execution id has), or none
of its runs is in absolute-time mode (otherwise the run raises `KeyError`, see
`C17_unyielded_entry`). -/
theorem C17_history (hl : Life U s0 log s gs) (hU : Keeps U fun s => Dict.get? s.execList i)
    (hT : Keeps U fun s => (Dict.get? s.timestamps i).isSome) {l0}
    (hl0 : Dict.get? s0.execList i = some l0)
    (ht : (Dict.get? s0.timestamps i).isSome ∨ ∀ g ∈ gs, g.args.id = i → g.abs = false) :
    Dict.get? s.execList i = some (l0 ++ yields (under i log)) :=
  (hl.list hU hT hl0 ht).1

/-- C17 from the construction on, for the default execution id: `execution_list` is
exactly the list of yielded sets. -/
theorem C17_history_new {g : Graph α} {mode : Mode} {unit : Rat} {w : World α κ W}
    (hl : Life U (Sys.new g mode i unit w) log s gs)
    (hU : Keeps U fun s => Dict.get? s.execList i)
    (hT : Keeps U fun s => (Dict.get? s.timestamps i).isSome) :
    Dict.get? s.execList i = some (yields (under i log)) := by
  have := C17_history hl hU hT (l0 := []) (by simp [Sys.new, Dict.get?])
    (.inl (by simp [Sys.new, Dict.get?]))
  simpa using this

/-- A scheduler with one node `0` whose condition is `TimeInterval(repeat=2)`. -/
def absSched : Sys Nat Nat Unit :=
  ((Sys.new [(0, [])] .standard none 1 demoWorld).alloc 1).addBasic 0
    (.leaf 0 (.timeInterval (some ⟨2, 0⟩) none none true true))

/-- A run of it under the new id 7 (with base `None`, the default). -/
def absArgs : RunArgs Nat Nat Unit :=
  { id := some 7, esu := .leaf 10 (.allHaveRun [] .environment_state_update)
    seq := .leaf 11 .never }

/-- The restriction in C17 is needed: for a new execution id in absolute-time mode the
first set is appended to the list, then the run raises `KeyError` before yielding it. -/
theorem C17_unyielded_entry : ∃ abs h s, exec absSched absArgs 10 = some (abs, h, s, .raised .keyError) ∧
    yields h = [] ∧ Dict.get? s.execList (some 7) = some [[0]] := by
  refine ⟨true, ((exec absSched absArgs 10).map fun r => r.2.1).getD [],
    ((exec absSched absArgs 10).map fun r => r.2.2.1).getD absSched, ?_, ?_, ?_⟩
  · have hb : (exec absSched absArgs 10).map (fun r => (r.1, r.2.2.2)) =
        some (true, .raised .keyError) := by decide +kernel
    obtain ⟨⟨x, y, z, w⟩, hr⟩ : ∃ r, exec absSched absArgs 10 = some r := by
      cases hx : exec absSched absArgs 10 with
      | none => rw [hx] at hb; cases hb
      | some r => exact ⟨r, rfl⟩
    rw [hr] at hb ⊢
    simp only [Option.map_some, Option.some.injEq, Prod.mk.injEq] at hb
    simp [hb.1, hb.2]
  · decide +kernel
  · decide +kernel

/-! ## C27 -/

/-- C27, stored data: no sequence of operations under other ids changes any count, clock,
timestamp or history stored under `i` (nor the graph, the queue or the world). -/
theorem C27_stored (ho : Others i s t) : SameFor i s.toView t.toView := by
  have hv : ∀ s : Sys α κ W, s.validateRunState.1.toView = s.toView := by
    intro s
    unfold Sys.validateRunState
    split
    · rfl
    · exact Sys.validateConditions_view _ _
  have := (Sys.others_ready ho).sys.view
  rwa [hv, hv] at this

/-- C27: take a run under the id `a.id`, with any operations under other ids before it
starts and whenever it is suspended. It does exactly what the run started in the
original state and left alone does: the same sequence of events, hence the same yielded
sets, with the same counts, clock and history stored under its id, and it is at the same
place.  Condition functions supplied by the user may read everything except what is
stored under other ids. The id has been used before (`Known`), or the context is created
from scratch (`base_execution_id=NotImplemented`); otherwise it copies another context by
design (C29). -/
theorem C27_undisturbed {s00 : Sys α κ W} (ho : Others a.id s00 s0)
    (hr : Reach (Others a.id) a s0 abs h s pc)
    (hk : a.base = none ∨ Known a.id s00)
    (he : LocalCond a.id a.esu) (hq : LocalCond a.id a.seq)
    (hc : ∀ n c, Dict.get? s00.conds n = some c → LocalCond a.id c) :
    ∃ h2 s2, Reach (fun _ _ => False) a s00 abs h2 s2 pc ∧
      h2.map (·.ev) = h.map (·.ev) ∧ yields h2 = yields h ∧ SameFor a.id s2.toView s.toView := by
  obtain ⟨h2, s2, h3, h4, h5, _⟩ := hr.undisturbed ho hk he hq hc
  refine ⟨h2, s2, h3, h4, ?_, h5.view⟩
  have : ∀ h : History α κ W, yields h = (h.map (·.ev)).filterMap Event.yield? := by
    intro h; simp only [yields, List.filterMap_map]; rfl
  rw [this, this, h4]

/-- The interleaving exists: another run under the id 7 takes some steps between two
steps of a run under the default id. -/
example : ∃ t, Others (none : Option Nat) demo t ∧
    Dict.get? t.countsTotal (some 7) ≠ none ∧ Known none demo ∧
    ∀ n c, Dict.get? demo.conds n = some c → LocalCond none c := by
  obtain ⟨s1, h1⟩ : ∃ s1, demo.start { demoArgs with id := some 7 } = (s1, .ok false) :=
    ⟨_, Prod.ext rfl (by decide)⟩
  refine ⟨s1, Others.start _ _ .refl (by decide) h1, ?_, ⟨by decide, by decide, by decide⟩, ?_⟩
  · obtain ⟨f, hf, _⟩ := (Sys.start_ok h1).total
    have hf : Dict.get? s1.countsTotal (some 7) = some f := hf
    rw [hf]; simp
  · intro n c hc
    have : demo.conds = [(2, .leaf 0 (.everyNCalls 0 2))] := rfl
    rw [this] at hc
    simp only [Dict.get?] at hc
    split at hc
    · cases hc; trivial
    · cases hc

/-! ## C28 -/

/-- Part of C28: with `base_execution_id=NotImplemented` a new context starts empty: its
run does the same as a run on any scheduler `t` (for instance a newly built one) with the
same graph, queue, conditions and world that has nothing stored under the id.
(`Agree` says that; the evaluations counted by `NWhen` under this id must agree too.)
Missing: the statement for `run(execution_id=i)` with the default `base_execution_id`,
which is false (`C28_copies_default_context`, `C28_yields_differ`,
`C28_default_id_not_none`). -/
theorem C28_new_context_partial (hst : Agree a.id t s0) (hb : a.base = none)
    (hn : Dict.get? s0.countsTotal a.id = none) (hnl : Dict.get? s0.execList a.id = none)
    (hr : Reach (fun _ _ => False) a s0 abs h s pc)
    (he : LocalCond a.id a.esu) (hq : LocalCond a.id a.seq)
    (hc : ∀ n c, Dict.get? t.conds n = some c → LocalCond a.id c)
    (hts : abs = false) (hpc : ∀ e, pc ≠ .raised e) :
    (∃ h2 s2, Reach (fun _ _ => False) a t abs h2 s2 pc ∧ yields h2 = yields h) ∧
    Dict.get? s.execList a.id = some (yields h) := by
  have hy : ∀ h : History α κ W, yields h = (h.map (·.ev)).filterMap Event.yield? := by
    intro h; simp only [yields, List.filterMap_map]; rfl
  constructor
  · have key : ∃ h2 s2, Reach (fun _ _ => False) a t abs h2 s2 pc ∧
        h2.map (·.ev) = h.map (·.ev) ∧ Agree a.id s2 s ∧
        ∀ n c, Dict.get? s2.conds n = some c → LocalCond a.id c := by
      clear hpc hts
      induction hr with
      | @start s1 abs hs =>
        have h1 := Sys.start_same (Sys.validateRunState_same hst) (.inl hb)
        rcases h2 : t.start a with ⟨s2, r⟩
        rw [hs, h2] at h1
        obtain ⟨g1, g2⟩ := h1
        simp only at g1 g2
        subst g2
        exact ⟨[], s2, Reach.start h2, rfl, g1, Sys.start_local h2 hc⟩
      | @step abs h s s' pc pc' ev hr hs ih =>
        obtain ⟨h2, s2, h3, h4, h5, h6⟩ := ih
        rcases hs2 : s2.step a abs pc with ⟨s2', pc2, ev2⟩
        have h7 := Sys.step_same h5 abs pc he hq h6
        rw [hs, hs2] at h7
        obtain ⟨g1, g2⟩ := h7
        simp only [Prod.mk.injEq] at g1 g2
        obtain ⟨g2, g3⟩ := g2
        subst g2 g3
        refine ⟨_, s2', Reach.step h3 hs2, ?_, g1, ?_⟩
        · rw [List.map_append, List.map_append, h4]
          cases ev <;> simp
        · intro n c hn
          exact h6 n c (by rw [← (Sys.step_stepR hs2).frame.conds]; exact hn)
      | env hr hp hee ih => exact hee.elim
    obtain ⟨h2, s2, h3, h4, _⟩ := key
    exact ⟨h2, s2, h3, by rw [hy, hy, h4]⟩
  · obtain ⟨s1, hs1⟩ : ∃ s1, s0.start a = (s1, .ok abs) := by
      refine hr.ind (P := fun _ _ _ => ∃ s1, s0.start a = (s1, .ok abs)) ?_ ?_ ?_
      · intro s hs; exact ⟨s, hs⟩
      · intros; assumption
      · intros; assumption
    obtain ⟨l, hl, _, _, hx⟩ := (Sys.start_ok hs1).list
    have := hx hnl hb
    subst this
    simpa using hr.execs (fun _ _ h => h.elim) hpc hs1 hl

example : Agree (some 7 : Option Nat) demo demo ∧ Dict.get? demo.countsTotal (some 7) = none ∧
    Dict.get? demo.execList (some 7) = none := ⟨.refl _ _, rfl, rfl⟩

/-- The state after the demo run. -/
def demoDone : Sys Nat Nat Unit := (demoAfter 40).2.1

theorem demoDone_life : ∃ log gs, Life (fun _ _ => False) demo log demoDone gs :=
  ⟨_, _, life_of_run (demo_reach _ 40)⟩

/-- C28 is false: with the default `base_execution_id=None` the first run under a new id
starts with the execution history (and the life-time counts) of the context `None`. -/
theorem C28_copies_default_context : Dict.get? demoDone.countsTotal (some 7) = none ∧
    (demoDone.start { demoArgs with id := some 7 }).2 = .ok false ∧
    Dict.get? (demoDone.start { demoArgs with id := some 7 }).1.execList (some 7) =
      some [[0], [1], [0], [1, 2]] ∧
    (Dict.get? (demoDone.start { demoArgs with id := some 7 }).1.countsTotal (some 7)).map
      (fun f => f .life 0) = some 2 := by
  decide +kernel

/-- One node with the condition `BeforeNCalls(0, 1, time_scale=TimeScale.LIFE)`. -/
def onceSched : Sys Nat Nat Unit :=
  ((Sys.new [(0, [])] .standard none 1 demoWorld).alloc 1).addBasic 0
    (.leaf 0 (.beforeNCalls 0 1 .life))

def onceArgs : RunArgs Nat Nat Unit :=
  { id := none, esu := .leaf 10 (.allHaveRun [] .environment_state_update), seq := .leaf 11 .never }

/-- The state after one complete run under `None`. -/
def onceDone : Sys Nat Nat Unit := ((exec onceSched onceArgs 12).map fun r => r.2.2.1).getD onceSched

/-- The sets yielded in the first `k` steps of a run. -/
def yieldsOf (s : Sys Nat Nat Unit) (a : RunArgs Nat Nat Unit) (k : Nat) : List (List Nat) :=
  ((exec s a k).map fun r => yields r.2.1).getD []

/-- C28 is false also for what is yielded: on the new scheduler the first run under the
id 7 yields `{0}`; after a complete run under `None` it yields an empty set instead. -/
theorem C28_yields_differ :
    (exec onceSched onceArgs 12).map (fun r => r.2.2.2) = some .returned ∧
    yieldsOf onceSched { onceArgs with id := some 7 } 12 = [[0]] ∧
    Dict.get? onceDone.countsTotal (some 7) = none ∧
    (yieldsOf onceDone { onceArgs with id := some 7 } 12).head? = some [] := by
  decide +kernel

/-- C28 is false also in this way: if the scheduler was built with another
`default_execution_id`, a run under a new id (in particular plain `run()`) raises
`SchedulerError`. -/
theorem C28_default_id_not_none :
    ((Sys.new (κ := Nat) [(1, [0])] .standard (some 3) 1 demoWorld).start demoArgs).2 =
      .error .schedulerError ∧
    ((Sys.new (κ := Nat) [(1, [0])] .standard (some 3) 1 demoWorld).start
      { demoArgs with id := some 7 }).2 = .error .schedulerError := by
  decide +kernel

/-! ## C29 -/

/-- C29, the fork: the first run under a new id with base `b` starts with a copy of `b`'s
execution history and of its counts; of these, the ones for the run and finer units are
then zeroed, as for every run. -/
theorem C29_fork {s' : Sys α κ W} {b : Option κ} {f0 l0} (hs : s.start a = (s', .ok abs))
    (hb : a.base = some b)
    (hn : Dict.get? s.countsTotal a.id = none) (hnl : Dict.get? s.execList a.id = none)
    (hf : Dict.get? s.countsTotal b = some f0) (hl : Dict.get? s.execList b = some l0) :
    Dict.get? s'.execList a.id = some l0 ∧
    ∃ f, Dict.get? s'.countsTotal a.id = some f ∧ ∀ n,
      f .life n = f0 .life n ∧ f .environment_sequence n = f0 .environment_sequence n ∧
      f .environment_state_update n = 0 ∧ f .pass n = 0 ∧ f .consideration_set_execution n = 0 := by
  have h := Sys.start_ok hs
  obtain ⟨l, h1, _, h2, _⟩ := h.list
  obtain ⟨f, h3, h4, _, h5, _⟩ := h.total
  refine ⟨by rw [h1, h2 b l0 hnl hb hl], f, h3, fun n => ?_⟩
  exact ⟨h5 b f0 hn hb hf .life n (by decide), h5 b f0 hn hb hf .environment_sequence n (by decide),
    h4 _ n (by decide), h4 _ n (by decide), h4 _ n (by decide)⟩

/-- C29, independence: later activity under all other ids (the base among them) does not
change what is stored under an id (and, with `i := b`, vice versa); see also
`C27_undisturbed` for the schedule. -/
theorem C29_independent (ho : Others i s t) :
    Dict.get? t.countsTotal i = Dict.get? s.countsTotal i ∧
    Dict.get? t.countsUseable i = Dict.get? s.countsUseable i ∧
    Dict.get? t.execList i = Dict.get? s.execList i ∧
    Dict.get? t.clocks i = Dict.get? s.clocks i :=
  ⟨(C27_stored ho).total, (C27_stored ho).useable, (C27_stored ho).list, (C27_stored ho).clocks⟩

/-- C29: for an id in use the base is ignored: history and life-time counts stay, and
beginning the run with another base gives the same state and outcome. -/
theorem C29_base_ignored (hk : Known a.id s) (b : Option (Option κ)) :
    { a with base := b : RunArgs α κ W }.base = b ∧
    s.start { a with base := b } = s.start a := by
  refine ⟨rfl, ?_⟩
  obtain ⟨f, hf⟩ := Option.isSome_iff_exists.1 hk.total
  obtain ⟨u, hu⟩ := Option.isSome_iff_exists.1 hk.useable
  obtain ⟨l, hl⟩ := Option.isSome_iff_exists.1 hk.list
  have hv : s.validateRunState.1.toView = s.toView := by
    unfold Sys.validateRunState
    split
    · rfl
    · exact Sys.validateConditions_view _ _
  unfold Sys.start
  rcases e1 : s.validateRunState with ⟨s1, _ | e⟩
  · rw [e1] at hv
    dsimp only at hv ⊢
    have e0 : ∀ t : Sys α κ W, t.setupAbsolute { a with base := b } = t.setupAbsolute a :=
      fun _ => rfl
    rw [e0]
    rcases e2 : (s1.getClock a.id).setupAbsolute a with ⟨s2, e | ab⟩
    · rfl
    · dsimp only
      obtain ⟨_, _, _, hs2⟩ := Sys.setupAbsolute_ok e2
      obtain ⟨d, hd, _⟩ := Sys.getClock_frame s1 a.id
      have t1 : Dict.get? s2.countsTotal a.id = some f := by
        rw [hs2, hd]; show Dict.get? s1.countsTotal a.id = _; rw [hv]; exact hf
      have t2 : Dict.get? s2.countsUseable a.id = some u := by
        rw [hs2, hd]; show Dict.get? s1.countsUseable a.id = _; rw [hv]; exact hu
      have t3 : Dict.get? s2.execList a.id = some l := by
        rw [hs2, hd]; show Dict.get? s1.execList a.id = _; rw [hv]; exact hl
      obtain ⟨c, t4⟩ : ∃ c, Dict.get? s2.clocks a.id = some c := by
        refine Option.isSome_iff_exists.1 ?_
        rw [hs2]
        show (Dict.get? (Dict.set _ _ _) _).isSome
        rw [Dict.get?_set_self]; rfl
      have e3 : ∀ b, s2.initCounts a.id b = (s2, none) := by
        intro b
        simp only [Sys.initCounts, Sys.initTotal, Sys.initUseable, Sys.initList, Sys.initClock,
          t1, t2, t3, t4]
      rw [e3, e3]
  · rfl

/-- C29: an unknown base raises `SchedulerError`, and no counts or histories change.
(`Synced`: counters and histories exist for the same ids, which holds over the whole life
of a scheduler, `C29_synced`. The other hypotheses hold for every scheduler with at least
one node: every node has an entry in the graph.) -/
theorem C29_unknown_base (hsy : Synced s) {b : Option κ} (hb : a.base = some b)
    (hn : Dict.get? s.countsTotal a.id = none) (hbn : Dict.get? s.countsTotal b = none)
    (hg : ∀ n ∈ s.nodes, (Dict.get? s.graph n).isSome) (hq : s.queue ≠ []) :
    ∃ s', s.start a = (s', .error .schedulerError) ∧ s'.countsTotal = s.countsTotal ∧
      s'.countsUseable = s.countsUseable ∧ s'.execList = s.execList := by
  rcases hs : s.start a with ⟨s', r⟩
  have hr : r = .error .schedulerError := by
    have hvc : ∀ (ns : List α) (s : Sys α κ W), (∀ n ∈ ns, (Dict.get? s.graph n).isSome) →
        (Sys.validateConditions ns s).2 = none := by
      intro ns
      induction ns with
      | nil => intros; rfl
      | cons n ns ih =>
        intro s hg
        unfold Sys.validateConditions
        split
        · exact ih s fun m hm => hg m (List.mem_cons_of_mem _ hm)
        · split
          · rename_i hx
            have := hg n (List.mem_cons_self ..)
            rw [hx] at this
            cases this
          · exact ih _ fun m hm => hg m (List.mem_cons_of_mem _ hm)
    have hv : s.validateRunState.1.toView = s.toView := by
      unfold Sys.validateRunState
      split
      · rfl
      · exact Sys.validateConditions_view _ _
    unfold Sys.start at hs
    rcases e1 : s.validateRunState with ⟨s1, _ | e⟩
    · rw [e1] at hs hv
      dsimp only at hs hv
      obtain ⟨d, hd, _⟩ := Sys.getClock_frame s1 a.id
      have hq1 : (s1.getClock a.id).queue ≠ [] := by rw [hd]; show s1.queue ≠ []; rw [hv]; exact hq
      rcases e2 : (s1.getClock a.id).setupAbsolute a with ⟨s2, e | ab⟩
      · exfalso
        unfold Sys.setupAbsolute at e2
        dsimp only at e2
        split at e2
        · cases e2
        · split at e2
          · rename_i hx
            obtain ⟨u, hu⟩ := Sys.absoluteUnit_total hq1 ((s1.getClock a.id).absoluteConds a)
            rw [hu] at hx
            cases hx
          · cases e2
      · rw [e2] at hs
        dsimp only at hs
        obtain ⟨_, _, _, hs2⟩ := Sys.setupAbsolute_ok e2
        have t1 : s2.countsTotal = s.countsTotal := by
          rw [hs2, hd]; show s1.countsTotal = _; rw [hv]
        have e3 : s2.initCounts a.id a.base = (s2, some .schedulerError) := by
          simp only [Sys.initCounts, Sys.initTotal, t1, hn, hb, hbn]
        rw [e3] at hs
        exact (Prod.mk.inj hs).2.symm
    · rw [e1] at hs
      have : e = .schedulerError := by
        unfold Sys.validateRunState at e1
        split at e1
        · cases e1; rfl
        · have := hvc s.nodes s hg
          rw [e1] at this
          cases this
      rw [← (Prod.mk.inj hs).2, this]
  subst hr
  rcases (Sys.start_synced hsy hs).2 with ⟨b, hb, _⟩ | hx
  · cases hb
  · exact ⟨s', rfl, hx⟩

/-- Counters and histories exist for the same ids, from the construction on. -/
theorem C29_synced {g : Graph α} {mode : Mode} {unit : Rat} {w : World α κ W}
    (hl : Life U (Sys.new g mode i unit w) log s gs) (hU : ∀ s s', U s s' → Synced s → Synced s') :
    Synced s := hl.synced hU (Sys.new_synced _ _ _ _ _)

example : Synced demo ∧ Dict.get? demo.countsTotal (some 7) = none ∧
    (∀ n ∈ demo.nodes, (Dict.get? demo.graph n).isSome) ∧ demo.queue ≠ [] :=
  ⟨Sys.new_synced [(1, [0]), (2, [0])] .standard none 1 demoWorld, rfl, by decide, by decide⟩

/-! ## C30 -/

/-- C30, counters: however the scheduler was left (any state `s`), a run under an id
begins with zero counts for the run, the pass and finer units, and zero useable counts. -/
theorem C30_zeroed {s' : Sys α κ W} (hs : s.start a = (s', .ok abs)) :
    Dict.get? s'.countsUseable a.id = some (fun _ _ => 0) ∧
    ∃ f, Dict.get? s'.countsTotal a.id = some f ∧ ∀ n, f .environment_state_update n = 0 ∧
      f .pass n = 0 ∧ f .consideration_set_execution n = 0 := by
  have h := Sys.start_ok hs
  obtain ⟨f, h3, h4, _⟩ := h.total
  exact ⟨h.useable, f, h3, fun n => ⟨h4 _ n (by decide), h4 _ n (by decide), h4 _ n (by decide)⟩⟩

/-- C30, schedule: what the next run under the id does is independent of the run-level
counts and useable counts left behind: it begins in the same state, hence has the same
executions.  (It may depend on everything else: the clock, the life-time counts, the
execution history, and the evaluations counted by `NWhen`.) -/
theorem C30_schedule (hk : Known a.id s) (f : TimeScale → α → Nat) (u : α → α → Nat) :
    (∀ s', (withRunCounts a.id f u s).start a = (s', .ok abs) ↔ s.start a = (s', .ok abs)) ∧
    ∀ h s' pc, Reach E a (withRunCounts a.id f u s) abs h s' pc ↔ Reach E a s abs h s' pc := by
  obtain ⟨f0, hf0⟩ := Option.isSome_iff_exists.1 hk.total
  have hw : withRunCounts a.id f u s = putCounts (Dict.set s.countsTotal a.id
      (fun t n => if t.val ≤ TimeScale.environment_state_update.val then f t n else f0 t n))
      (Dict.set s.countsUseable a.id u) s := by
    unfold withRunCounts
    rw [hf0]; rfl
  have hst : ∀ s', (withRunCounts a.id f u s).start a = (s', .ok abs) ↔
      s.start a = (s', .ok abs) := by
    intro s'
    rw [hw]
    have hc : ∀ (t : TimeScale) (n : α), 2 < t.val → (if t.val ≤
        TimeScale.environment_state_update.val then f t n else f0 t n) = f0 t n := by
      intro t n ht
      exact if_neg (by have e : TimeScale.environment_state_update.val = 2 := rfl; omega)
    rcases start_putCounts (abs := abs) hk (u := u) hf0 hc with ⟨s1, h1, h2⟩ |
      ⟨b, s1, s2, hb, h1, h2⟩ | ⟨e, s1, s2, h1, h2⟩
    · rw [h1, h2]
    · rw [h1, h2]
      constructor <;> intro h <;> exact absurd (by injection (Prod.mk.inj h).2) hb
    · rw [h1, h2]
      constructor <;> intro h <;> cases (Prod.mk.inj h).2
  refine ⟨hst, fun h s' pc => ⟨fun hr => ?_, fun hr => ?_⟩⟩
  · induction hr with
    | start hs => exact .start ((hst _).1 hs)
    | step _ hs ih => exact .step (ih hst) hs
    | env _ hp he ih => exact .env (ih hst) hp he
  · induction hr with
    | start hs => exact .start ((hst _).2 hs)
    | step _ hs ih => exact .step (ih hst) hs
    | env _ hp he ih => exact .env (ih hst) hp he

/-- An abandoned run of the demo scheduler leaves non-zero counts behind. -/
example : Known none (demoAfter 12).2.1 ∧
    ((Dict.get? (demoAfter 12).2.1.countsTotal none).map fun f => f .environment_state_update 0) =
      some 1 ∧ (demoAfter 12).2.2.final = false := by
  refine ⟨⟨?_, ?_, ?_⟩, ?_, ?_⟩ <;> decide +kernel

end GS.Props
