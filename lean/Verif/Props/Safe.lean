import Verif.SafeLemmas
import Verif.AbsRun
import Verif.AbsRepeatRun
import Verif.Props.Default
import Verif.Props.Delete
import Verif.Props.Whole
import Verif.Props.Order
/-!
# C90: why a run raises, and schedulers that never do
-/

set_option linter.unusedSectionVars false

namespace GS.Props
open Spec TimeScale
variable {α κ W : Type _} [DecidableEq α] [DecidableEq κ]
variable {E : Sys α κ W → Sys α κ W → Prop} {a : RunArgs α κ W} {s0 s s' : Sys α κ W}
variable {abs : Bool} {h : History α κ W} {pc pc' : PC α} {ev : Option (Event α)}

/-- What the user must leave alone while a generator is suspended, for its bookkeeping. -/
structure LeavesBooks (E : Sys α κ W → Sys α κ W → Prop) (i : Option κ) : Prop where
  queue : Keeps E fun s => s.queue
  nodes : Keeps E fun s => s.nodes
  conds : Keeps E fun s => s.conds
  owner : Keeps E fun s => s.store.owner
  total : Keeps E fun s => Dict.get? s.countsTotal i
  useable : Keeps E fun s => Dict.get? s.countsUseable i
  list : Keeps E fun s => Dict.get? s.execList i
  stamps : Keeps E fun s => Dict.get? s.timestamps i
  clock : Keeps E fun s => s.clock i

/-- Every node has a condition during the run. -/
theorem node_has_cond (hr : Reach E a s0 abs h s pc) (hC : Keeps E fun s => s.conds)
    {n : α} (hn : n ∈ s0.nodes) : ∃ c, Dict.get? s.conds n = some c := by
  obtain ⟨s1, hs1⟩ := hr.started
  obtain ⟨_, k1, k2, _⟩ := (Sys.start_ok hs1).conds_spec
  rw [hr.keepConds hC hs1]
  cases hc : Dict.get? s0.conds n with
  | some c => exact ⟨c, k1 n c hc⟩
  | none => obtain ⟨_, c, _, h2, _⟩ := k2 n hn hc; exact ⟨c, h2⟩

theorem raising_step (hE : LeavesBooks E a.id) (hH : Healthy s0)
    (hts : abs = true → (Dict.get? s0.timestamps a.id).isSome) {e : Err}
    (hr : Reach E a s0 abs h s pc) (hpc : ∀ e, pc ≠ .raised e)
    (hs : s.step a abs pc = (s', .raised e, ev)) :
    Cause a s' e ∧ (s'.toView = s.toView ∨ ∃ c log, Shows c log ∧
      s'.toView = (s.setClock a.id c).toView) := by
  obtain ⟨s1, hs1⟩ := hr.started
  obtain ⟨f, _, hf, _⟩ := C11_run_count hr hE.total
  obtain ⟨u, hu, _⟩ := hr.useable hE.useable
  obtain ⟨l0, hl0, _⟩ := (Sys.start_ok hs1).list
  have hl := hr.execs hE.list hpc hs1 hl0
  obtain ⟨log0, h0⟩ := hH.clock a.id
  obtain ⟨lg, hlg⟩ := (hr.clockAt hE.clock h0).shows hpc
  refine Sys.step_cause hlg hf hu hl ?_ ?_ hpc hs
  · rintro rfl
    obtain ⟨ts0, hts0⟩ := Option.isSome_iff_exists.1 (hts rfl)
    obtain ⟨l, h1, _⟩ := hr.stampList hE.clock hE.stamps hs1 hts0 hpc
    exact ⟨_, h1⟩
  · rintro c rfl n hn
    have ci := hr.choice c rfl
    obtain ⟨d, hdd⟩ := ci.todo
    have hq : n ∈ s.queue.flatten :=
      List.mem_flatten.2 ⟨c.layer, List.mem_of_getElem? ci.queue, by rw [hdd]; simp [hn]⟩
    have hn0 : n ∈ s0.nodes := by
      rw [← hH.placed, ← hr.keepQueue hE.queue]; exact hq
    exact ⟨by rw [hr.keepNodes hE.nodes]; exact hn0, hq, node_has_cond hr hE.conds hn0⟩

/-- C90: a run raises `e` only because evaluating a condition raises `e`: a termination
condition of the run, or the condition of a node that is considered.  (The state in which the
run has raised is the one in which the condition was evaluated, but for what the evaluation
itself changed.) -/
theorem C90_source (hE : LeavesBooks E a.id) (hH : Healthy s0)
    (hts : abs = true → (Dict.get? s0.timestamps a.id).isSome) {e : Err}
    (hr : Reach E a s0 abs h s (.raised e)) : Cause a s e := by
  generalize hp : PC.raised e = pc at hr
  induction hr with
  | start => cases hp
  | env _ hs _ _ => subst hp; cases hs
  | @step abs h s s' pc pc' ev hr hs ih =>
    by_cases hpc : ∃ e, pc = .raised e
    · obtain ⟨e', rfl⟩ := hpc
      simp only [Sys.step, Prod.mk.injEq] at hs
      obtain ⟨rfl, rfl, rfl⟩ := hs
      exact ih hts hp
    · subst hp
      have hpc : ∀ e, pc ≠ .raised e := fun e he => hpc ⟨e, he⟩
      exact (raising_step hE hH hts hr hpc hs).1

variable {P : World α κ W → Prop}

theorem worldOnly_leaves (i : Option κ) : LeavesBooks (WorldOnly P) i := by
  constructor <;> (rintro s s' ⟨w, _, rfl⟩; rfl)

theorem Reach.worldKept (hr : Reach (WorldOnly P) a s0 abs h s pc) (hP : P s0.world) :
    P s.world := by
  refine hr.ind (P := fun _ s _ => P s.world) ?_ ?_ ?_
  · intro s hs; rw [(Sys.start_ok hs).world]; exact hP
  · intro h s s' pc pc' ev _ ih hst; rw [hst.frame.world]; exact ih
  · rintro h s s' pc _ ih _ ⟨w, hw, rfl⟩; exact hw

/-- The implicit condition of a node makes sense. -/
theorem default_sane {S : Setting α κ W} {st : Store α κ} {n : α} {deps : List α} {c : Cond α κ W}
    (hd : IsDefault st n deps c) (hn : n ∈ S.nodes) (hds : ∀ d ∈ deps, d ∈ S.nodes) :
    Sane S st c := by
  obtain ⟨o, rfl, h2, h3, h4⟩ := hd.ex
  match deps, hds, h2, h3, h4 with
  | [], _, _, _, _ => exact trivial
  | [d], hds, h2, h3, _ =>
    exact ⟨hds d (by simp), by simp at h2; omega, n, hn, h3 d rfl⟩
  | d :: d' :: ds, hds, h2, _, h4 =>
    have e : (Sys.defaultCond o (d :: d' :: ds) : Cond α κ W) =
        .all o (defaultLeaves (o + 1) (d :: d' :: ds)) := by
      simp only [Sys.defaultCond]; rw [defaultLeaves_eq, Nat.add_zero]
    rw [e]
    have key : ∀ (l : List α) (k : OId), (∀ d ∈ l, d ∈ S.nodes) →
        (∀ x, k ≤ x → x < k + l.length → x < st.fresh ∧ st.owner x = some n) →
        SaneAll S st (defaultLeaves k l : List (Cond α κ W)) := by
      intro l
      induction l with
      | nil => intro k _ _; trivial
      | cons x l ih =>
        intro k hl hk
        obtain ⟨k1, k2⟩ := hk k (Nat.le_refl _) (by simp)
        refine ⟨⟨hl x (by simp), k1, n, hn, k2⟩, ih _ (fun y hy => hl y (by simp [hy])) ?_⟩
        intro y y1 y2
        exact hk y (by omega) (by simp; omega)
    refine key _ _ hds fun x x1 x2 => ⟨by simp at h2 x2 ⊢; omega, h4 (by simp) x x1 (by simpa using x2)⟩

/-- All conditions in force during the run make sense, if those given do. -/
theorem conds_sane {S : Setting α κ W} (hS : S.nodes = s0.nodes) (hE : LeavesBooks E a.id)
    (hH : Healthy s0) (hC : SaneConds S s0) (hr : Reach E a s0 abs h s pc) {s1}
    (hs1 : s0.start a = (s1, .ok abs)) :
    StoreExt s0.store s1.store ∧ s.store.owner = s1.store.owner ∧
    ∀ n ∈ s0.nodes, ∀ c, Dict.get? s.conds n = some c → Sane S s1.store c := by
  obtain ⟨k0, k1, k2, _⟩ := (Sys.start_ok hs1).conds_spec
  refine ⟨k0, hr.keepOwner hE.owner hs1, ?_⟩
  intro n hn c hc
  rw [hr.keepConds hE.conds hs1] at hc
  cases hc0 : Dict.get? s0.conds n with
  | some c' =>
    have := k1 n c' hc0
    rw [hc] at this
    cases this
    exact (hC n c hc0).ext k0
  | none =>
    obtain ⟨deps, c', h1, h2, h3⟩ := k2 n hn hc0
    rw [hc] at h2
    cases h2
    exact default_sane h3 (by rw [hS]; exact hn)
      fun d hd => by rw [hS]; exact hH.senders n deps h1 d hd

/-- What the running scheduler looks like to its conditions. -/
theorem Reach.ready (hE : LeavesBooks E a.id) (hH : Healthy s0) (hw : P s.world)
    (hr : Reach E a s0 abs h s pc) (hpc : ∀ e, pc ≠ .raised e) :
    Ready (settingOf s0 a.id P) s.toView := by
  obtain ⟨s1, hs1⟩ := hr.started
  obtain ⟨l0, hl0, hl1, _⟩ := (Sys.start_ok hs1).list
  obtain ⟨log0, h0⟩ := hH.clock a.id
  refine ⟨hr.keepNodes hE.nodes, hw, ?_, (hr.clockAt hE.clock h0).shows hpc, ?_, ?_, ?_⟩
  · intro n hn
    rw [hr.keepQueue hE.queue]
    exact exists_at ((hH.placed n).2 hn)
  · obtain ⟨f, _, hf, _⟩ := C11_run_count hr hE.total
    exact ⟨f, hf⟩
  · obtain ⟨u, hu, _⟩ := hr.useable hE.useable
    exact ⟨u, hu⟩
  · refine ⟨_, hr.execs hE.list hpc hs1 hl0, ?_⟩
    rintro ⟨l, h1, h2⟩
    rw [hl1 l h1]
    simp [h2]

/-- C90: a run never raises, however long it goes on and whatever the outside world does
(within `P`), if the conditions of the nodes and the termination conditions make sense.
(Nodes without a condition need nothing; the last premise says that time stamps are kept for
the execution id if the run uses absolute time, cf. C17.) -/
theorem C90_never_raises (hH : Healthy s0) (hP : P s0.world)
    (hC : SaneConds (settingOf s0 a.id P) s0)
    (hesu : Sane (settingOf s0 a.id P) s0.store a.esu)
    (hseq : Sane (settingOf s0 a.id P) s0.store a.seq)
    (hts : abs = true → (Dict.get? s0.timestamps a.id).isSome)
    (hr : Reach (WorldOnly P) a s0 abs h s pc) : ∀ e, pc ≠ .raised e := by
  have hE := worldOnly_leaves (P := P) (α := α) (κ := κ) (W := W) a.id
  induction hr with
  | start => simp
  | env _ _ _ ih => exact ih hts
  | @step abs h s s' pc pc' ev hr hs ih =>
    have hpc := ih hts
    rintro e rfl
    obtain ⟨s1, hs1⟩ := hr.started
    obtain ⟨hx, ho, hc⟩ := conds_sane (S := settingOf s0 a.id P) rfl hE hH hC hr hs1
    have hst := Sys.step_stepR hs
    have ho' : s'.store.owner = s1.store.owner := by rw [hst.frame.store.owner]; exact ho
    obtain ⟨⟨c, st, h1, h2⟩, hv⟩ := raising_step hE hH hts hr hpc hs
    have hrd := Reach.ready hE hH (Reach.worldKept hr hP) hr hpc
    have hrd' : Ready (settingOf s0 a.id P) s'.toView := by
      rcases hv with hv | ⟨ck, log, hck, hv⟩
      · rw [hv]; exact hrd
      · rw [hv]
        exact ⟨hrd.nodes, hrd.world, hrd.placed, ⟨log, by
          show Shows ((s.setClock a.id ck).clock a.id) log
          rw [Sys.clock_setClock]; exact hck⟩, hrd.total, hrd.useable, hrd.list⟩
    have hsane : Sane (settingOf s0 a.id P) s1.store c := by
      rcases h1 with rfl | rfl | ⟨n, hn, hcn⟩
      · exact hesu.ext hx
      · exact hseq.ext hx
      · rw [hst.frame.queue, hr.keepQueue hE.queue] at hn
        rw [hst.frame.conds] at hcn
        exact hc n ((hH.placed n).1 hn) c hcn
    have hown : st.owner = s1.store.owner := by
      rw [← (eval_store s'.toView a.id c st).owner, h2]; exact ho'
    obtain ⟨b, hb⟩ := eval_sane hrd' s1.store c st hsane hown
    have hb' : (eval s'.toView a.id c st).1 = .ok b := hb
    rw [h2] at hb'
    cases hb'

/-! ## Before and after -/

mutual
theorem sane_mono {S S' : Setting α κ W} (hn : S'.nodes = S.nodes) (hi : S'.id = S.id)
    (hw : S'.worlds = S.worlds) (hb : S.ranBefore → S'.ranBefore) {st : Store α κ} :
    ∀ c : Cond α κ W, Sane S st c → Sane S' st c
  | .leaf o k, h => by
    obtain ⟨n, i, w, b⟩ := S
    obtain ⟨n', i', w', b'⟩ := S'
    simp only at hn hi hw hb
    subst hn hi hw
    cases k
    case justRan => exact hb h
    all_goals exact h
  | .whileNot _ _, h => h
  | .all _ args, h => saneAll_mono hn hi hw hb args h
  | .any _ args, h => saneAll_mono hn hi hw hb args h
  | .not _ c, h => sane_mono hn hi hw hb c h
  | .nwhen _ c _, h => sane_mono hn hi hw hb c h
theorem saneAll_mono {S S' : Setting α κ W} (hn : S'.nodes = S.nodes) (hi : S'.id = S.id)
    (hw : S'.worlds = S.worlds) (hb : S.ranBefore → S'.ranBefore) {st : Store α κ} :
    ∀ cs : List (Cond α κ W), SaneAll S st cs → SaneAll S' st cs
  | [], _ => trivial
  | c :: cs, h => ⟨sane_mono hn hi hw hb c h.1, saneAll_mono hn hi hw hb cs h.2⟩
end

/-- What a run under `a.id` leaves alone. -/
structure RunKept (i : Option κ) (s0 s : Sys α κ W) : Prop where
  nodes : s.nodes = s0.nodes
  graph : s.graph = s0.graph
  queue : s.queue = s0.queue
  list : ∀ j, j ≠ i → Dict.get? s.execList j = Dict.get? s0.execList j
  clocks : ∀ j, j ≠ i → Dict.get? s.clocks j = Dict.get? s0.clocks j
  stamps : ∀ j, (Dict.get? s0.timestamps j).isSome → (Dict.get? s.timestamps j).isSome
  synced : Synced s0 → Synced s

theorem Reach.runKept (hr : Reach (WorldOnly P) a s0 abs h s pc) (hpc : ∀ e, pc ≠ .raised e) :
    RunKept a.id s0 s := by
  refine hr.ind (P := fun h s pc => (∀ e, pc ≠ .raised e) → RunKept a.id s0 s) ?_ ?_ ?_ hpc
  · intro s hs _
    have hst := Sys.start_ok hs
    obtain ⟨ab, ai, ae, hc⟩ := hst.clock
    exact ⟨hst.nodes, hst.graph, hst.queue, fun j hj => (hst.other j hj).2.2,
      fun j hj => by rw [hc, Dict.get?_set_ne hj],
      fun j hj => by rw [hst.timestamps]; exact hj, fun hy => (Sys.start_synced hy hs).1⟩
  · intro h s s' pc pc' ev _ ih hst hpc
    have hp0 : ∀ e, pc ≠ .raised e := by
      rintro e rfl
      cases hst with
      | raised => exact hpc _ rfl
      | fails hf => cases hf
    have k := ih hp0
    have f := hst.frame
    refine ⟨f.nodes.trans k.nodes, f.graph.trans k.graph, f.queue.trans k.queue,
      fun j hj => (f.list j hj).trans (k.list j hj), fun j hj => (f.clocks j hj).trans (k.clocks j hj),
      fun j hj => ?_, fun hy => hst.synced (k.synced hy)⟩
    by_cases hj' : j = a.id
    · subst hj'
      cases hst with
      | fails => exact absurd rfl (hpc _)
      | yieldAbs =>
        simp only [Sys.putStamps, Sys.putList, Dict.get?_set_self, Option.isSome_some]
      | _ => exact k.stamps _ hj
    · rw [f.stamps j hj']; exact k.stamps j hj
  · rintro h s s' pc _ ih _ ⟨w, hw, rfl⟩ hpc
    have k := ih hpc
    exact ⟨k.nodes, k.graph, k.queue, k.list, k.clocks, k.stamps, k.synced⟩

/-- C90, continued: a run leaves the scheduler in good order at every moment, and a condition
that makes sense for an execution id before goes on making sense; so the theorems apply to the
next run, too, under whatever id. -/
theorem C90_again (hH : Healthy s0) (hP : P s0.world) (hpc : ∀ e, pc ≠ .raised e)
    (hr : Reach (WorldOnly P) a s0 abs h s pc) :
    Healthy s ∧ P s.world ∧
    (∀ i c, Sane (settingOf s0 i P) s0.store c → Sane (settingOf s i P) s.store c) ∧
    (∀ i, SaneConds (settingOf s0 i P) s0 → SaneConds (settingOf s i P) s) ∧
    ∀ i, (Dict.get? s0.timestamps i).isSome → (Dict.get? s.timestamps i).isSome := by
  have hE := worldOnly_leaves (P := P) (α := α) (κ := κ) (W := W) a.id
  have k := Reach.runKept hr hpc
  obtain ⟨s1, hs1⟩ := hr.started
  obtain ⟨k0, k1, k2, k3⟩ := (Sys.start_ok hs1).conds_spec
  have ho := hr.keepOwner hE.owner hs1
  have hfresh : s1.store.fresh ≤ s.store.fresh := by
    refine hr.ind (P := fun _ s _ => s1.store.fresh ≤ s.store.fresh) ?_ ?_ ?_
    · intro s hs; rw [hs1] at hs; cases hs; exact Nat.le_refl _
    · intro h s s' pc pc' ev _ ih hst; rw [hst.frame.store.fresh]; exact ih
    · rintro h s s' pc _ ih _ ⟨w, hw, rfl⟩; exact ih
  have own : ∀ {S : Setting α κ W} {o}, OwnedBy S s1.store o → OwnedBy S s.store o := by
    rintro S o ⟨h1, n, h2, h3⟩
    exact ⟨Nat.lt_of_lt_of_le h1 hfresh, n, h2, by rw [ho]; exact h3⟩
  have hran : ∀ i, (settingOf s0 i P).ranBefore → (settingOf s i P).ranBefore := by
    rintro i ⟨l, h1, h2⟩
    by_cases hi : i = a.id
    · subst hi
      obtain ⟨l0, hl0, hl1, _⟩ := (Sys.start_ok hs1).list
      refine ⟨_, hr.execs hE.list hpc hs1 hl0, ?_⟩
      rw [hl1 l h1]; simp [h2]
    · exact ⟨l, by rw [k.list i hi]; exact h1, h2⟩
  have step2 : ∀ i c, Sane (settingOf s0 i P) s1.store c → Sane (settingOf s i P) s.store c := by
    intro i c hc
    refine sane_mono (S := settingOf s0 i P) (S' := settingOf s i P) k.nodes rfl rfl (hran i) c ?_
    exact sane_owned own c hc
  refine ⟨⟨?_, ?_, ?_, ?_, k.synced hH.synced, ?_⟩, Reach.worldKept hr hP, ?_, ?_, k.stamps⟩
  · rw [k.nodes, k.queue]; exact hH.placed
  · rw [k.nodes, k.graph]; exact hH.known
  · rw [k.nodes, k.graph]; exact hH.senders
  · rw [k.graph]; exact hH.acyclic
  · intro i
    by_cases hi : i = a.id
    · subst hi
      obtain ⟨log0, h0⟩ := hH.clock a.id
      exact (hr.clockAt hE.clock h0).shows hpc
    · obtain ⟨log, hl⟩ := hH.clock i
      refine ⟨log, ?_⟩
      unfold View.clock at hl ⊢
      rw [k.clocks i hi]; exact hl
  · intro i c hc; exact step2 i c (hc.ext k0)
  · intro i hC n c hc
    rw [hr.keepConds hE.conds hs1] at hc
    refine step2 i c ?_
    cases hc0 : Dict.get? s0.conds n with
    | some c' =>
      have := k1 n c' hc0
      rw [hc] at this
      cases this
      exact (hC n c hc0).ext k0
    | none =>
      by_cases hn : n ∈ s0.nodes
      · obtain ⟨deps, c', h1, h2, h3⟩ := k2 n hn hc0
        rw [hc] at h2
        cases h2
        exact default_sane h3 hn fun d hd => hH.senders n deps h1 d hd
      · rw [k3 n hn, hc0] at hc; cases hc

/-- C90: a scheduler in good order with at least one node can begin a run.  (`CanBegin`: the
execution id is known, or the context it is to be copied from is.) -/
theorem C90_begins (hH : Healthy s0) (hq : s0.queue ≠ []) (hk : CanBegin a s0) :
    ∃ s abs, s0.start a = (s, .ok abs) := by
  obtain ⟨layers, ht⟩ := hH.acyclic
  have hno := validateConditions_total s0.nodes s0 fun n hn => by
    obtain ⟨d, hd⟩ := hH.known n hn; rw [hd]; rfl
  rcases hv : Sys.validateConditions s0.nodes s0 with ⟨s1, r⟩
  rw [hv] at hno
  have hr : r = none := hno
  subst hr
  have hv' : s0.validateRunState = (s1, none) := by
    unfold Sys.validateRunState; rw [ht]; exact hv
  have hq1 : s1.queue ≠ [] := by
    obtain ⟨_, cs, st, rfl⟩ := Sys.validateRunState_ok hv'
    exact hq
  obtain ⟨u, hu⟩ := Sys.absoluteUnit_total hq1 (s1.absoluteConds a)
  obtain ⟨s', h'⟩ := Sys.start_runs hH.synced hv' hk (.inr ⟨u, hu⟩)
  exact ⟨_, _, h'⟩

/-- C90: a new scheduler of an acyclic graph is in good order. -/
theorem C90_new (g : Graph α) (hg : Dict.WF g) (hc : ¬ HasCycle g) (mode : Mode) (id : Option κ)
    (unit : Rat) (w : World α κ W) : Healthy (Sys.new g mode id unit w) := by
  obtain ⟨ht, _⟩ := queue_ok g hg hc
  refine ⟨?_, ?_, ?_, ⟨_, ht⟩, Sys.new_synced g mode id unit w, ?_⟩
  · intro n
    cases mode with
    | standard =>
      obtain ⟨_, _, p3⟩ := C01_partition g hg hc
      show n ∈ (queueOf (baseGraph g)).flatten ↔ n ∈ Dict.keys (baseGraph g)
      rw [p3, baseGraph_keys g hg]
    | exactTime =>
      show n ∈ [Dict.keys (baseGraph g)].flatten ↔ n ∈ Dict.keys (baseGraph g)
      simp
  · intro n hn; exact Option.isSome_iff_exists.1 (Dict.get?_isSome.2 hn)
  · intro n senders hs d hd
    have he : Edge g d n := (baseGraph_edge g hg d n).1
      ((edge_iff_get? (baseGraph_wf g) _ _).2 ⟨senders, hs, hd⟩)
    refine (baseGraph_keys g hg d).2 ?_
    obtain ⟨p, hp, _, h2⟩ := he
    exact .inr ⟨p, hp, h2⟩
  · intro i
    refine ⟨[], ?_⟩
    have : (Sys.new g mode id unit w).clock i = Clock.new := by
      unfold View.clock
      show (match Dict.get? [(id, Clock.new)] i with | some c => c | none => Clock.new) = _
      simp only [Dict.get?]
      by_cases h : id = i <;> simp [h]
    rw [this]
    exact Spec.Shows.new

/-! ## What the requirements are good for -/

section
variable {v : View α κ W} {id : Option κ} {st : Store α κ} {o : OId} {log : List TimeScale}

/-- C90: without a requirement there is an exception whenever the condition is evaluated:
calls of a node unknown to the scheduler, a period of zero, no number of calls, time steps
counted per pass, calls per execution of an object that belongs to no node, a repetition of an
object that belongs to no node or with period zero, and `JustRan` before anything was yielded. -/
theorem C90_needed {f u} (hf : Dict.get? v.countsTotal id = some f)
    (hu : Dict.get? v.countsUseable id = some u) (hl : Shows (v.clock id) log) :
    (∀ d n ts, d ∉ v.nodes →
      eval v id (.leaf o (.beforeNCalls d n ts)) st = (.error .keyError, st) ∧
      eval v id (.leaf o (.atNCalls d n ts)) st = (.error .keyError, st) ∧
      eval v id (.leaf o (.afterCall d n ts)) st = (.error .keyError, st) ∧
      eval v id (.leaf o (.afterNCalls d n ts)) st = (.error .keyError, st) ∧
      eval v id (.leaf o (.everyNCalls d n)) st = (.error .keyError, st)) ∧
    (∀ ds n ts, (∃ d ∈ ds, d ∉ v.nodes) →
      eval v id (.leaf o (.afterNCallsCombined ds (some n) ts)) st = (.error .keyError, st)) ∧
    (∀ ds ts, eval v id (.leaf o (.afterNCallsCombined ds none ts)) st =
      (.error .conditionError, st)) ∧
    (∀ ts, eval v id (.leaf o (.everyNPasses 0 ts)) st = (.error .zeroDivisionError, st)) ∧
    (∀ n, eval v id (.leaf o (.atConsiderationSetExecution n pass)) st =
      (.error .timeScaleError, st)) ∧
    (∀ d n, st.owner o = none →
      eval v id (.leaf o (.everyNCalls d n)) st = (.error .keyError, st)) ∧
    (∀ r e si ei, st.owner o = none →
      eval v id (.leaf o (.timeInterval (some r) none e si ei)) st =
        (.error .unboundLocalError, st)) ∧
    (∀ r b e si ei n, st.owner o = some n → n ∈ v.queue.flatten → r.val = 0 →
      eval v id (.leaf o (.timeInterval (some r) b e si ei)) st =
        (.error .zeroDivisionError, st)) ∧
    (∀ d, Dict.get? v.execList id = some [] →
      eval v id (.leaf o (.justRan d)) st = (.error .indexError, st)) := by
  have ht : ∀ d ts, d ∉ v.nodes → v.total id ts d = .error .keyError := by
    intro d ts hd
    unfold View.total
    rw [hf]
    exact if_neg hd
  refine ⟨?_, ?_, ?_, ?_, ?_, ?_, ?_, ?_, ?_⟩
  · intro d n ts hd
    have := ht d ts hd
    refine ⟨?_, ?_, ?_, ?_, ?_⟩ <;> simp only [eval, evalLeaf, callCount, this]
    simp only [View.useable, hu]
    rw [if_neg hd]
  · intro ds n ts hd
    have key : ∀ ds, (∃ d ∈ ds, d ∉ v.nodes) → sumCalls v id ts ds = .error .keyError := by
      intro ds
      induction ds with
      | nil => rintro ⟨_, h, _⟩; cases h
      | cons d ds ih =>
        rintro ⟨x, hx, hn⟩
        simp only [sumCalls]
        by_cases hd : d ∈ v.nodes
        · have h1 : v.total id ts d = .ok (f ts d) := by
            unfold View.total; rw [hf]; exact if_pos hd
          rw [h1]
          rcases List.mem_cons.1 hx with rfl | hx
          · exact absurd hd hn
          · rw [ih ⟨x, hx, hn⟩]
        · rw [ht d ts hd]
    simp only [eval, evalLeaf, key ds hd]
  · intro ds ts; rfl
  · intro ts
    obtain ⟨k, hk⟩ := clock_answers hl (q := pass) (ts := ts) (by simp) (by simp)
    simp only [eval, evalLeaf, hk, if_true]
  · intro n; exact (C22_cse_in_pass_raises hl n).1
  · intro d n ho
    simp only [eval, evalLeaf, View.useable, hu, ho]
    split <;> rename_i h
    · split at h <;> cases h
    · split at h <;> cases h <;> rfl
  · intro r e si ei ho
    have : layerOffset (none : Option α) (v.clock id).time.absolute_interval v.queue = none := by
      unfold layerOffset
      generalize v.queue.zipIdx = l
      induction l with
      | nil => rfl
      | cons x l ih => rw [List.foldl_cons]; exact ih
    simp only [eval, evalLeaf, timeIntervalFunc, ho, this, repeatOk]
  · intro r b e si ei n ho hn hr
    obtain ⟨i, hi⟩ := exists_at hn
    obtain ⟨off, hoff⟩ := layerOffset_some (v.clock id).time.absolute_interval hi
    simp only [eval, evalLeaf, timeIntervalFunc, ho]
    cases b with
    | none => simp only [hoff, repeatOk, hr, if_true]
    | some q =>
      dsimp only
      by_cases hx : v.inExactTimeMode = true
      · simp only [hx, if_true, repeatOk, hr]
      · simp only [hx, hoff, repeatOk, hr, if_true, Bool.false_eq_true, if_false]
  · intro d hx
    simp only [eval, evalLeaf, justRanFunc, Dict.get, hx]
    rfl

end

/-! ## Concrete cases -/

/-- A world in which no node is finished. -/
def busyWorld : World Nat Nat Unit := { demoWorld with finished := fun _ _ => .ok false }

/-- A scheduler for `0 → 1 → 2` where 1 waits for two calls of 0, at most three times, unless
0 is finished, and 2 has no condition. -/
def saneDemo : Sys Nat Nat Unit :=
  ((Sys.new [(0, []), (1, [0]), (2, [1])] .standard none 1 busyWorld).alloc 4).addBasic 1
    (.nwhen 0 (.any 1 [.leaf 2 (.everyNCalls 0 2), .leaf 3 (.whenFinished 0)]) 3)

/-- The nodes always answer whether they are finished. -/
def answering : World Nat Nat Unit → Prop := fun w => ∀ d i, ∃ b, w.finished d i = .ok b

theorem saneDemo_healthy : Healthy saneDemo := by
  have h := C90_new (κ := Nat) (W := Unit) [(0, []), (1, [0]), (2, [1])] (by decide)
    (by
      rcases toposort_spec ([(0, []), (1, [0]), (2, [1])] : Graph Nat) (by decide) with
        ⟨_, _, _, _, _, h⟩ | ⟨h, _⟩
      · exact h
      · exact absurd h (by decide)) .standard none 1 busyWorld
  exact ⟨h.placed, h.known, h.senders, h.acyclic, h.synced, h.clock⟩

theorem saneDemo_sane (i : Option Nat) : SaneConds (settingOf saneDemo i answering) saneDemo := by
  intro n c hc
  have hcs : saneDemo.conds =
      [(1, .nwhen 0 (.any 1 [.leaf 2 (.everyNCalls 0 2), .leaf 3 (.whenFinished 0)]) 3)] := rfl
  rw [hcs] at hc
  simp only [Dict.get?] at hc
  split at hc
  · cases hc
    exact ⟨⟨show 0 ∈ saneDemo.nodes by decide, by decide, 1, show 1 ∈ saneDemo.nodes by decide, rfl⟩,
      fun w hw => hw 0 i, trivial⟩
  · cases hc

/-- Concrete case of `C90_never_raises` and `C90_begins`: a run with the default termination
conditions; it yields four sets and returns. -/
example : answering saneDemo.world ∧
    Sane (settingOf saneDemo none answering) saneDemo.store demoArgs.esu ∧
    Sane (settingOf saneDemo none answering) saneDemo.store demoArgs.seq ∧
    CanBegin demoArgs saneDemo ∧ saneDemo.queue ≠ [] ∧
    (scriptAfter (fun _ => busyWorld) demoArgs saneDemo 60).2.2 = .returned ∧
    yields (scriptAfter (fun _ => busyWorld) demoArgs saneDemo 60).1 = [[0], [0], [1], [2]] :=
  ⟨fun d i => ⟨false, rfl⟩, fun d hd => (by cases hd), trivial,
    .inl ⟨by decide +kernel, by decide +kernel, by decide +kernel⟩,
    by decide +kernel, by decide +kernel, by decide +kernel⟩

/-- A scheduler with a condition that cannot be evaluated. -/
def insaneDemo : Sys Nat Nat Unit :=
  ((Sys.new [(0, []), (1, [0])] .standard none 1 demoWorld).alloc 1).addBasic 1
    (.leaf 0 (.everyNPasses 0 .environment_state_update))

theorem insaneDemo_healthy : Healthy insaneDemo := by
  have h := C90_new (κ := Nat) (W := Unit) [(0, []), (1, [0])] (by decide)
    (by
      rcases toposort_spec ([(0, []), (1, [0])] : Graph Nat) (by decide) with
        ⟨_, _, _, _, _, h⟩ | ⟨h, _⟩
      · exact h
      · exact absurd h (by decide)) .standard none 1 demoWorld
  exact ⟨h.placed, h.known, h.senders, h.acyclic, h.synced, h.clock⟩

/-- Concrete case of `C90_source`: a run that raises. -/
example : LeavesBooks (WorldOnly answering) demoArgs.id ∧ Healthy insaneDemo ∧
    (exec insaneDemo demoArgs 12).map (fun r => r.2.2.2) = some (.raised .zeroDivisionError) :=
  ⟨worldOnly_leaves _, insaneDemo_healthy, by decide +kernel⟩

/-- Concrete case of `C90_needed`: node 7 is unknown, object 5 belongs to nobody. -/
example : (Dict.get? saneDemo.countsTotal none).isSome ∧
    (Dict.get? saneDemo.countsUseable none).isSome ∧ (∃ log, Shows (saneDemo.clock none) log) ∧
    7 ∉ saneDemo.nodes ∧ saneDemo.store.owner 5 = none ∧
    Dict.get? saneDemo.execList none = some [] :=
  ⟨by decide, by decide, saneDemo_healthy.clock none, by decide, by decide, by decide⟩

end GS.Props
