import Verif.RunWhole
import Verif.Props.Graph
/-!
# The life of a scheduler without explicit conditions
-/

set_option linter.unusedSectionVars false

namespace GS

/-- What a user may do between runs without touching conditions, graph or counters:
`get_clock` and `end_environment_sequence`. -/
def Spec.ClockUse {α κ W : Type _} [DecidableEq α] [DecidableEq κ] (s s' : Sys α κ W) : Prop :=
  (∃ j, s' = s.getClock j) ∨ ∃ j, s.endEnvironmentSequence j = .ok s'

open Spec Props TimeScale
variable {α κ W β : Type _} [DecidableEq α] [DecidableEq κ]
variable {U : Sys α κ W → Sys α κ W → Prop} {a : RunArgs α κ W} {s0 s s' : Sys α κ W}
variable {abs : Bool} {h : History α κ W} {pc pc' : PC α} {ev : Option (Event α)}

/-- Every clock shows some sequence of increments. -/
def Clocks (s : Sys α κ W) : Prop := ∀ i, ∃ log, Shows (s.clock i) log

theorem clock_setClock_ne {s : Sys α κ W} {i j : Option κ} (c : Clock) (h : i ≠ j) :
    (s.setClock j c).clock i = s.clock i := by
  simp [Sys.setClock, View.clock, Dict.get?_set_ne h]

theorem Clocks.set (h : Clocks s) {j : Option κ} {c : Clock} {log} (hc : Shows c log) :
    Clocks (s.setClock j c) := by
  intro i
  by_cases hi : i = j
  · subst hi; rw [Sys.clock_setClock]; exact ⟨_, hc⟩
  · rw [clock_setClock_ne c hi]; exact h i

theorem Clocks.getClock (h : Clocks s) (j : Option κ) : Clocks (s.getClock j) := by
  unfold Sys.getClock
  split
  · exact h
  · exact h.set .new

theorem Clocks.incr (h : Clocks s) {j : Option κ} {ts} (ht : ts ≠ life)
    (hi : s.incrClock j ts = .ok s') : Clocks s' := by
  obtain ⟨c, h1, rfl⟩ := Sys.incrClock_ok hi
  obtain ⟨log, hl⟩ := h j
  exact h.set (hl.step ht h1)

theorem Clocks.same (h : Clocks s) (he : s'.clocks = s.clocks) : Clocks s' := by
  intro i
  have : s'.clock i = s.clock i := by unfold View.clock; rw [he]
  rw [this]; exact h i

theorem Clocks.step (h : Clocks s) (hs : StepR a abs s pc s' pc' ev) : Clocks s' := by
  obtain ⟨log, hl⟩ := h a.id
  have hst : ∀ st, Clocks (s.putStore st) := fun st => h.same rfl
  cases hs with
  | pass => exact h.same rfl
  | stopSkip => exact h.same rfl
  | stopIncr hd hst' hs hc => exact (hst _).set (hl.step (by simp) hc)
  | passEnd hl' hch hc => exact (hst _).set (hl.step (by simp) hc)
  | emptyYield => exact h.same rfl
  | consider => exact h.same rfl
  | again => exact h
  | skip => exact h
  | reject => exact h.same rfl
  | add => exact h.same rfl
  | yield => exact h.same rfl
  | yieldAbs => exact h.same rfl
  | silent => exact h
  | resume hc => exact h.set (hl.step (by simp) hc)
  | resumeEmpty hc1 hc2 => exact h.set ((hl.step (by simp) hc1).step (by simp) hc2)
  | returned => exact h
  | raised => exact h
  | fails hp hfr =>
    cases hfr with
    | store => exact h.same rfl
    | clock st c hst' ts hts hc => exact (hst _).set (hl.step hts hc)
    | list => exact h.same rfl

theorem Clocks.initClock (h : Clocks s) {j base} (hi : s.initClock j base = .ok s') :
    Clocks s' := by
  unfold Sys.initClock at hi
  split at hi
  · cases hi; exact h
  · split at hi
    · cases hi; exact h.set .new
    · rename_i b
      split at hi
      · cases hi
      · rename_i c hc
        cases hi
        obtain ⟨log, hl⟩ := h b
        have : s.clock b = c := by unfold View.clock; rw [hc]
        rw [this] at hl
        exact h.set hl

theorem Clocks.initCounts (h : Clocks s) {j base r} (hi : s.initCounts j base = (s', r)) :
    Clocks s' := by
  unfold Sys.initCounts at hi
  split at hi
  · cases hi; exact h
  · rename_i s1 h1
    obtain ⟨d1, rfl, _⟩ := Sys.initTotal_ok h1
    split at hi
    · cases hi; exact h.same rfl
    · rename_i s2 h2
      obtain ⟨d2, rfl, _⟩ := Sys.initUseable_ok h2
      split at hi
      · cases hi; exact h.same rfl
      · rename_i s3 h3
        obtain ⟨d3, rfl, _⟩ := Sys.initList_ok h3
        split at hi
        · cases hi; exact h.same rfl
        · rename_i s4 h4
          cases hi
          refine Clocks.initClock ?_ h4
          exact h.same rfl

theorem Clocks.start (h : Clocks s) {r} (hs : s.start a = (s', r)) : Clocks s' := by
  have hv : s.validateRunState.1.toView = s.toView := by
    unfold Sys.validateRunState
    split
    · rfl
    · exact Sys.validateConditions_view _ _
  unfold Sys.start at hs
  rcases e1 : s.validateRunState with ⟨s1, _ | e⟩
  · rw [e1] at hs hv
    have c1 : Clocks s1 := h.same (congrArg View.clocks hv)
    have c2 := c1.getClock a.id
    dsimp only at hs
    rcases e2 : (s1.getClock a.id).setupAbsolute a with ⟨s2, e | b⟩
    · rw [e2] at hs
      cases hs
      unfold Sys.setupAbsolute at e2
      dsimp only at e2
      split at e2
      · cases e2
      · split at e2
        · cases e2; exact c2
        · cases e2
    · rw [e2] at hs
      dsimp only at hs
      obtain ⟨ab, ai, ae, hs2⟩ := Sys.setupAbsolute_ok e2
      have c3 : Clocks s2 := by
        rw [hs2]
        obtain ⟨log, hl⟩ := c2 a.id
        exact c2.set (log := log) hl
      rcases e3 : s2.initCounts a.id a.base with ⟨s3, _ | e⟩
      · rw [e3] at hs
        have c4 := c3.initCounts e3
        dsimp only at hs
        split at hs
        · cases hs; exact c4.same rfl
        · rename_i s4 hr
          cases hs
          unfold Sys.resetTotal at hr
          split at hr
          · cases hr
          · cases hr; exact c4.same rfl
      · rw [e3] at hs
        cases hs
        exact c3.initCounts e3
  · rw [e1] at hs hv
    cases hs
    exact h.same (congrArg View.clocks hv)

/-! ## Conditions -/

theorem defaultCond_plain (o : OId) (deps : List α) :
    (Sys.defaultCond o deps : Cond α κ W).isAbsolute = false := by
  have key : ∀ (ds : List α) k, anyAbsolute (defaultLeaves k ds : List (Cond α κ W)) = false := by
    intro ds
    induction ds with
    | nil => intro k; rfl
    | cons d ds ih => intro k; simp [defaultLeaves, anyAbsolute, Cond.isAbsolute, Leaf.isAbsolute, ih]
  match deps with
  | [] => rfl
  | [d] => rfl
  | d :: d' :: ds =>
    have e : (Sys.defaultCond o (d :: d' :: ds) : Cond α κ W) =
        .all o (defaultLeaves (o + 1) (d :: d' :: ds)) := by
      simp only [Sys.defaultCond]; rw [defaultLeaves_eq, Nat.add_zero]
    rw [e]
    exact key _ _

theorem Dict.mem_of_mem_set {κ' : Type _} [DecidableEq κ'] {d : Dict κ' β} {k : κ'} {v : β}
    {p : κ' × β} (h : p ∈ Dict.set d k v) : p = (k, v) ∨ p ∈ d := by
  induction d with
  | nil => left; simpa [Dict.set] using h
  | cons kv d ih =>
    obtain ⟨x, y⟩ := kv
    unfold Dict.set at h
    split at h
    · rename_i hx
      subst hx
      rcases List.mem_cons.1 h with h | h
      · exact .inl h
      · exact .inr (by simp [h])
    · rcases List.mem_cons.1 h with h | h
      · exact .inr (by simp [h])
      · rcases ih h with h | h
        · exact .inl h
        · exact .inr (by simp [h])

theorem validateConditions_plain : ∀ (ns : List α) (s : Sys α κ W),
    (∀ p ∈ s.conds, p.2.isAbsolute = false) →
    ∀ p ∈ (Sys.validateConditions ns s).1.conds, p.2.isAbsolute = false
  | [], _, h => h
  | n :: ns, s, h => by
    unfold Sys.validateConditions
    split
    · exact validateConditions_plain ns s h
    · split
      · exact h
      · refine validateConditions_plain ns _ ?_
        intro p hp
        rcases Dict.mem_of_mem_set hp with rfl | hp
        · exact defaultCond_plain _ _
        · exact h p hp

theorem validateConditions_total : ∀ (ns : List α) (s : Sys α κ W),
    (∀ n ∈ ns, (Dict.get? s.graph n).isSome) → (Sys.validateConditions ns s).2 = none
  | [], _, _ => rfl
  | n :: ns, s, h => by
    unfold Sys.validateConditions
    split
    · exact validateConditions_total ns s fun m hm => h m (List.mem_cons_of_mem _ hm)
    · obtain ⟨deps, hd⟩ := Option.isSome_iff_exists.1 (h n (List.mem_cons_self ..))
      rw [hd]
      exact validateConditions_total ns _ fun m hm => h m (List.mem_cons_of_mem _ hm)

theorem DefaultSched.graphSome (h : DefaultSched s) : ∀ n ∈ s.nodes, (Dict.get? s.graph n).isSome := by
  intro n hn
  obtain ⟨j, hj⟩ := exists_at ((h.mem n).2 hn)
  obtain ⟨deps, hd, _⟩ := h.deps j n hj
  rw [hd]; rfl

theorem DefaultSched.validate (h : DefaultSched s) : DefaultSched s.validateRunState.1 := by
  unfold Sys.validateRunState
  cases ht : toposort s.graph with
  | error e => exact h
  | ok q =>
    dsimp only
    have hno := validateConditions_total s.nodes s h.graphSome
    have hview := Sys.validateConditions_view s.nodes s
    rcases hv : Sys.validateConditions s.nodes s with ⟨s1, r⟩
    rw [hv] at hno hview
    have hr : r = none := hno
    subst hr
    obtain ⟨x1, x2, x3, x4⟩ := Sys.validateConditions_spec _ _ _ hv
    have hv' : s1.toView = s.toView := hview
    have hpl := validateConditions_plain s.nodes s h.plain
    rw [hv] at hpl
    refine ⟨by rw [hv']; exact h.nonempty, by rw [hv']; exact h.nodup, by rw [hv']; exact h.mem,
      by rw [hv']; exact h.deps, ?_, hpl⟩
    intro n hn
    have hn : n ∈ s.nodes := by rw [← hv']; exact hn
    right
    rcases h.conds n hn with h0 | ⟨deps, c, e1, e2, e3⟩
    · obtain ⟨deps, c, e1, e2, e3⟩ := x3 n hn h0
      exact ⟨deps, c, by rw [hv']; exact e1, e2, e3⟩
    · exact ⟨deps, c, by rw [hv']; exact e1, x2 n c e2, e3.ext x1⟩

theorem DefaultSched.frame (h : DefaultSched s) {j : Option κ} (hf : Frame j s s') :
    DefaultSched s' := by
  refine ⟨by rw [hf.queue]; exact h.nonempty, by rw [hf.queue]; exact h.nodup,
    by rw [hf.queue, hf.nodes]; exact h.mem, by rw [hf.queue, hf.graph]; exact h.deps, ?_,
    by rw [hf.conds]; exact h.plain⟩
  intro n hn
  rw [hf.nodes] at hn
  rw [hf.conds, hf.graph]
  rcases h.conds n hn with h0 | ⟨deps, c, e1, e2, e3⟩
  · exact .inl h0
  · exact .inr ⟨deps, c, e1, e2, e3.grow hf.store.owner (Nat.le_of_eq hf.store.fresh.symm)⟩

/-- The life of a scheduler without explicit conditions. -/
theorem Spec.Life.default {log gs} (hl : Life ClockUse s0 log s gs) (hd : DefaultSched s0)
    (hc : Clocks s0) (hy : Synced s0) :
    DefaultSched s ∧ Clocks s ∧ Synced s ∧ s.queue = s0.queue ∧ s.graph = s0.graph ∧
      s.nodes = s0.nodes := by
  induction hl with
  | init => exact ⟨hd, hc, hy, rfl, rfl, rfl⟩
  | start hl hs ih =>
    obtain ⟨i1, i2, i3, i4, i5, i6⟩ := ih
    have m := Mild.start hs
    exact ⟨i1.validate.frame (Sys.start_other hs), i2.start hs, (Sys.start_synced i3 hs).1,
      m.queue.trans i4, m.graph.trans i5, m.nodes.trans i6⟩
  | startFails hl hs ih =>
    obtain ⟨i1, i2, i3, i4, i5, i6⟩ := ih
    have m := Mild.start hs
    exact ⟨i1.validate.frame (Sys.start_other hs), i2.start hs, (Sys.start_synced i3 hs).1,
      m.queue.trans i4, m.graph.trans i5, m.nodes.trans i6⟩
  | step hl hg hs ih =>
    obtain ⟨i1, i2, i3, i4, i5, i6⟩ := ih
    have hr := Sys.step_stepR hs
    have f := hr.frame
    exact ⟨i1.frame f, i2.step hr, hr.synced i3, f.queue.trans i4, f.graph.trans i5,
      f.nodes.trans i6⟩
  | user hl hu ih =>
    obtain ⟨i1, i2, i3, i4, i5, i6⟩ := ih
    rcases hu with ⟨j, rfl⟩ | ⟨j, hj⟩
    · rename_i s1 _
      have f := Sys.getClock_other (j := j) s1
      refine ⟨i1.frame f, i2.getClock j, ?_, f.queue.trans i4, f.graph.trans i5,
        f.nodes.trans i6⟩
      unfold Sys.getClock
      split
      · exact i3
      · exact i3
    · have hinc := i2.incr (by simp) hj
      obtain ⟨c, _, rfl⟩ := Sys.incrClock_ok hj
      exact ⟨i1.frame (Frame.setClock _ _ _), hinc, i3, i4, i5, i6⟩

/-- A new scheduler. -/
theorem DefaultSched.new (g : Graph α) (hg : Dict.WF g) (hc : ¬ HasCycle g)
    (hs : ∀ n, ¬ Edge g n n) (id : Option κ) (unit : Rat) (w : World α κ W) :
    DefaultSched (Sys.new g .standard id unit w) := by
  obtain ⟨p1, p2, p3⟩ := C01_partition g hg hc
  refine ⟨p1, p2, ?_, ?_, fun n hn => .inl rfl, fun p hp => absurd hp (List.not_mem_nil)⟩
  · intro n
    show n ∈ (queueOf (baseGraph g)).flatten ↔ n ∈ Dict.keys (baseGraph g)
    rw [p3, baseGraph_keys g hg]
  · intro j n hj
    have hn : n ∈ Dict.keys (baseGraph g) := (baseGraph_keys g hg n).2 ((p3 n).1 (At.mem hj))
    obtain ⟨deps, hd⟩ := Option.isSome_iff_exists.1 (Dict.get?_isSome.2 hn)
    refine ⟨deps, hd, fun d hdd => ?_⟩
    have he : Edge g d n := (baseGraph_edge g hg d n).1
      ((edge_iff_get? (baseGraph_wf g) _ _).2 ⟨deps, hd, hdd⟩)
    have hne : d ≠ n := by rintro rfl; exact hs _ he
    have hdn : d ∈ (queueOf (baseGraph g)).flatten := by
      rw [p3]; obtain ⟨p, hp, _, h2⟩ := he; exact .inr ⟨p, hp, h2⟩
    obtain ⟨i, hi⟩ := exists_at hdn
    exact ⟨i, C02_senders_first g hg hc d n he hne i j hi hj, hi⟩

/-! ## Runs that begin -/

/-- The counters of `a.id` can be initialised. -/
def Spec.CanBegin (a : RunArgs α κ W) (s : Sys α κ W) : Prop :=
  Known a.id s ∨ a.base = none ∨ ∃ b, a.base = some b ∧ Known b s

theorem Sys.initCounts_begin (hs : Synced s) (hc : (Dict.get? s.clocks a.id).isSome)
    (hk : CanBegin a s) : ∃ s', s.initCounts a.id a.base = (s', none) ∧ Known a.id s' := by
  rcases Sys.initCounts_all hs hc (base := a.base) with ⟨s', h1, _, h2⟩ | ⟨_, h2, b, h3, h4⟩
  · exact ⟨s', h1, h2⟩
  · rcases hk with hk | hk | ⟨b', hb, hk⟩
    · have := hk.total; rw [h2] at this; cases this
    · rw [hk] at h3; cases h3
    · rw [hb] at h3; cases h3
      have := hk.total; rw [h4] at this; cases this

/-- A run begins if the graph is acyclic, the counters can be initialised and the time
unit can be computed. -/
theorem Sys.start_runs (hs : Synced s) {s1} (hv : s.validateRunState = (s1, none))
    (hk : CanBegin a s)
    (hu : s1.absoluteConds a = [] ∨ ∃ u, s1.absoluteUnit (s1.absoluteConds a) = .ok u) :
    ∃ s', s.start a = (s', .ok (decide (s1.absoluteConds a ≠ []))) := by
  have hview : s1.toView = s.toView := by
    obtain ⟨_, cs, st, rfl⟩ := Sys.validateRunState_ok hv
    rfl
  have hab : (s1.getClock a.id).absoluteConds a = s1.absoluteConds a := by
    unfold Sys.getClock; split <;> rfl
  have hun : ∀ cs, (s1.getClock a.id).absoluteUnit cs = s1.absoluteUnit cs := by
    intro cs; unfold Sys.getClock; split <;> rfl
  have hset : ∃ c, (s1.getClock a.id).setupAbsolute a =
      ((s1.getClock a.id).setClock a.id c, .ok (decide (s1.absoluteConds a ≠ []))) := by
    unfold Sys.setupAbsolute
    dsimp only
    rw [hab]
    by_cases he : s1.absoluteConds a = []
    · rw [if_pos he]; exact ⟨_, by simp only [he, ne_eq, not_true_eq_false, decide_false]; rfl⟩
    · rw [if_neg he]
      obtain ⟨u, hu⟩ := hu.resolve_left he
      rw [hun, hu]
      exact ⟨_, by simp only [he, ne_eq, not_false_eq_true, decide_true]; rfl⟩
  obtain ⟨c, hc⟩ := hset
  have e1 : ∀ i, Dict.get? ((s1.getClock a.id).setClock a.id c).countsTotal i =
      Dict.get? s.countsTotal i := by
    intro i; unfold Sys.getClock; split <;> simp [Sys.setClock, hview]
  have e2 : ∀ i, Dict.get? ((s1.getClock a.id).setClock a.id c).countsUseable i =
      Dict.get? s.countsUseable i := by
    intro i; unfold Sys.getClock; split <;> simp [Sys.setClock, hview]
  have e3 : ∀ i, Dict.get? ((s1.getClock a.id).setClock a.id c).execList i =
      Dict.get? s.execList i := by
    intro i; unfold Sys.getClock; split <;> simp [Sys.setClock, hview]
  have hsy : Synced ((s1.getClock a.id).setClock a.id c) := by
    intro i; rw [e1, e2, e3]; exact hs i
  have kn : ∀ i, Known i s → Known i ((s1.getClock a.id).setClock a.id c) := by
    intro i h; exact ⟨by rw [e1]; exact h.total, by rw [e2]; exact h.useable, by rw [e3]; exact h.list⟩
  have hcb : CanBegin a ((s1.getClock a.id).setClock a.id c) := by
    rcases hk with h | h | ⟨b, h1, h2⟩
    · exact .inl (kn _ h)
    · exact .inr (.inl h)
    · exact .inr (.inr ⟨b, h1, kn _ h2⟩)
  obtain ⟨s3, h3, hk3⟩ := Sys.initCounts_begin hsy (by simp [Sys.setClock, Dict.get?_set_self]) hcb
  obtain ⟨f, hf⟩ := Option.isSome_iff_exists.1 hk3.total
  unfold Sys.start
  rw [hv]
  dsimp only
  rw [hc]
  dsimp only
  rw [h3]
  dsimp only
  unfold Sys.resetTotal
  rw [show Dict.get? (s3.resetUseable a.id).countsTotal a.id = some f from hf]
  exact ⟨_, rfl⟩

theorem DefaultSched.start (h : DefaultSched s) (hs : Synced s) {q} (ht : toposort s.graph = .ok q)
    (ha : DefaultTermination a) (ho : ∀ c ∈ a.others, c.isAbsolute = false) (hk : CanBegin a s) :
    ∃ s', s.start a = (s', .ok false) := by
  have hno := validateConditions_total s.nodes s h.graphSome
  rcases hv : Sys.validateConditions s.nodes s with ⟨s1, r⟩
  rw [hv] at hno
  have hr : r = none := hno
  subst hr
  have hv' : s.validateRunState = (s1, none) := by
    unfold Sys.validateRunState; rw [ht]; exact hv
  have hpl := h.validate.plain
  rw [hv'] at hpl
  have hab : s1.absoluteConds a = [] := by
    unfold Sys.absoluteConds
    rw [List.filter_eq_nil_iff]
    obtain ⟨o, o', h1, h2⟩ := ha
    intro c hc
    rcases List.mem_append.1 hc with hc | hc
    · obtain ⟨p, hp, rfl⟩ := List.mem_map.1 hc
      simp [hpl p hp]
    · rcases List.mem_cons.1 hc with rfl | hc
      · rw [h2]; simp [Cond.isAbsolute, Leaf.isAbsolute]
      · rcases List.mem_cons.1 hc with rfl | hc
        · rw [h1]; simp [Cond.isAbsolute, Leaf.isAbsolute]
        · simp [ho c hc]
  obtain ⟨s', h'⟩ := Sys.start_runs hs hv' hk (.inl hab)
  exact ⟨s', by rw [h']; simp [hab]⟩

end GS
