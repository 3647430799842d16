import Verif.OrderBig
import Verif.RunDefault
import Verif.Isolate
/-!
# The beginning of runs that differ in the iteration order of sets, and their progress
-/

set_option linter.unusedSectionVars false

namespace GS
open Spec
variable {α κ W : Type _} [DecidableEq α] [DecidableEq κ]
variable {a : RunArgs α κ W} {abs : Bool} {s0 s0' s s' t t' : Sys α κ W}
variable {w : List (List α) → World α κ W} {h h' : History α κ W} {pc pc' : PC α}

namespace Sys

/-- The scheduler with another consideration queue. -/
def withQueue (s : Sys α κ W) (q : List (List α)) : Sys α κ W := { s with queue := q }

variable (q : List (List α))

theorem validateConditions_queue : ∀ (ns : List α) (s : Sys α κ W),
    validateConditions ns (s.withQueue q) =
      ((validateConditions ns s).1.withQueue q, (validateConditions ns s).2)
  | [], s => rfl
  | n :: ns, s => by
    simp only [validateConditions]
    have e1 : (s.withQueue q).conds = s.conds := rfl
    have e2 : (s.withQueue q).graph = s.graph := rfl
    rw [e1, e2]
    cases Dict.get? s.conds n with
    | some c => exact validateConditions_queue ns s
    | none =>
      cases Dict.get? s.graph n with
      | none => rfl
      | some deps =>
        exact validateConditions_queue ns
          ((s.alloc (deps.length + 1)).addBasic n (defaultCond s.store.fresh deps))

theorem validateRunState_queue (s : Sys α κ W) :
    (s.withQueue q).validateRunState = (s.validateRunState.1.withQueue q, s.validateRunState.2) := by
  unfold validateRunState
  have e2 : (s.withQueue q).graph = s.graph := rfl
  rw [e2]
  cases toposort s.graph with
  | error e => rfl
  | ok _ => exact validateConditions_queue q _ s

theorem getClock_queue (s : Sys α κ W) (id : Option κ) :
    (s.withQueue q).getClock id = (s.getClock id).withQueue q := by
  unfold getClock
  have e2 : (s.withQueue q).clocks = s.clocks := rfl
  rw [e2]
  cases Dict.get? s.clocks id <;> rfl

theorem setupAbsolute_queue (s : Sys α κ W) (hq : q.length = s.queue.length) :
    (s.withQueue q).setupAbsolute a = ((s.setupAbsolute a).1.withQueue q, (s.setupAbsolute a).2) := by
  have e1 : (s.withQueue q).absoluteConds a = s.absoluteConds a := rfl
  have e2 : ∀ cs, (s.withQueue q).absoluteUnit cs = s.absoluteUnit cs := by
    intro cs
    have e3 : (s.withQueue q).queue = q := rfl
    have e4 : (s.withQueue q).mode = s.mode := rfl
    have e5 : (s.withQueue q).defaultUnit = s.defaultUnit := rfl
    simp only [absoluteUnit, e3, e4, e5, hq]
  have e3 : (s.withQueue q).clock a.id = s.clock a.id := rfl
  unfold setupAbsolute
  rw [e1, e3]
  simp only [e2]
  split
  · rfl
  · cases s.absoluteUnit (s.absoluteConds a) <;> rfl

theorem initTotal_queue (s : Sys α κ W) (id base) :
    (s.withQueue q).initTotal id base = (s.initTotal id base).map fun s => s.withQueue q := by
  unfold initTotal
  have e : (s.withQueue q).countsTotal = s.countsTotal := rfl
  rw [e]
  cases Dict.get? s.countsTotal id with
  | some _ => rfl
  | none =>
    cases base with
    | none => rfl
    | some b => dsimp only; cases Dict.get? s.countsTotal b <;> rfl

theorem initUseable_queue (s : Sys α κ W) (id base) :
    (s.withQueue q).initUseable id base = (s.initUseable id base).map fun s => s.withQueue q := by
  unfold initUseable
  have e : (s.withQueue q).countsUseable = s.countsUseable := rfl
  rw [e]
  cases Dict.get? s.countsUseable id with
  | some _ => rfl
  | none =>
    cases base with
    | none => rfl
    | some b => dsimp only; cases Dict.get? s.countsUseable b <;> rfl

theorem initList_queue (s : Sys α κ W) (id base) :
    (s.withQueue q).initList id base = (s.initList id base).map fun s => s.withQueue q := by
  unfold initList
  have e : (s.withQueue q).execList = s.execList := rfl
  rw [e]
  cases Dict.get? s.execList id with
  | some _ => rfl
  | none =>
    cases base with
    | none => rfl
    | some b => dsimp only; cases Dict.get? s.execList b <;> rfl

theorem initClock_queue (s : Sys α κ W) (id base) :
    (s.withQueue q).initClock id base = (s.initClock id base).map fun s => s.withQueue q := by
  unfold initClock
  have e : (s.withQueue q).clocks = s.clocks := rfl
  rw [e]
  cases Dict.get? s.clocks id with
  | some _ => rfl
  | none =>
    cases base with
    | none => rfl
    | some b => dsimp only; cases Dict.get? s.clocks b <;> rfl

theorem initCounts_queue (s : Sys α κ W) (id base) :
    (s.withQueue q).initCounts id base = ((s.initCounts id base).1.withQueue q, (s.initCounts id base).2) := by
  unfold initCounts
  rw [initTotal_queue]
  cases s.initTotal id base with
  | error e => rfl
  | ok s1 =>
    dsimp only [Except.map]
    rw [initUseable_queue]
    cases s1.initUseable id base with
    | error e => rfl
    | ok s2 =>
      dsimp only [Except.map]
      rw [initList_queue]
      cases s2.initList id base with
      | error e => rfl
      | ok s3 =>
        dsimp only [Except.map]
        rw [initClock_queue]
        cases s3.initClock id base <;> rfl

theorem resetTotal_queue (s : Sys α κ W) (ts id) :
    (s.withQueue q).resetTotal ts id = (s.resetTotal ts id).map fun s => s.withQueue q := by
  unfold resetTotal
  have e : (s.withQueue q).countsTotal = s.countsTotal := rfl
  rw [e]
  cases Dict.get? s.countsTotal id <;> rfl

theorem start_queue (s : Sys α κ W) (hq : q.length = s.queue.length) :
    (s.withQueue q).start a = ((s.start a).1.withQueue q, (s.start a).2) := by
  unfold start
  rw [validateRunState_queue]
  have hv : s.validateRunState.1.queue = s.queue := by
    unfold validateRunState
    cases toposort s.graph with
    | error e => rfl
    | ok _ => exact congrArg View.queue (validateConditions_view _ s)
  rcases hs : s.validateRunState with ⟨s1, e | e⟩
  · rw [hs] at hv
    dsimp only at hv ⊢
    rw [getClock_queue]
    have hg : (s1.getClock a.id).queue = s.queue := by
      rw [← hv]; unfold getClock; cases Dict.get? s1.clocks a.id <;> rfl
    rw [setupAbsolute_queue q _ (by rw [hg]; exact hq)]
    rcases (s1.getClock a.id).setupAbsolute a with ⟨s2, e | b⟩
    · rfl
    · dsimp only
      rw [initCounts_queue]
      rcases s2.initCounts a.id a.base with ⟨s3, e | e⟩
      · dsimp only
        have e1 : (s3.withQueue q).resetUseable a.id = (s3.resetUseable a.id).withQueue q := rfl
        rw [e1, resetTotal_queue]
        cases (s3.resetUseable a.id).resetTotal .environment_state_update a.id <;> rfl
      · rfl
  · rfl

end Sys

/-- Runs of the same scheduler with different orders begin in corresponding states. -/
theorem Spec.Reordered.start (hq : Reordered s0 s0') (hs : s0.start a = (t, .ok abs))
    (hs' : s0'.start a = (t', .ok abs)) : Corr a (NotTogether s0.queue) t t' := by
  obtain ⟨e, hqs⟩ := hq
  have h1 := Sys.start_queue (a := a) s0'.queue s0 hqs.length
  have e' : s0' = s0.withQueue s0'.queue := e
  rw [← e', hs, hs'] at h1
  have e1 : t' = t.withQueue s0'.queue := congrArg Prod.fst h1
  have st := Sys.start_ok hs
  have hq1 : t.queue = s0.queue := st.queue
  obtain ⟨l, hl, _⟩ := st.list
  obtain ⟨f, hf, _⟩ := st.total
  subst e1
  refine ⟨rfl, rfl, ?_, rfl, rfl, rfl, rfl, ⟨l, l, hl, hl, .refl _⟩, ⟨f, hf, hf⟩,
    ⟨_, _, st.useable, st.useable, fun _ _ _ => rfl⟩⟩
  rw [hq1]; exact hqs

theorem Spec.Reordered.startOk (hq : Reordered s0 s0') (hs : s0.start a = (t, .ok abs)) :
    ∃ t', s0'.start a = (t', .ok abs) := by
  obtain ⟨e, hqs⟩ := hq
  have h1 := Sys.start_queue (a := a) s0'.queue s0 hqs.length
  have e' : s0' = s0.withQueue s0'.queue := e
  rw [← e', hs] at h1
  exact ⟨_, h1⟩

/-! ## Progress -/

/-- A run with a consumer that sets the outside world is a run. -/
theorem Spec.Scripted.reach (hr : Scripted w a s0 abs h s pc) :
    Reach (fun s s' => ∃ w, s' = { s with world := w }) a s0 abs h s pc := by
  induction hr with
  | start hs => exact .start hs
  | @step h s s' pc pc' ev _ hs ih =>
    cases hp : pc.suspended with
    | false =>
      have e : resumed w (yields h) s pc = s := resumed_not hp
      rw [e] at hs ⊢
      exact .step ih hs
    | true =>
      refine .step ?_ hs
      refine .env ih hp ⟨w (yields h), ?_⟩
      unfold resumed; simp [hp]

/-- The choice of a set ends. -/
theorem Spec.Scripted.choiceEnds {s1 : Sys α κ W} {c0 : Choice α} (m : Nat) :
    ∀ {h : History α κ W} {s : Sys α κ W} {c : Choice α}, Scripted w a s0 abs h s (.choosing c) →
      Choosing a abs s1 c0 s c → choiceCost c ≤ m →
      ∃ h' s2 c' s' pc' ev, Scripted w a s0 abs h' s' pc' ∧ Choosing a abs s1 c0 s2 c' ∧
        StepR a abs s2 (.choosing c') s' pc' ev ∧ pc'.busy = false ∧
        yields h' = yields h ++ (ev.bind Event.yield?).toList := by
  induction m using Nat.strongRecOn with
  | _ m ih =>
  intro h s c hr hc hm
  rcases hs : s.step a abs (.choosing c) with ⟨s', pc', ev⟩
  have hst := Sys.step_stepR hs
  have hs0 : (resumed w (yields h) s (.choosing c)).step a abs (.choosing c) = (s', pc', ev) := by
    rw [resumed_not rfl]; exact hs
  have hr' := Scripted.step hr hs0
  cases hb : pc'.busy with
  | false => exact ⟨_, s, c, s', pc', ev, hr', hc, hst, hb, yields_ext _ _ _ _⟩
  | true =>
    cases pc' with
    | choosing c' =>
      have hlt : choiceCost c' < choiceCost c := by
        cases hst with
        | again ht hag => simp only [choiceCost, ht, hag]; simp
        | skip ht hn => simp only [choiceCost, ht, List.length_cons]; omega
        | reject ht hn => simp only [choiceCost, ht, List.length_cons]; omega
        | @add _ n ns cond st f u ht hn =>
          have ci := hr.reach.choice c rfl
          obtain ⟨d, hd⟩ := ci.todo
          have := choiceCost_decr ci.nodup ci.sub (by rw [hd, ht]; simp) ht hn
          omega
      obtain ⟨h2, s2, c2, s3, p3, e3, k1, k2, k3, k4, k5⟩ :=
        ih _ (Nat.lt_of_lt_of_le hlt hm) hr' (.step hc hst) (Nat.le_refl _)
      refine ⟨h2, s2, c2, s3, p3, e3, k1, k2, k3, k4, ?_⟩
      rw [k5, yields_ext]
      have : ev.bind Event.yield? = none := by cases hst <;> rfl
      rw [this]; simp
    | _ => cases hb

/-- A run goes on for any number of macro steps. -/
theorem Big.go (hs : s0.start a = (t, .ok abs)) : ∀ n : Nat, ∃ h s pc,
    Scripted w a s0 abs h s pc ∧ pc.busy = false ∧ Big w a s0 abs n (yields h) s pc
  | 0 => ⟨[], t, .outer, .start hs, rfl, .start hs⟩
  | n + 1 => by
    obtain ⟨h, s, pc, h1, h2, h3⟩ := Big.go hs n
    rcases hst : (resumed w (yields h) s pc).step a abs pc with ⟨s', pc', ev⟩
    have hR := Sys.step_stepR hst
    have h1' := Scripted.step h1 hst
    cases hb : pc'.busy with
    | false =>
      refine ⟨_, s', pc', h1', hb, ?_⟩
      rw [yields_ext]
      exact .step h3 (.one hR h2 hb)
    | true =>
      cases pc' with
      | choosing c =>
        cases hR with
        | @consider idx changed st layer hq hg =>
          rw [resumed_not rfl] at hq hg
          have h1'' := h1'
          rw [show resumed w (yields h) s (.inner idx changed) = s from resumed_not rfl] at h1''
          obtain ⟨h4, s4, c4, s5, p5, e5, k1, k2, k3, k4, k5⟩ :=
            h1''.choiceEnds (s1 := s.putStore st) _ .refl (Nat.le_refl _)
          refine ⟨h4, s5, p5, k1, k4, ?_⟩
          have hy : yields h4 = yields h ++ (e5.bind Event.yield?).toList := by
            rw [k5, yields_ext]; simp [Event.yield?]
          rw [hy]
          refine .step h3 ?_
          rw [resumed_not rfl]
          exact .layer hq hg k2 k3 k4
        | again => cases h2
        | skip => cases h2
        | reject => cases h2
        | add => cases h2
      | _ => cases hb

end GS
