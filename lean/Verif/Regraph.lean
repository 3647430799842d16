import Verif.Spec.Regraph
import Verif.Props.Order
/-!
# Lemmas: schedulers that differ in the graph only
-/

set_option linter.unusedSectionVars false

namespace GS
open Spec
variable {α κ W : Type _} [DecidableEq α] [DecidableEq κ]
variable {s s0 s1 : Sys α κ W} {a : RunArgs α κ W} {abs : Bool} {g : Graph α}
variable {w : List (List α) → World α κ W} {h : History α κ W} {pc : PC α}

theorem evalLeaf_blind (v : View α κ W) (g : Graph α) (id : Option κ) (o x : _) (k : Leaf α κ W)
    (hk : Blind (.leaf x k)) : evalLeaf { v with graph := g } id o k = evalLeaf v id o k := by
  cases k with
  | func f => simp only [evalLeaf]; exact hk v g id o
  | afterNCallsCombined ds n ts =>
    have : ∀ ds : List α, sumCalls { v with graph := g } id ts ds = sumCalls v id ts ds := by
      intro ds; induction ds with
      | nil => rfl
      | cons d ds ih => simp only [sumCalls, ih]; rfl
    simp only [evalLeaf, this]
  | allHaveRun ds ts =>
    have : ∀ ds : List α, allHaveRunFunc { v with graph := g } id ts ds = allHaveRunFunc v id ts ds := by
      intro ds; induction ds with
      | nil => rfl
      | cons d ds ih => simp only [allHaveRunFunc, ih]; rfl
    simp only [evalLeaf, this]
  | whenFinishedAny ds =>
    have : ∀ ds : List α, finishedAny { v with graph := g } id ds = finishedAny v id ds := by
      intro ds; induction ds with
      | nil => rfl
      | cons d ds ih => simp only [finishedAny, ih]; rfl
    simp only [evalLeaf, this]
  | whenFinishedAll ds =>
    have : ∀ ds : List α, finishedAll { v with graph := g } id ds = finishedAll v id ds := by
      intro ds; induction ds with
      | nil => rfl
      | cons d ds ih => simp only [finishedAll, ih]; rfl
    simp only [evalLeaf, this]
  | _ => rfl

mutual
theorem eval_blind (v : View α κ W) (g : Graph α) (id : Option κ) : ∀ (c : Cond α κ W) (st : Store α κ),
    Blind c → eval { v with graph := g } id c st = eval v id c st
  | .leaf o k, st, h => by simp only [eval]; rw [evalLeaf_blind v g id _ o k h]
  | .whileNot o f, st, h => by
    have h : BlindFn f := h
    simp only [eval, h v g id]
  | .all _ cs, st, h => by simp only [eval]; exact evalAll_blind v g id cs st h
  | .any _ cs, st, h => by simp only [eval]; exact evalAny_blind v g id cs st h
  | .not _ c, st, h => by simp only [eval]; rw [eval_blind v g id c st h]
  | .nwhen _ c _, st, h => by simp only [eval]; rw [eval_blind v g id c st h]
theorem evalAll_blind (v : View α κ W) (g : Graph α) (id : Option κ) : ∀ (cs : List (Cond α κ W)) (st : Store α κ),
    BlindAll cs → evalAll { v with graph := g } id cs st = evalAll v id cs st
  | [], st, _ => by simp only [evalAll]
  | c :: cs, st, h => by
    simp only [evalAll]
    rw [eval_blind v g id c st h.1]
    split <;> first | exact evalAll_blind v g id cs _ h.2 | rfl
theorem evalAny_blind (v : View α κ W) (g : Graph α) (id : Option κ) : ∀ (cs : List (Cond α κ W)) (st : Store α κ),
    BlindAll cs → evalAny { v with graph := g } id cs st = evalAny v id cs st
  | [], st, _ => by simp only [evalAny]
  | c :: cs, st, h => by
    simp only [evalAny]
    rw [eval_blind v g id c st h.1]
    split <;> first | exact evalAny_blind v g id cs _ h.2 | rfl
end

theorem evalCond_withGraph {id : Option κ} {c : Cond α κ W} (hc : Blind c) :
    (withGraph g s).evalCond id c = (withGraph g (s.evalCond id c).1, (s.evalCond id c).2) := by
  unfold Sys.evalCond
  have : eval (withGraph g s).toView id c (withGraph g s).store = eval s.toView id c s.store :=
    eval_blind s.toView g id c s.store hc
  rw [this]; rfl

theorem continues_withGraph (ha : AllBlind a s) :
    (withGraph g s).continues a = (withGraph g (s.continues a).1, (s.continues a).2) := by
  unfold Sys.continues
  rw [evalCond_withGraph ha.2.1]
  cases h1 : s.evalCond a.id a.esu with
  | mk s1 r =>
    cases r with
    | error e => rfl
    | ok b =>
      cases b with
      | true => rfl
      | false =>
        simp only
        rw [evalCond_withGraph ha.2.2]
        cases h2 : s1.evalCond a.id a.seq with
        | mk s2 r => cases r <;> rfl

theorem incr_withGraph (id : Option κ) (ts : TimeScale) :
    (withGraph g s).incrClock id ts = (s.incrClock id ts).map (withGraph g) := by
  unfold Sys.incrClock
  have : (withGraph g s).toView.clock id = s.toView.clock id := rfl
  rw [this]
  cases (s.clock id).incr ts <;> rfl

theorem record_withGraph (id : Option κ) (abs : Bool) (e : List α) :
    (withGraph g s).record id abs e = (withGraph g (s.record id abs e).1, (s.record id abs e).2) := by
  unfold Sys.record
  have : (withGraph g s).execList = s.execList := rfl
  rw [this]
  cases Dict.get? s.execList id with
  | none => rfl
  | some l =>
    cases abs with
    | false => rfl
    | true =>
      simp only [if_true]
      have : (withGraph g s).timestamps = s.timestamps := rfl
      rw [this]
      cases Dict.get? s.timestamps id <;> rfl

theorem fire_withGraph (id : Option κ) (n : α) :
    (withGraph g s).fire id n = (s.fire id n).map (withGraph g) := by
  unfold Sys.fire
  have e1 : (withGraph g s).countsTotal = s.countsTotal := rfl
  have e2 : (withGraph g s).countsUseable = s.countsUseable := rfl
  have e3 : (withGraph g s).nodes = s.nodes := rfl
  rw [e1, e2, e3]
  cases Dict.get? s.countsTotal id with
  | none => rfl
  | some f =>
    simp only
    split
    · cases Dict.get? s.countsUseable id <;> rfl
    · rfl

theorem considerNode_withGraph (ha : AllBlind a s) (id : Option κ) (n : α) :
    (withGraph g s).considerNode id n = (withGraph g (s.considerNode id n).1, (s.considerNode id n).2) := by
  unfold Sys.considerNode
  have : (withGraph g s).conds = s.conds := rfl
  rw [this]
  cases hc : Dict.get? s.conds n with
  | none => rfl
  | some c =>
    simp only
    rw [evalCond_withGraph (ha.1 n c hc)]
    cases h1 : s.evalCond id c with
    | mk s1 r =>
      cases r with
      | error e => rfl
      | ok b =>
        cases b with
        | false => rfl
        | true =>
          simp only
          rw [fire_withGraph]
          cases s1.fire id n <;> rfl

/-- A step does not depend on the graph. -/
theorem step_withGraph (ha : AllBlind a s) (pc : PC α) :
    (withGraph g s).step a abs pc = (withGraph g (s.step a abs pc).1, (s.step a abs pc).2) := by
  have endPass : ∀ (s : Sys α κ W) (ch : Bool), (withGraph g s).endPass a abs ch =
      (withGraph g (s.endPass a abs ch).1, (s.endPass a abs ch).2) := by
    intro s ch
    unfold Sys.endPass
    rw [record_withGraph, incr_withGraph]
    split
    · cases h1 : s.record a.id false [] with
      | mk s1 r => cases r <;> rfl
    · cases s.incrClock a.id .pass <;> rfl
  have kept : ∀ {s1 : Sys α κ W} {r}, s.continues a = (s1, r) → AllBlind a s1 := by
    intro s1 r h1
    refine ⟨fun n c hc => ha.1 n c ?_, ha.2⟩
    unfold Sys.continues at h1
    have e : ∀ (s : Sys α κ W) c, (s.evalCond a.id c).1.conds = s.conds := fun _ _ => rfl
    revert h1
    cases h2 : s.evalCond a.id a.esu with
    | mk s2 r2 =>
      have e2 : s2.conds = s.conds := by rw [← e s a.esu, h2]
      cases r2 with
      | error x => intro h1; cases h1; rw [← e2]; exact hc
      | ok b =>
        cases b with
        | true => intro h1; cases h1; rw [← e2]; exact hc
        | false =>
          simp only
          cases h3 : s2.evalCond a.id a.seq with
          | mk s3 r3 =>
            have e3 : s3.conds = s2.conds := by rw [← e s2 a.seq, h3]
            cases r3 <;> (intro h1; cases h1; rw [← e2, ← e3]; exact hc)
  cases pc with
  | outer =>
    unfold Sys.step
    simp only
    rw [continues_withGraph ha]
    cases h1 : s.continues a with
    | mk s1 r =>
      cases r with
      | error e => rfl
      | ok b =>
        cases b with
        | false =>
          simp only
          unfold Sys.finish
          rw [incr_withGraph]
          have hk := (kept h1).2.2
          cases a.skip with
          | true =>
            simp only [if_true]
            rw [evalCond_withGraph hk]
            cases h2 : s1.evalCond a.id a.seq with
            | mk s2 r => cases r <;> rfl
          | false =>
            simp only [Bool.false_eq_true, if_false]
            cases s1.incrClock a.id .environment_state_update with
            | error e => rfl
            | ok s2 =>
              simp only [Except.map]
              rw [evalCond_withGraph hk]
              cases h2 : s2.evalCond a.id a.seq with
              | mk s3 r => cases r <;> rfl
        | true =>
          simp only
          unfold Sys.resetTotal
          have : (withGraph g s1).countsTotal = s1.countsTotal := rfl
          rw [this]
          cases Dict.get? s1.countsTotal a.id <;> rfl
  | inner idx ch =>
    unfold Sys.step
    simp only
    have : (withGraph g s).queue = s.queue := rfl
    rw [this]
    cases s.queue[idx]? with
    | none => exact endPass s ch
    | some layer =>
      simp only
      rw [continues_withGraph ha]
      cases h1 : s.continues a with
      | mk s1 r =>
        cases r with
        | error e => rfl
        | ok b =>
          cases b with
          | false => exact endPass s1 ch
          | true => rfl
  | choosing c =>
    unfold Sys.step Sys.choose
    simp only
    cases c.todo with
    | nil =>
      simp only
      split
      · rfl
      · unfold Sys.endChoice
        simp only
        rw [record_withGraph]
        split
        · cases h1 : s.record a.id abs c.exec with
          | mk s1 r => cases r <;> rfl
        · rfl
    | cons n ns =>
      simp only
      split
      · rfl
      · rw [considerNode_withGraph ha]
        cases h1 : s.considerNode a.id n with
        | mk s1 r =>
          cases r with
          | error e => rfl
          | ok b => cases b <;> rfl
  | yielded idx ch =>
    unfold Sys.step
    simp only
    rw [incr_withGraph]
    cases s.incrClock a.id .consideration_set_execution <;> rfl
  | yieldedEmpty =>
    unfold Sys.step
    simp only
    rw [incr_withGraph]
    cases s.incrClock a.id .consideration_set_execution with
    | error e => rfl
    | ok s1 =>
      simp only [Except.map]
      rw [incr_withGraph]
      cases s1.incrClock a.id .pass <;> rfl
  | returned => rfl
  | raised e => rfl

theorem validate_given (ns : List α) (s : Sys α κ W) (hn : ∀ n ∈ ns, Dict.get? s.conds n ≠ none) :
    Sys.validateConditions ns s = (s, none) := by
  induction ns with
  | nil => rfl
  | cons n ns ih =>
    unfold Sys.validateConditions
    cases hc : Dict.get? s.conds n with
    | none => exact absurd hc (hn n (by simp))
    | some c => exact ih fun m hm => hn m (by simp [hm])

/-- The start of a run, when each node has a condition. -/
theorem start_withGraph {q q' : List (List α)} (hn : ∀ n ∈ s.nodes, Dict.get? s.conds n ≠ none)
    (hq : toposort s.graph = .ok q) (hq' : toposort g = .ok q') :
    (withGraph g s).start a = (withGraph g (s.start a).1, (s.start a).2) := by
  unfold Sys.start Sys.validateRunState
  have e1 : (withGraph g s).graph = g := rfl
  rw [e1, hq, hq']
  simp only
  rw [validate_given s.nodes s hn, show Sys.validateConditions (withGraph g s).nodes (withGraph g s) = (withGraph g s, none) from
    validate_given s.nodes (withGraph g s) hn]
  simp only
  have e2 : (withGraph g s).getClock a.id = withGraph g (s.getClock a.id) := by
    unfold Sys.getClock
    have : (withGraph g s).clocks = s.clocks := rfl
    rw [this]
    cases Dict.get? s.clocks a.id <;> rfl
  rw [e2]
  generalize s.getClock a.id = s1
  have e3 : (withGraph g s1).setupAbsolute a = (withGraph g (s1.setupAbsolute a).1, (s1.setupAbsolute a).2) := by
    unfold Sys.setupAbsolute
    have e4 : (withGraph g s1).absoluteConds a = s1.absoluteConds a := rfl
    have e5 : ∀ cs, (withGraph g s1).absoluteUnit cs = s1.absoluteUnit cs := fun _ => rfl
    have e6 : (withGraph g s1).toView.clock a.id = s1.toView.clock a.id := rfl
    simp only [e4, e5, e6]
    split
    · rfl
    · cases s1.absoluteUnit (s1.absoluteConds a) <;> rfl
  rw [e3]
  cases h1 : s1.setupAbsolute a with
  | mk s2 r =>
    cases r with
    | error e => rfl
    | ok b =>
      simp only
      have e4 : ∀ s : Sys α κ W, (withGraph g s).initTotal a.id a.base = (s.initTotal a.id a.base).map (withGraph g) := by
        intro s
        unfold Sys.initTotal
        have : (withGraph g s).countsTotal = s.countsTotal := rfl
        rw [this]
        cases Dict.get? s.countsTotal a.id with
        | some _ => rfl
        | none =>
          cases a.base with
          | none => rfl
          | some b => simp only; cases Dict.get? s.countsTotal b <;> rfl
      have e5 : ∀ s : Sys α κ W, (withGraph g s).initUseable a.id a.base = (s.initUseable a.id a.base).map (withGraph g) := by
        intro s
        unfold Sys.initUseable
        have : (withGraph g s).countsUseable = s.countsUseable := rfl
        rw [this]
        cases Dict.get? s.countsUseable a.id with
        | some _ => rfl
        | none =>
          cases a.base with
          | none => rfl
          | some b => simp only; cases Dict.get? s.countsUseable b <;> rfl
      have e6 : ∀ s : Sys α κ W, (withGraph g s).initList a.id a.base = (s.initList a.id a.base).map (withGraph g) := by
        intro s
        unfold Sys.initList
        have : (withGraph g s).execList = s.execList := rfl
        rw [this]
        cases Dict.get? s.execList a.id with
        | some _ => rfl
        | none =>
          cases a.base with
          | none => rfl
          | some b => simp only; cases Dict.get? s.execList b <;> rfl
      have e7 : ∀ s : Sys α κ W, (withGraph g s).initClock a.id a.base = (s.initClock a.id a.base).map (withGraph g) := by
        intro s
        unfold Sys.initClock
        have : (withGraph g s).clocks = s.clocks := rfl
        rw [this]
        cases Dict.get? s.clocks a.id with
        | some _ => rfl
        | none =>
          cases a.base with
          | none => rfl
          | some b => simp only; cases Dict.get? s.clocks b <;> rfl
      have e8 : (withGraph g s2).initCounts a.id a.base =
          (withGraph g (s2.initCounts a.id a.base).1, (s2.initCounts a.id a.base).2) := by
        unfold Sys.initCounts
        rw [e4]
        cases s2.initTotal a.id a.base with
        | error e => rfl
        | ok x =>
          simp only [Except.map]
          rw [e5]
          cases x.initUseable a.id a.base with
          | error e => rfl
          | ok x =>
            simp only [Except.map]
            rw [e6]
            cases x.initList a.id a.base with
            | error e => rfl
            | ok x =>
              simp only [Except.map]
              rw [e7]
              cases x.initClock a.id a.base <;> rfl
      rw [e8]
      cases h2 : s2.initCounts a.id a.base with
      | mk s3 r =>
        cases r with
        | some e => rfl
        | none =>
          simp only
          unfold Sys.resetTotal
          have : ((withGraph g s3).resetUseable a.id).countsTotal = (s3.resetUseable a.id).countsTotal := rfl
          rw [this]
          cases Dict.get? (s3.resetUseable a.id).countsTotal a.id <;> rfl

theorem resumed_withGraph (ys : List (List α)) (pc : PC α) :
    resumed w ys (withGraph g s) pc = withGraph g (resumed w ys s pc) := by
  unfold resumed; split <;> rfl

end GS
