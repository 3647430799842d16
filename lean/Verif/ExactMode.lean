import Verif.Spec.ExactMode
import Verif.Regraph
import Verif.EquivStart
import Verif.AbsUnit
import Verif.AliasOps
import Verif.GraphLemmas2
import Verif.Life
/-!
# Lemmas: exact-time mode against standard mode with one consideration set
-/

set_option linter.unusedSectionVars false

namespace GS
open Spec
variable {α κ W : Type _} [DecidableEq α] [DecidableEq κ]
variable {s s0 s1 : Sys α κ W} {a : RunArgs α κ W} {abs : Bool} {g : Graph α}
variable {w : List (List α) → World α κ W} {h : History α κ W} {pc : PC α}

theorem evalLeaf_unmoded (v : View α κ W) (hq : v.queue.length = 1) (g : Graph α) (id : Option κ) (o x : _) (k : Leaf α κ W)
    (hk : Unmoded (.leaf x k)) : evalLeaf { v with mode := .standard, graph := g } id o k = evalLeaf v id o k := by
  cases k with
  | func f => simp only [evalLeaf]; exact hk v .standard g id o
  | afterNCallsCombined ds n ts =>
    have : ∀ ds : List α, sumCalls { v with mode := .standard, graph := g } id ts ds = sumCalls v id ts ds := by
      intro ds; induction ds with
      | nil => rfl
      | cons d ds ih => simp only [sumCalls, ih]; rfl
    simp only [evalLeaf, this]
  | allHaveRun ds ts =>
    have : ∀ ds : List α, allHaveRunFunc { v with mode := .standard, graph := g } id ts ds = allHaveRunFunc v id ts ds := by
      intro ds; induction ds with
      | nil => rfl
      | cons d ds ih => simp only [allHaveRunFunc, ih]; rfl
    simp only [evalLeaf, this]
  | whenFinishedAny ds =>
    have : ∀ ds : List α, finishedAny { v with mode := .standard, graph := g } id ds = finishedAny v id ds := by
      intro ds; induction ds with
      | nil => rfl
      | cons d ds ih => simp only [finishedAny, ih]; rfl
    simp only [evalLeaf, this]
  | whenFinishedAll ds =>
    have : ∀ ds : List α, finishedAll { v with mode := .standard, graph := g } id ds = finishedAll v id ds := by
      intro ds; induction ds with
      | nil => rfl
      | cons d ds ih => simp only [finishedAll, ih]; rfl
    simp only [evalLeaf, this]
  | timeInterval r st fi si ei =>
    have e : View.inExactTimeMode { v with mode := .standard, graph := g } = v.inExactTimeMode := by
      unfold View.inExactTimeMode
      simp [hq]
    show timeIntervalFunc _ id o r st fi si ei = timeIntervalFunc v id o r st fi si ei
    unfold timeIntervalFunc
    rw [e]
    rfl
  | _ => rfl

mutual
theorem eval_unmoded (v : View α κ W) (hq : v.queue.length = 1) (g : Graph α) (id : Option κ) : ∀ (c : Cond α κ W) (st : Store α κ),
    Unmoded c → eval { v with mode := .standard, graph := g } id c st = eval v id c st
  | .leaf o k, st, h => by simp only [eval]; rw [evalLeaf_unmoded v hq g id _ o k h]
  | .whileNot o f, st, h => by
    have h : UnmodedFn f := h
    simp only [eval, h v .standard g id]
  | .all _ cs, st, h => by simp only [eval]; exact evalAll_unmoded v hq g id cs st h
  | .any _ cs, st, h => by simp only [eval]; exact evalAny_unmoded v hq g id cs st h
  | .not _ c, st, h => by simp only [eval]; rw [eval_unmoded v hq g id c st h]
  | .nwhen _ c _, st, h => by simp only [eval]; rw [eval_unmoded v hq g id c st h]
theorem evalAll_unmoded (v : View α κ W) (hq : v.queue.length = 1) (g : Graph α) (id : Option κ) : ∀ (cs : List (Cond α κ W)) (st : Store α κ),
    UnmodedAll cs → evalAll { v with mode := .standard, graph := g } id cs st = evalAll v id cs st
  | [], st, _ => by simp only [evalAll]
  | c :: cs, st, h => by
    simp only [evalAll]
    rw [eval_unmoded v hq g id c st h.1]
    split <;> first | exact evalAll_unmoded v hq g id cs _ h.2 | rfl
theorem evalAny_unmoded (v : View α κ W) (hq : v.queue.length = 1) (g : Graph α) (id : Option κ) : ∀ (cs : List (Cond α κ W)) (st : Store α κ),
    UnmodedAll cs → evalAny { v with mode := .standard, graph := g } id cs st = evalAny v id cs st
  | [], st, _ => by simp only [evalAny]
  | c :: cs, st, h => by
    simp only [evalAny]
    rw [eval_unmoded v hq g id c st h.1]
    split <;> first | exact evalAny_unmoded v hq g id cs _ h.2 | rfl
end

theorem evalCond_inStandard (hq : s.queue.length = 1) {id : Option κ} {c : Cond α κ W} (hc : Unmoded c) :
    (inStandard g s).evalCond id c = (inStandard g (s.evalCond id c).1, (s.evalCond id c).2) := by
  unfold Sys.evalCond
  have : eval (inStandard g s).toView id c (inStandard g s).store = eval s.toView id c s.store :=
    eval_unmoded s.toView hq g id c s.store hc
  rw [this]; rfl

theorem continues_inStandard (hq : s.queue.length = 1) (ha : AllUnmoded a s) :
    (inStandard g s).continues a = (inStandard g (s.continues a).1, (s.continues a).2) := by
  unfold Sys.continues
  rw [evalCond_inStandard hq ha.2.1]
  cases h1 : s.evalCond a.id a.esu with
  | mk s1 r =>
    cases r with
    | error e => rfl
    | ok b =>
      cases b with
      | true => rfl
      | false =>
        simp only
        rw [evalCond_inStandard (by have : s1.queue = s.queue := by rw [show s1 = (s.evalCond a.id a.esu).1 by rw [h1]]; rfl
                                    rw [this]; exact hq) ha.2.2]
        cases h2 : s1.evalCond a.id a.seq with
        | mk s2 r => cases r <;> rfl

theorem incr_inStandard (id : Option κ) (ts : TimeScale) :
    (inStandard g s).incrClock id ts = (s.incrClock id ts).map (inStandard g) := by
  unfold Sys.incrClock
  have : (inStandard g s).toView.clock id = s.toView.clock id := rfl
  rw [this]
  cases (s.clock id).incr ts <;> rfl

theorem record_inStandard (id : Option κ) (abs : Bool) (e : List α) :
    (inStandard g s).record id abs e = (inStandard g (s.record id abs e).1, (s.record id abs e).2) := by
  unfold Sys.record
  have : (inStandard g s).execList = s.execList := rfl
  rw [this]
  cases Dict.get? s.execList id with
  | none => rfl
  | some l =>
    cases abs with
    | false => rfl
    | true =>
      simp only [if_true]
      have : (inStandard g s).timestamps = s.timestamps := rfl
      rw [this]
      cases Dict.get? s.timestamps id <;> rfl

theorem fire_inStandard (id : Option κ) (n : α) :
    (inStandard g s).fire id n = (s.fire id n).map (inStandard g) := by
  unfold Sys.fire
  have e1 : (inStandard g s).countsTotal = s.countsTotal := rfl
  have e2 : (inStandard g s).countsUseable = s.countsUseable := rfl
  have e3 : (inStandard g s).nodes = s.nodes := rfl
  rw [e1, e2, e3]
  cases Dict.get? s.countsTotal id with
  | none => rfl
  | some f =>
    simp only
    split
    · cases Dict.get? s.countsUseable id <;> rfl
    · rfl

theorem considerNode_inStandard (hq : s.queue.length = 1) (ha : AllUnmoded a s) (id : Option κ) (n : α) :
    (inStandard g s).considerNode id n = (inStandard g (s.considerNode id n).1, (s.considerNode id n).2) := by
  unfold Sys.considerNode
  have : (inStandard g s).conds = s.conds := rfl
  rw [this]
  cases hc : Dict.get? s.conds n with
  | none => rfl
  | some c =>
    simp only
    rw [evalCond_inStandard hq (ha.1 n c hc)]
    cases h1 : s.evalCond id c with
    | mk s1 r =>
      cases r with
      | error e => rfl
      | ok b =>
        cases b with
        | false => rfl
        | true =>
          simp only
          rw [fire_inStandard]
          cases s1.fire id n <;> rfl

/-- A step does not depend on the graph. -/
theorem step_inStandard (hq : s.queue.length = 1) (ha : AllUnmoded a s) (pc : PC α) :
    (inStandard g s).step a abs pc = (inStandard g (s.step a abs pc).1, (s.step a abs pc).2) := by
  have endPass : ∀ (s : Sys α κ W) (ch : Bool), (inStandard g s).endPass a abs ch =
      (inStandard g (s.endPass a abs ch).1, (s.endPass a abs ch).2) := by
    intro s ch
    unfold Sys.endPass
    rw [record_inStandard, incr_inStandard]
    split
    · cases h1 : s.record a.id false [] with
      | mk s1 r => cases r <;> rfl
    · cases s.incrClock a.id .pass <;> rfl
  have kept : ∀ {s1 : Sys α κ W} {r}, s.continues a = (s1, r) → s1.queue.length = 1 := by
    intro s1 r h1
    unfold Sys.continues at h1
    have e : ∀ (s : Sys α κ W) c, (s.evalCond a.id c).1.queue = s.queue := fun _ _ => rfl
    revert h1
    cases h2 : s.evalCond a.id a.esu with
    | mk s2 r2 =>
      have e2 : s2.queue.length = 1 := by rw [← hq, ← e s a.esu, h2]
      cases r2 with
      | error x => intro h1; cases h1; exact e2
      | ok b =>
        cases b with
        | true => intro h1; cases h1; exact e2
        | false =>
          simp only
          cases h3 : s2.evalCond a.id a.seq with
          | mk s3 r3 =>
            have e3 : s3.queue.length = 1 := by rw [← e2, ← e s2 a.seq, h3]
            cases r3 <;> (intro h1; cases h1; exact e3)
  cases pc with
  | outer =>
    unfold Sys.step
    simp only
    rw [continues_inStandard hq ha]
    cases h1 : s.continues a with
    | mk s1 r =>
      cases r with
      | error e => rfl
      | ok b =>
        cases b with
        | false =>
          simp only
          unfold Sys.finish
          rw [incr_inStandard]
          have hk := kept h1
          cases a.skip with
          | true =>
            simp only [if_true]
            rw [evalCond_inStandard hk ha.2.2]
            cases h2 : s1.evalCond a.id a.seq with
            | mk s2 r => cases r <;> rfl
          | false =>
            simp only [Bool.false_eq_true, if_false]
            cases hi : s1.incrClock a.id .environment_state_update with
            | error e => rfl
            | ok s2 =>
              have hk2 : s2.queue.length = 1 := by
                unfold Sys.incrClock at hi
                split at hi <;> cases hi
                exact hk
              simp only [Except.map]
              rw [evalCond_inStandard hk2 ha.2.2]
              cases h2 : s2.evalCond a.id a.seq with
              | mk s3 r => cases r <;> rfl
        | true =>
          simp only
          unfold Sys.resetTotal
          have : (inStandard g s1).countsTotal = s1.countsTotal := rfl
          rw [this]
          cases Dict.get? s1.countsTotal a.id <;> rfl
  | inner idx ch =>
    unfold Sys.step
    simp only
    have : (inStandard g s).queue = s.queue := rfl
    rw [this]
    cases s.queue[idx]? with
    | none => exact endPass s ch
    | some layer =>
      simp only
      rw [continues_inStandard hq ha]
      cases h1 : s.continues a with
      | mk s1 r =>
        cases r with
        | error e => rfl
        | ok b =>
          cases b with
          | false => exact endPass s1 ch
          | true => rfl
  | choosing c =>
    unfold Sys.step Sys.choose
    simp only
    cases c.todo with
    | nil =>
      simp only
      split
      · rfl
      · unfold Sys.endChoice
        simp only
        rw [record_inStandard]
        split
        · cases h1 : s.record a.id abs c.exec with
          | mk s1 r => cases r <;> rfl
        · rfl
    | cons n ns =>
      simp only
      split
      · rfl
      · rw [considerNode_inStandard hq ha]
        cases h1 : s.considerNode a.id n with
        | mk s1 r =>
          cases r with
          | error e => rfl
          | ok b => cases b <;> rfl
  | yielded idx ch =>
    unfold Sys.step
    simp only
    rw [incr_inStandard]
    cases s.incrClock a.id .consideration_set_execution <;> rfl
  | yieldedEmpty =>
    unfold Sys.step
    simp only
    rw [incr_inStandard]
    cases s.incrClock a.id .consideration_set_execution with
    | error e => rfl
    | ok s1 =>
      simp only [Except.map]
      rw [incr_inStandard]
      cases s1.incrClock a.id .pass <;> rfl
  | returned => rfl
  | raised e => rfl

/-- The start of a run, when each node has a condition. -/
theorem start_inStandard {q q' : List (List α)} (hn : ∀ n ∈ s.nodes, Dict.get? s.conds n ≠ none)
    (hq : toposort s.graph = .ok q) (hq' : toposort g = .ok q')
    (hu : (inStandard g s).absoluteUnit (s.absoluteConds a) = s.absoluteUnit (s.absoluteConds a)) :
    (inStandard g s).start a = (inStandard g (s.start a).1, (s.start a).2) := by
  unfold Sys.start Sys.validateRunState
  have e1 : (inStandard g s).graph = g := rfl
  rw [e1, hq, hq']
  simp only
  rw [validate_given s.nodes s hn, show Sys.validateConditions (inStandard g s).nodes (inStandard g s) = (inStandard g s, none) from
    validate_given s.nodes (inStandard g s) hn]
  simp only
  have e2 : (inStandard g s).getClock a.id = inStandard g (s.getClock a.id) := by
    unfold Sys.getClock
    have : (inStandard g s).clocks = s.clocks := rfl
    rw [this]
    cases Dict.get? s.clocks a.id <;> rfl
  rw [e2]
  have e5 : (inStandard g (s.getClock a.id)).absoluteUnit ((s.getClock a.id).absoluteConds a) =
      (s.getClock a.id).absoluteUnit ((s.getClock a.id).absoluteConds a) := by
    unfold Sys.getClock
    cases Dict.get? s.clocks a.id <;> exact hu
  generalize s.getClock a.id = s1 at e5
  have e3 : (inStandard g s1).setupAbsolute a = (inStandard g (s1.setupAbsolute a).1, (s1.setupAbsolute a).2) := by
    unfold Sys.setupAbsolute
    have e4 : (inStandard g s1).absoluteConds a = s1.absoluteConds a := rfl
    have e6 : (inStandard g s1).toView.clock a.id = s1.toView.clock a.id := rfl
    simp only [e4, e5, e6]
    split
    · rfl
    · cases s1.absoluteUnit (s1.absoluteConds a) <;> rfl
  rw [e3]
  cases h1 : s1.setupAbsolute a with
  | mk s2 r =>
    cases r with
    | error e => rfl
    | ok b =>
      simp only
      have e4 : ∀ s : Sys α κ W, (inStandard g s).initTotal a.id a.base = (s.initTotal a.id a.base).map (inStandard g) := by
        intro s
        unfold Sys.initTotal
        have : (inStandard g s).countsTotal = s.countsTotal := rfl
        rw [this]
        cases Dict.get? s.countsTotal a.id with
        | some _ => rfl
        | none =>
          cases a.base with
          | none => rfl
          | some b => simp only; cases Dict.get? s.countsTotal b <;> rfl
      have e5 : ∀ s : Sys α κ W, (inStandard g s).initUseable a.id a.base = (s.initUseable a.id a.base).map (inStandard g) := by
        intro s
        unfold Sys.initUseable
        have : (inStandard g s).countsUseable = s.countsUseable := rfl
        rw [this]
        cases Dict.get? s.countsUseable a.id with
        | some _ => rfl
        | none =>
          cases a.base with
          | none => rfl
          | some b => simp only; cases Dict.get? s.countsUseable b <;> rfl
      have e6 : ∀ s : Sys α κ W, (inStandard g s).initList a.id a.base = (s.initList a.id a.base).map (inStandard g) := by
        intro s
        unfold Sys.initList
        have : (inStandard g s).execList = s.execList := rfl
        rw [this]
        cases Dict.get? s.execList a.id with
        | some _ => rfl
        | none =>
          cases a.base with
          | none => rfl
          | some b => simp only; cases Dict.get? s.execList b <;> rfl
      have e7 : ∀ s : Sys α κ W, (inStandard g s).initClock a.id a.base = (s.initClock a.id a.base).map (inStandard g) := by
        intro s
        unfold Sys.initClock
        have : (inStandard g s).clocks = s.clocks := rfl
        rw [this]
        cases Dict.get? s.clocks a.id with
        | some _ => rfl
        | none =>
          cases a.base with
          | none => rfl
          | some b => simp only; cases Dict.get? s.clocks b <;> rfl
      have e8 : (inStandard g s2).initCounts a.id a.base =
          (inStandard g (s2.initCounts a.id a.base).1, (s2.initCounts a.id a.base).2) := by
        unfold Sys.initCounts
        rw [e4]
        cases s2.initTotal a.id a.base with
        | error e => rfl
        | ok x =>
          simp only [Except.map]
          rw [e5]
          cases x.initUseable a.id a.base with
          | error e => rfl
          | ok x =>
            simp only [Except.map]
            rw [e6]
            cases x.initList a.id a.base with
            | error e => rfl
            | ok x =>
              simp only [Except.map]
              rw [e7]
              cases x.initClock a.id a.base <;> rfl
      rw [e8]
      cases h2 : s2.initCounts a.id a.base with
      | mk s3 r =>
        cases r with
        | some e => rfl
        | none =>
          simp only
          unfold Sys.resetTotal
          have : ((inStandard g s3).resetUseable a.id).countsTotal = (s3.resetUseable a.id).countsTotal := rfl
          rw [this]
          cases Dict.get? (s3.resetUseable a.id).countsTotal a.id <;> rfl

theorem resumed_inStandard (ys : List (List α)) (pc : PC α) :
    resumed w ys (inStandard g s) pc = inStandard g (resumed w ys s pc) := by
  unfold resumed; split <;> rfl

/-! ## The interval -/

theorem unit_inStandard (hm : s.mode = .exactTime) (hq : s.queue.length = 1) (hf : NoFiner a s) :
    (inStandard g s).absoluteUnit (s.absoluteConds a) = s.absoluteUnit (s.absoluteConds a) := by
  have hne : s.queue ≠ [] := by intro h; rw [h] at hq; simp at hq
  obtain ⟨u, hu⟩ := Sys.absoluteUnit_total hne (s.absoluteConds a)
  obtain ⟨u', hu'⟩ := Sys.absoluteUnit_total (s := inStandard g s) hne (s.absoluteConds a)
  rw [hu, hu']
  have h1 := absoluteUnit_spec (a := a) hu
  have h2 := absoluteUnit_spec (s := inStandard g s) (a := a) hu'
  have d1 : ∀ q, Determines s a q ↔ RepeatUsed s a q ∨ TimeUsed s a q := by
    intro q; unfold Determines; simp [hm]
  have d2 : ∀ q, Determines (inStandard g s) a q ↔ RepeatUsed s a q := by
    intro q
    have e : (inStandard g s).mode = .standard := rfl
    unfold Determines
    rw [e]
    constructor
    · rintro (h | ⟨h, _⟩)
      · exact h
      · cases h
    · intro h; exact .inl h
  have p1 : parts s = 1 := by unfold parts; rw [hm]
  have p2 : parts (inStandard g s) = 1 := hq
  rcases h1 with ⟨h1, e1⟩ | ⟨⟨r, h1⟩, _, g1⟩
  · rcases h2 with ⟨h2, e2⟩ | ⟨⟨r, h2⟩, _, _⟩
    · rw [e1, e2]; rfl
    · exact absurd ⟨r, (d1 r).mpr (.inl ((d2 r).mp h2))⟩ h1
  · rcases h2 with ⟨h2, e2⟩ | ⟨_, _, g2⟩
    · exfalso
      rcases hf with hf | ⟨⟨r', hr'⟩, _⟩
      · rcases (d1 r).mp h1 with h | h
        · exact h2 ⟨r, (d2 r).mpr h⟩
        · exact hf r h
      · exact h2 ⟨r', (d2 r').mpr hr'⟩
    · rw [p1] at g1
      rw [p2] at g2
      have x1 : ((1 : Nat) : Rat) * u = u := by grind
      have x2 : ((1 : Nat) : Rat) * u' = u' := by grind
      rw [x1] at g1
      rw [x2] at g2
      have g3 : IsGcd (RepeatUsed s a) u' :=
        ⟨g2.1, fun q h => g2.2.1 q ((d2 q).mpr h), fun d hd => g2.2.2 d fun q h => hd q ((d2 q).mp h)⟩
      have g4 : IsGcd (Determines s a) u' := by
        refine ⟨g3.1, fun q h => ?_, fun d hd => g3.2.2 d fun q h => hd q ((d1 q).mpr (.inl h))⟩
        rcases (d1 q).mp h with h | h
        · exact g3.2.1 q h
        · rcases hf with hf | ⟨_, hf⟩
          · exact absurd h (hf q)
          · exact hf q h u' g3
      rw [isGcd_unique g1 g4 (fun q h => ⟨q, h, rfl⟩) (fun q h => ⟨q, h, rfl⟩)]

/-! ## The queue of a graph without edges -/

theorem edgeless_keys (g : Graph α) : Dict.keys (edgeless g) = Dict.keys g := by
  unfold edgeless Dict.keys
  rw [List.map_map]; rfl

theorem toposort_edgeless (hg : g ≠ []) : toposort (edgeless g) = .ok [Dict.keys g] := by
  have e1 : Toposort.stripSelf (edgeless g) = edgeless g := by
    unfold Toposort.stripSelf edgeless
    rw [List.map_map]; rfl
  have e2 : (edgeless g).flatMap Prod.snd = [] := by
    unfold edgeless
    rw [List.flatMap_map]
    simp
  have e3 : Toposort.addExtra (edgeless g) = edgeless g := by
    unfold Toposort.addExtra Toposort.extraItems
    rw [e2]
    simp
  have e4 : Toposort.ordered (edgeless g) = Dict.keys g := by
    rw [← edgeless_keys]
    unfold Toposort.ordered Dict.keys
    congr 1
    rw [List.filter_eq_self]
    intro p hp
    obtain ⟨x, _, rfl⟩ := List.mem_map.mp hp
    rfl
  have e5 : Toposort.remove (Dict.keys g) (edgeless g) = [] := by
    unfold Toposort.remove
    rw [List.map_eq_nil_iff, List.filter_eq_nil_iff]
    intro p hp
    obtain ⟨x, hx, rfl⟩ := List.mem_map.mp hp
    have : x.1 ∈ Dict.keys g := List.mem_map.mpr ⟨x, hx, rfl⟩
    simp [this]
  have hn : edgeless g ≠ [] := by
    intro h
    exact hg (List.map_eq_nil_iff.mp h)
  have hk : Dict.keys g ≠ [] := by
    intro h
    exact hg (List.map_eq_nil_iff.mp h)
  obtain ⟨x, l, hl⟩ : ∃ x l, edgeless g = x :: l := by
    cases h : edgeless g with
    | nil => exact absurd h hn
    | cons x l => exact ⟨x, l, rfl⟩
  unfold toposort
  simp only [e1, e3, if_neg hn]
  unfold Toposort.rounds
  rw [e4, if_neg hk, e5, hl]
  simp [Toposort.rounds, Toposort.ordered]

theorem edgeless_wf (hg : Dict.WF g) : Dict.WF (edgeless g) := by
  unfold Dict.WF
  rw [edgeless_keys]; exact hg

theorem baseGraph_edgeless (hg : Dict.WF g) : baseGraph (edgeless g) = edgeless g := by
  have e2 : (edgeless g).flatMap Prod.snd = [] := by
    unfold edgeless
    rw [List.flatMap_map]
    simp
  unfold baseGraph
  rw [e2]
  show Dict.update [] (edgeless g) = _
  rw [Dict.update_new (edgeless_wf hg) (by simp)]
  rfl

end GS
