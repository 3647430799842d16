import Verif.Work
import Verif.Props.Demo
/-!
# C98: how often conditions are evaluated
-/

set_option linter.unusedSectionVars false

namespace GS
open Spec
variable {α κ W β : Type _} [DecidableEq α] [DecidableEq κ]
variable {a : RunArgs α κ W} {abs : Bool}

/-! ## The conditions of nodes do not matter where they are not evaluated -/

/-- The same result, with other conditions. -/
def swapConds (d : Dict α (Cond α κ W)) (p : Sys α κ W × β) : Sys α κ W × β := (withConds p.1 d, p.2)

theorem continues_withConds (s : Sys α κ W) (d : Dict α (Cond α κ W)) :
    (withConds s d).continues a = swapConds d (s.continues a) := by
  unfold Sys.continues Sys.evalCond swapConds
  simp only [withConds]
  generalize eval s.toView a.id a.esu s.store = p
  obtain ⟨r, st⟩ := p
  rcases r with e | b
  · rfl
  · cases b
    · simp only
      generalize eval s.toView a.id a.seq st = q
      obtain ⟨r, st⟩ := q
      rcases r with e | b <;> rfl
    · rfl

theorem incrClock_withConds (s : Sys α κ W) (d : Dict α (Cond α κ W)) (ts : TimeScale) :
    (withConds s d).incrClock a.id ts =
      match s.incrClock a.id ts with
      | .ok s' => .ok (withConds s' d)
      | .error e => .error e := by
  unfold Sys.incrClock
  simp only [withConds]
  generalize (s.clock a.id).incr ts = p
  cases p <;> rfl

theorem record_withConds (s : Sys α κ W) (d : Dict α (Cond α κ W)) (b : Bool) (set : List α) :
    (withConds s d).record a.id b set = swapConds d (s.record a.id b set) := by
  unfold Sys.record swapConds
  simp only [withConds]
  cases Dict.get? s.execList a.id with
  | none => rfl
  | some l =>
    cases b
    · rfl
    · simp only [if_true]
      cases Dict.get? s.timestamps a.id <;> rfl

theorem resetTotal_withConds (s : Sys α κ W) (d : Dict α (Cond α κ W)) (ts : TimeScale) :
    (withConds s d).resetTotal ts a.id =
      match s.resetTotal ts a.id with
      | .ok s' => .ok (withConds s' d)
      | .error e => .error e := by
  unfold Sys.resetTotal
  simp only [withConds]
  cases Dict.get? s.countsTotal a.id <;> rfl

theorem fire_withConds (s : Sys α κ W) (d : Dict α (Cond α κ W)) (n : α) :
    (withConds s d).fire a.id n =
      match s.fire a.id n with
      | .ok s' => .ok (withConds s' d)
      | .error e => .error e := by
  unfold Sys.fire
  simp only [withConds]
  cases Dict.get? s.countsTotal a.id with
  | none => rfl
  | some f =>
    simp only
    split
    · cases Dict.get? s.countsUseable a.id <;> rfl
    · rfl

theorem endPass_withConds (s : Sys α κ W) (d : Dict α (Cond α κ W)) (changed : Bool) :
    (withConds s d).endPass a abs changed = swapConds d (s.endPass a abs changed) := by
  unfold Sys.endPass
  rw [record_withConds, incrClock_withConds]
  split
  · rcases s.record a.id false [] with ⟨s1, _ | e⟩ <;> rfl
  · cases s.incrClock a.id .pass <;> rfl

theorem finish_withConds (s : Sys α κ W) (d : Dict α (Cond α κ W)) :
    (withConds s d).finish a = swapConds d (s.finish a) := by
  unfold Sys.finish
  rw [incrClock_withConds]
  have key : ∀ t : Sys α κ W,
      (withConds t d).evalCond a.id a.seq = swapConds d (t.evalCond a.id a.seq) := fun _ => rfl
  cases a.skip
  · simp only [Bool.false_eq_true, if_false]
    cases s.incrClock a.id .environment_state_update with
    | error e => rfl
    | ok s1 =>
      simp only [key]
      rcases s1.evalCond a.id a.seq with ⟨s2, e | b⟩ <;> rfl
  · simp only [if_true, key]
    rcases s.evalCond a.id a.seq with ⟨s2, e | b⟩ <;> rfl

theorem endChoice_withConds (s : Sys α κ W) (d : Dict α (Cond α κ W)) (c : Choice α) :
    (withConds s d).endChoice a abs c = swapConds d (s.endChoice a abs c) := by
  unfold Sys.endChoice
  dsimp only
  rw [record_withConds]
  split
  · rcases s.record a.id abs c.exec with ⟨s1, _ | e⟩ <;> rfl
  · rfl

theorem considerNode_withConds (s : Sys α κ W) (d : Dict α (Cond α κ W)) (n : α)
    (h : Dict.get? d n = Dict.get? s.conds n) :
    (withConds s d).considerNode a.id n = swapConds d (s.considerNode a.id n) := by
  unfold Sys.considerNode
  have : (withConds s d).conds = d := rfl
  rw [this, h]
  cases Dict.get? s.conds n with
  | none => rfl
  | some c =>
    have e : (withConds s d).evalCond a.id c = swapConds d (s.evalCond a.id c) := rfl
    dsimp only
    rw [e]
    rcases s.evalCond a.id c with ⟨s1, e | b⟩
    · rfl
    · cases b
      · rfl
      · simp only [swapConds]
        rw [fire_withConds]
        cases s1.fire a.id n <;> rfl

namespace Props
variable {E : Sys α κ W → Sys α κ W → Prop} {s0 s s' : Sys α κ W} {pc pc' : PC α}
variable {h : History α κ W} {ev : Option (Event α)} {c c' : Choice α} {layer l : List α}

/-- C98: a step depends on the condition of no node except the one that `evaluates` names:
replacing all other conditions changes nothing. -/
theorem C98_only (s : Sys α κ W) (d : Dict α (Cond α κ W)) (pc : PC α)
    (h : ∀ n, evaluates pc = some n → Dict.get? d n = Dict.get? s.conds n) :
    (withConds s d).step a abs pc =
      (withConds (s.step a abs pc).1 d, (s.step a abs pc).2.1, (s.step a abs pc).2.2) := by
  show _ = swapConds d (s.step a abs pc)
  cases pc with
  | outer =>
    simp only [Sys.step]
    rw [continues_withConds]
    rcases s.continues a with ⟨s1, e | b⟩
    · rfl
    · cases b
      · exact finish_withConds s1 d
      · simp only [swapConds]
        rw [resetTotal_withConds]
        cases s1.resetTotal .pass a.id <;> rfl
  | inner idx changed =>
    simp only [Sys.step]
    rw [continues_withConds, endPass_withConds]
    have : (withConds s d).queue = s.queue := rfl
    rw [this]
    cases s.queue[idx]? with
    | none => rfl
    | some layer =>
      rcases s.continues a with ⟨s1, e | b⟩
      · rfl
      · cases b
        · exact endPass_withConds s1 d changed
        · rfl
  | choosing c =>
    simp only [Sys.step, Sys.choose]
    cases ht : c.todo with
    | nil =>
      simp only
      rw [endChoice_withConds]
      split <;> rfl
    | cons n ns =>
      simp only
      split
      · rfl
      · rename_i hn
        rw [considerNode_withConds s d n (h n (by simp [evaluates, ht, hn]))]
        rcases s.considerNode a.id n with ⟨s1, e | b⟩
        · rfl
        · cases b <;> rfl
  | yielded idx changed =>
    simp only [Sys.step]
    rw [incrClock_withConds]
    cases s.incrClock a.id .consideration_set_execution <;> rfl
  | yieldedEmpty =>
    simp only [Sys.step]
    rw [incrClock_withConds]
    cases s.incrClock a.id .consideration_set_execution with
    | error e => rfl
    | ok s1 =>
      simp only
      rw [incrClock_withConds]
      cases s1.incrClock a.id .pass <;> rfl
  | returned => rfl
  | raised e => rfl

/-! ## One choice -/

/-- Whenever a run is choosing a set, it is in the middle of such a choice, whatever the
user did before. -/
theorem C98_in_run (hr : Reach E a s0 abs h s (.choosing c)) :
    ∃ l, Choosing a abs c.layer l s c := by
  generalize hpc : PC.choosing c = pc at hr
  induction hr generalizing c with
  | start _ => cases hpc
  | @step abs h s s' pc pc' ev hr hs ih =>
    subst hpc
    have hst := Sys.step_stepR hs
    generalize hp : PC.choosing c = pc' at hst
    cases hst <;> cases hp
    · exact ⟨[], .begin⟩
    · obtain ⟨l, hl⟩ := ih rfl
      exact ⟨_, .step hl hs⟩
    · obtain ⟨l, hl⟩ := ih rfl
      exact ⟨_, .step hl hs⟩
    · obtain ⟨l, hl⟩ := ih rfl
      exact ⟨_, .step hl hs⟩
    · obtain ⟨l, hl⟩ := ih rfl
      exact ⟨_, .step hl hs⟩
  | env _ hsus _ _ => subst hpc; cases hsus

/-- C98: when the choice of a set is complete, the condition of every node of the
consideration set has been evaluated, and no other. -/
theorem C98_each (hc : Choosing a abs layer l s c) (ht : c.todo = []) (n : α) :
    n ∈ l ↔ n ∈ layer := by
  refine ⟨hc.inv.only n, fun hn => ?_⟩
  rcases hc.inv.seen n hn with k | k
  · exact k
  · rw [ht] at k; cases k

/-- C98: in one choice the condition of a node is evaluated at most once more than nodes
are selected. -/
theorem C98_times (hc : Choosing a abs layer l s c) (hn : layer.Nodup) (n : α) :
    l.count n ≤ c.exec.length + 1 := by
  obtain ⟨j, h1, h2⟩ := hc.inv.rounds hn
  have := h2 n
  split at this <;> omega

/-- C98: if no node is selected, every condition is evaluated exactly once. -/
theorem C98_once (hc : Choosing a abs layer l s c) (hn : layer.Nodup) (ht : c.todo = [])
    (he : c.exec = []) {n : α} (hm : n ∈ layer) : l.count n = 1 := by
  have h1 := C98_times hc hn n
  rw [he] at h1
  have h2 := List.count_pos_iff.2 ((C98_each hc ht n).2 hm)
  simp at h1
  omega

/-- C98: the condition of a selected node is not evaluated again. -/
theorem C98_not_again (c : Choice α) {n : α} (hn : n ∈ c.exec) :
    evaluates (.choosing c) ≠ some n := by
  simp only [evaluates]
  split
  · simp
  · split
    · simp
    · rename_i h
      rintro ⟨rfl⟩
      exact h hn

/-- C98: in one choice from `m` nodes at most `m + (m - 1) + ... + 1` conditions are
evaluated. -/
theorem C98_choice (hc : Choosing a abs layer l s c) : l.length ≤ upTo layer.length := by
  rw [upTo_eq]
  have := hc.inv.total
  omega

/-! ## One request for the next set -/

theorem passWork_eq (q : List (List α)) : passWork q = (q.map fun l => upTo l.length).sum := by
  unfold passWork
  congr 1
  exact List.map_congr_left fun l _ => (upTo_eq l.length).symm

/-- C98: from one `yield` (or the beginning of the run) to the next, at most twice as many
conditions of nodes are evaluated as that makes for all consideration sets together. -/
theorem C98_next (hpc : pc.suspended = true ∨ pc = .outer) (k : Nat)
    (hk : ∀ j, 0 < j → j < k → (steps a abs j h s pc).2.2.suspended = false) :
    (evaluationsIn a abs k s pc).length ≤ 2 * (s.queue.map fun l => upTo l.length).sum := by
  have hreg : Regular pc := by
    rcases hpc with hp | rfl
    · cases pc <;> first | trivial | cases hp
    · trivial
  have h1 := work_run (a := a) (abs := abs) k s pc h hreg hk
  have h2 : workLeft abs s.queue pc ≤ 2 * passWork s.queue := by
    rcases hpc with hp | rfl
    · cases pc with
      | yielded idx changed =>
        have := passWork_drop_le s.queue (idx + 1)
        simp only [workLeft]
        split <;> omega
      | yieldedEmpty => simp only [workLeft]; omega
      | _ => cases hp
    · simp only [workLeft]; omega
  rw [passWork_eq] at h2
  omega

/-! ## A concrete case -/

/-- Three unconnected nodes considered in the order 0, 1, 2, of which 0 waits for 1 and 1
for 2. -/
def waiting : Sys Nat Nat Unit :=
  ((((Sys.new [(0, []), (1, []), (2, [])] .standard none 1 demoWorld).alloc 2).addBasic 0
    (.leaf 0 (.afterNCalls 1 1 .life))).addBasic 1 (.leaf 1 (.afterNCalls 2 1 .life)))

/-- The bound of `C98_choice` is reached: 6 = 3 + 2 + 1 evaluations. -/
example : waiting.queue = [[0, 1, 2]] ∧
    yields (runAfter waiting demoArgs 20).1 = [[2, 1, 0]] ∧
    evaluationsIn demoArgs false 20 (runAfter waiting demoArgs 0).2.1 .outer = [0, 1, 2, 0, 1, 0] ∧
    upTo 3 = 6 := by decide +kernel

/-- All three are selected. -/
def allThree : Choice Nat :=
  { idx := 0, changed := false, layer := [0, 1, 2], exec := [2, 1, 0], todo := [],
    again := false }

/-- The hypotheses of `C98_each`, `C98_times`, `C98_choice`: the choice is complete after 17
steps, with three nodes selected. -/
example : ∃ l s, Choosing demoArgs false [0, 1, 2] l s allThree := by
  have hr := run_reach (s := waiting) (a := demoArgs) (b := false) (by decide +kernel)
    (fun _ _ => False) 17
  have : (runAfter waiting demoArgs 17).2.2 =
      .choosing allThree := by decide +kernel
  rw [this] at hr
  obtain ⟨l, hl⟩ := C98_in_run hr
  exact ⟨l, _, hl⟩

/-- The hypotheses of `C98_next`: the first `next()` takes 18 steps. -/
example : (runAfter waiting demoArgs 0).2.2 = .outer ∧
    (runAfter waiting demoArgs 18).2.2.suspended = true ∧
    (∀ j, 0 < j → j < 18 → (runAfter waiting demoArgs j).2.2.suspended = false) := by
  refine ⟨by decide +kernel, by decide +kernel, ?_⟩
  have : ∀ j : Fin 18, (runAfter waiting demoArgs j.1).2.2.suspended = false := by decide +kernel
  exact fun j _ hj => this ⟨j, hj⟩

end Props
end GS
