import Verif.Props.Warn
import Verif.Props.GraphEdges
/-!
# C85, C86: what warnings say about the graph

Specification: `Verif/Spec/Warn.lean`.
-/

set_option linter.unusedSectionVars false

namespace GS.Props
open Spec
variable {α κ W : Type _} [DecidableEq α] [DecidableEq κ]
variable {sw : OId → α → Graph α → List (Warning α)}

/-! ## Cycles -/

/-- Every graph of `t` is one of `s`, or in order, or there is a warning about a cycle. -/
def Heard (s t : Stack α κ W) (ws : List (Warning α)) : Prop :=
  ∀ g ∈ t.graphs, g ∈ s.graphs ∨ (∃ ls, toposort g = .ok ls) ∨ ∃ b, .cycle b ∈ ws

theorem pushAll_heard (cs : List (SCond α)) :
    ∀ (s : Stack α κ W) (g : Graph α), Heard s (s.pushAllW sw g cs).1.1 (s.pushAllW sw g cs).2 := by
  induction cs with
  | nil => intro s g g' h; exact .inl h
  | cons c cs ih =>
    intro s g g' h
    unfold Stack.pushAllW at h ⊢
    cases hm : s.modify c g with
    | error e => rw [hm] at h; exact .inl h
    | ok g1 =>
      rw [hm] at h
      rcases ih (s.pushW g1).1 g1 g' h with k | k | ⟨b, k⟩
      · rcases List.mem_cons.1 k with k | k
        · subst k
          cases ht : toposort g' with
          | ok ls => exact .inr (.inl ⟨ls, rfl⟩)
          | error e =>
            refine .inr (.inr ⟨s.cset.order.getLast?.map (·.o), List.mem_append_left _ (List.mem_append_right _ ?_)⟩)
            unfold Stack.pushW
            rw [ht]
            exact List.mem_singleton.2 rfl
        · exact .inl k
      · exact .inr (.inl k)
      · exact .inr (.inr ⟨b, List.mem_append_right _ k⟩)

theorem popN_graphs (k : Nat) : ∀ (s : Stack α κ W), ∀ g ∈ (Stack.popN k s).1.graphs, g ∈ s.graphs := by
  induction k with
  | zero => intro s g h; exact h
  | succ k ih =>
    intro s g h
    unfold Stack.popN at h
    cases hg : s.graphs with
    | nil => rw [hg] at h; simp only at h; rw [hg] at h; exact h
    | cons a gs => rw [hg] at h; exact List.mem_cons_of_mem _ (ih _ g h)

theorem handle_heard (s : Stack α κ W) : Heard s (s.handleW sw).1.1 (s.handleW sw).2 := by
  intro g hg
  unfold Stack.handleW at hg ⊢
  simp only at hg ⊢
  split at hg
  · exact .inl hg
  · have hpop := popN_graphs (numPops s.last (commonWith s.last (s.cset.order.map (·.o)))) s
    rename_i hne
    rw [if_neg hne]
    cases hp : Stack.popN (numPops s.last (commonWith s.last (s.cset.order.map (·.o)))) s with
    | mk s1 e =>
      rw [hp] at hg hpop
      cases e with
      | some e => exact .inl (hpop g hg)
      | none =>
        simp only at hg ⊢
        cases hgs : s1.graphs with
        | nil => rw [hgs] at hg; simp only at hg; exact .inl (hpop g hg)
        | cons g0 gs =>
          rw [hgs] at hg
          simp only at hg ⊢
          have k := pushAll_heard (sw := sw)
            (s.cset.order.drop (commonWith s.last (s.cset.order.map (·.o)))) s1 g0
          cases hc : s1.pushAllW sw g0 (s.cset.order.drop (commonWith s.last (s.cset.order.map (·.o)))) with
          | mk r ws =>
            obtain ⟨s2, e⟩ := r
            rw [hc] at hg k
            cases e with
            | some e => exact (k g hg).imp_left (hpop g)
            | none => exact (k g hg).imp_left (hpop g)

theorem Heard.more {s t : Stack α κ W} {ws ws' : List (Warning α)} (h : Heard s t ws)
    (hs : ∀ w ∈ ws, w ∈ ws') : Heard s t ws' :=
  fun g hg => (h g hg).imp_right (Or.imp_right fun ⟨b, hb⟩ => ⟨b, hs _ hb⟩)

theorem readGraph_fst (s : Stack α κ W) : s.readGraph.1 = s.handle.1 := by
  unfold Stack.readGraph
  cases h : s.handle with
  | mk s' e => cases e <;> rfl

theorem readIndices_fst (s : Stack α κ W) : s.readIndices.1 = s.handle.1 := by
  unfold Stack.readIndices
  cases h : s.handle with
  | mk s' e => cases e <;> rfl

theorem readQueue_fst (s : Stack α κ W) : s.readQueue.1 = s.handle.1 := by
  unfold Stack.readQueue
  cases h : s.handle with
  | mk s' e =>
    cases e with
    | some e => rfl
    | none =>
      simp only
      have k := Stack.handle_twice h
      cases s'.mode with
      | standard => rfl
      | exactTime =>
        simp only
        unfold Stack.readGraph
        rw [k]
        simp only
        cases s'.graphs.head? <;> rfl

/-- Handling is over: nothing more is said. -/
theorem handleW_again {s s' : Stack α κ W} (h : s.handle = (s', none)) : (s'.handleW sw).2 = [] := by
  have hl := Stack.handle_last h
  unfold Stack.handleW
  simp only
  rw [if_pos (by rw [hl.1, hl.2])]

theorem readQueueW_snd (s : Stack α κ W) : (s.readQueueW sw).2 = (s.handleW sw).2 := by
  unfold Stack.readQueueW
  simp only
  cases h : s.handle with
  | mk s' e =>
    cases e with
    | some e => simp
    | none =>
      simp only
      cases s'.mode with
      | standard => simp
      | exactTime => simp [handleW_again h]

theorem callW_heard (s : Stack α κ W) (op : SchedOp α κ W) :
    Heard s (op.callW sw s).1.1 (op.callW sw s).2 := by
  cases op with
  | add n c =>
    show Heard s (s.addConditionW sw n c).1.1 (s.addConditionW sw n c).2
    unfold Stack.addConditionW
    cases s.cset.addW n c with
    | mk r ws =>
      obtain ⟨cs, e⟩ := r
      cases e with
      | some e => exact fun g h => .inl h
      | none => exact (handle_heard { s with cset := cs }).more fun w h => List.mem_append_right _ h
  | addSet d =>
    show Heard s (s.addConditionSetW sw d).1.1 (s.addConditionSetW sw d).2
    unfold Stack.addConditionSetW
    cases s.cset.addSetW d with
    | mk r ws =>
      obtain ⟨cs, e⟩ := r
      cases e with
      | some e => exact fun g h => .inl h
      | none => exact (handle_heard { s with cset := cs }).more fun w h => List.mem_append_right _ h
  | remove c => exact fun g h => .inl h
  | removeOf n => exact fun g h => .inl h
  | graph =>
    show Heard s s.readGraph.1 (s.handleW sw).2
    rw [readGraph_fst, ← Stack.handleW_fst sw]
    exact handle_heard s
  | queue =>
    show Heard s s.readQueue.1 (s.readQueueW sw).2
    rw [readQueue_fst, readQueueW_snd, ← Stack.handleW_fst sw]
    exact handle_heard s
  | indices =>
    show Heard s s.readIndices.1 (s.handleW sw).2
    rw [readIndices_fst, ← Stack.handleW_fst sw]
    exact handle_heard s

theorem announced_heard {s t : Stack α κ W} {ops : List (SchedOp α κ W)} {ws : List (Warning α)}
    (h : Announced sw s ops ws t) : Heard s t ws := by
  induction h with
  | nil s => exact fun g h => .inl h
  | @cons s s' t op ops e ws ws' hop _ ih =>
    have k := callW_heard (sw := sw) s op
    rw [hop] at k
    intro g hg
    rcases ih g hg with h1 | h1 | ⟨b, h1⟩
    · rcases k g h1 with h2 | h2 | ⟨b, h2⟩
      · exact .inl h2
      · exact .inr (.inl h2)
      · exact .inr (.inr ⟨b, List.mem_append_left _ h2⟩)
    · exact .inr (.inl h1)
    · exact .inr (.inr ⟨b, List.mem_append_right _ h1⟩)

/-- C85: a scheduler never has a cyclic graph without having said so.  Whatever has been done
with a scheduler, also if calls raised: if its graph, when it is read now, has a cycle, then
the constructor or one of the calls, this read included, has warned about a cycle. -/
theorem C85_cycle_announced (mode : Mode) (base : Graph α) (st : Store α κ) (ow : OId → Option α)
    (ops : List (SchedOp α κ W)) (ws ws' : List (Warning α)) (t t' : Stack α κ W)
    (h : Announced sw (Stack.new mode base st ow) ops ws t) (g : Graph α)
    (hg : t.readGraphW sw = ((t', .ok g), ws')) (hw : Dict.WF g) (hc : HasCycle g) :
    ∃ b, .cycle b ∈ Stack.newWarnings base ++ ws ++ ws' := by
  have h1 := announced_heard h
  have h2 := callW_heard (sw := sw) t .graph
  have e1 : t.readGraph = (t', .ok g) := congrArg (·.1) hg
  have e2 : (t.handleW sw).2 = ws' := congrArg (·.2) hg
  have h2' : Heard t t' ws' := by
    have h3 : Heard t t.readGraph.1 (t.handleW sw).2 := h2
    rw [e1, e2] at h3
    exact h3
  have hmem : g ∈ t'.graphs := by
    have e3 := e1
    unfold Stack.readGraph at e3
    cases hh : t.handle with
    | mk s' e =>
      rw [hh] at e3
      cases e with
      | some e => simp only [Prod.mk.injEq, reduceCtorEq, and_false] at e3
      | none =>
        simp only [Prod.mk.injEq] at e3
        obtain ⟨rfl, e3⟩ := e3
        cases hd : s'.graphs.head? with
        | none => rw [hd] at e3; simp [orIndexError] at e3
        | some g' =>
          rw [hd] at e3
          simp only [orIndexError, Except.ok.injEq] at e3
          subst e3
          exact List.mem_of_mem_head? hd
  have bad : ¬ ∃ ls, toposort g = .ok ls := by
    rintro ⟨ls, hls⟩
    rcases toposort_spec g hw with ⟨_, _, _, _, _, h⟩ | ⟨h, _⟩
    · exact h hc
    · rw [h] at hls; cases hls
  rcases h2' g hmem with k | k | ⟨b, k⟩
  · rcases h1 g k with k | k | ⟨b, k⟩
    · rcases List.mem_singleton.1 k with rfl
      refine ⟨none, List.mem_append_left _ (List.mem_append_left _ ?_)⟩
      unfold Stack.newWarnings
      cases ht : toposort g with
      | ok ls => exact absurd ⟨ls, ht⟩ bad
      | error e => exact List.mem_singleton.2 rfl
    · exact absurd k bad
    · exact ⟨b, List.mem_append_left _ (List.mem_append_right _ k)⟩
  · exact absurd k bad
  · exact ⟨b, List.mem_append_right _ k⟩

/-- `0 → 1 → 0`, made by two conditions. -/
def cyclicOps : List (SchedOp Nat Nat Unit) :=
  [.add 0 (.structural (addSenderTo 1 1)), .add 1 (.structural (addSenderTo 2 0))]

/-- No warnings by the conditions. -/
def silent : OId → Nat → Graph Nat → List (Warning Nat) := fun _ _ _ => []

example : ∃ ws t, Announced silent freshStack cyclicOps ws t ∧ ws = [.cycle (some 2)] ∧
    t.readGraphW silent = ((t, .ok [(0, [1]), (1, [0]), (2, [])]), []) ∧
    HasCycle [(0, [1]), (1, [0]), (2, [])] :=
  ⟨_, _, .cons rfl (.cons rfl (.nil _)), by decide +kernel, rfl, by
    rcases toposort_spec ([(0, [1]), (1, [0]), (2, [])] : Graph Nat) (by decide) with ⟨ls, h, _⟩ | ⟨_, h⟩
    · have h' : toposort ([(0, [1]), (1, [0]), (2, [])] : Graph Nat) = .error .circularDependency := by
        decide +kernel
      rw [h'] at h; cases h
    · exact h⟩

theorem pushAllW_keeps (cs : List (SCond α)) :
    ∀ (s : Stack α κ W) (g : Graph α), ∀ x ∈ s.graphs, x ∈ (s.pushAllW sw g cs).1.1.graphs := by
  induction cs with
  | nil => intro s g x h; exact h
  | cons c cs ih =>
    intro s g x h
    unfold Stack.pushAllW
    cases s.modify c g with
    | error e => exact h
    | ok g1 => exact ih _ _ _ (List.mem_cons_of_mem _ h)

theorem pushAllW_cycle (hsw : ∀ o n g b, .cycle b ∉ sw o n g) {b : Option OId} (cs : List (SCond α)) :
    ∀ (s : Stack α κ W) (g : Graph α), .cycle b ∈ (s.pushAllW sw g cs).2 →
      b = s.cset.order.getLast?.map (·.o) ∧
      ∃ x ∈ (s.pushAllW sw g cs).1.1.graphs, ∀ ls, toposort x ≠ .ok ls := by
  induction cs with
  | nil => intro s g h; cases h
  | cons c cs ih =>
    intro s g h
    have none : .cycle b ∉ (match s.cset.owners c.o with | none => [] | some n => sw c.o n g) := by
      split
      · simp
      · exact hsw _ _ _ _
    unfold Stack.pushAllW at h ⊢
    cases hm : s.modify c g with
    | error e => rw [hm] at h; exact absurd h none
    | ok g1 =>
      rw [hm] at h
      rcases List.mem_append.1 h with h | h
      · rcases List.mem_append.1 h with h | h
        · exact absurd h none
        · unfold Stack.pushW at h
          simp only at h
          split at h
          · cases h
          · rename_i e he
            rw [List.mem_singleton] at h
            injection h with h
            refine ⟨h, g1, pushAllW_keeps cs _ _ _ List.mem_cons_self, fun ls k => ?_⟩
            rw [he] at k; cases k
      · exact ih _ _ h

theorem handleW_cycle (hsw : ∀ o n g b, .cycle b ∉ sw o n g) {b : Option OId} {s : Stack α κ W}
    (h : .cycle b ∈ (s.handleW sw).2) : b = s.cset.order.getLast?.map (·.o) ∧
      ∃ x ∈ (s.handleW sw).1.1.graphs, ∀ ls, toposort x ≠ .ok ls := by
  unfold Stack.handleW at h ⊢
  simp only at h ⊢
  split at h
  · cases h
  · rename_i hne
    rw [if_neg hne]
    have hcs := Stack.popN_cset (numPops s.last (commonWith s.last (s.cset.order.map (·.o)))) s
    cases hp : Stack.popN (numPops s.last (commonWith s.last (s.cset.order.map (·.o)))) s with
    | mk s1 e =>
      rw [hp] at h hcs
      cases e with
      | some e => cases h
      | none =>
        simp only at h ⊢ hcs
        cases hgs : s1.graphs with
        | nil => rw [hgs] at h; cases h
        | cons g0 gs =>
          rw [hgs] at h
          simp only at h ⊢
          have k := pushAllW_cycle hsw (b := b)
            (s.cset.order.drop (commonWith s.last (s.cset.order.map (·.o)))) s1 g0
          cases hc : s1.pushAllW sw g0 (s.cset.order.drop (commonWith s.last (s.cset.order.map (·.o)))) with
          | mk r ws =>
            obtain ⟨s2, e⟩ := r
            rw [hc] at h k
            rw [← hcs]
            cases e with
            | some e => exact k h
            | none => exact k h

theorem addW_cycle {b : Option OId} (s : CSet α κ W) (n : α) (c : AnyCond α κ W) :
    .cycle b ∉ (s.addW n c).2 := by
  intro h
  cases c with
  | structural c => cases h
  | basic c =>
    rcases List.mem_append.1 h with h | h
    · exact ownerWarnings_only _ _ _ _ (by simp) h
    · cases hd : Dict.get? s.basic n with
      | none => rw [hd] at h; cases h
      | some d => rw [hd] at h; simp at h

theorem addAllW_cycle {b : Option OId} (n : α) (cs : List (AnyCond α κ W)) :
    ∀ (s : CSet α κ W), .cycle b ∉ (s.addAllW n cs).2 := by
  induction cs with
  | nil => intro s h; cases h
  | cons c cs ih =>
    intro s h
    have k := addW_cycle (b := b) s n c
    unfold CSet.addAllW at h
    cases hc : s.addW n c with
    | mk r ws =>
      obtain ⟨s', e⟩ := r
      rw [hc] at h k
      cases e with
      | some e => exact k h
      | none => exact (List.mem_append.1 h).elim k (ih s')

theorem addSetW_cycle {b : Option OId} (d : Dict α (List (AnyCond α κ W))) :
    ∀ (s : CSet α κ W), .cycle b ∉ (s.addSetW d).2 := by
  induction d with
  | nil => intro s h; cases h
  | cons p d ih =>
    intro s h
    obtain ⟨n, cs⟩ := p
    have k := addAllW_cycle (b := b) n cs s
    unfold CSet.addSetW at h
    cases hc : s.addAllW n cs with
    | mk r ws =>
      obtain ⟨s', e⟩ := r
      rw [hc] at h k
      cases e with
      | some e => exact k h
      | none => exact (List.mem_append.1 h).elim k (ih s')

theorem handle_cset (s : Stack α κ W) : s.handle.1.cset = s.cset := by
  unfold Stack.handle
  simp only
  split
  · rfl
  · have hcs := Stack.popN_cset (numPops s.last (commonWith s.last (s.cset.order.map (·.o)))) s
    cases hp : Stack.popN (numPops s.last (commonWith s.last (s.cset.order.map (·.o)))) s with
    | mk s1 e =>
      rw [hp] at hcs
      cases e with
      | some e => exact hcs
      | none =>
        simp only
        cases hgs : s1.graphs with
        | nil => exact hcs
        | cons g0 gs =>
          simp only
          have k := Stack.pushAll_cset
            (s.cset.order.drop (commonWith s.last (s.cset.order.map (·.o)))) s1 g0
          cases hc : s1.pushAll g0 (s.cset.order.drop (commonWith s.last (s.cset.order.map (·.o)))) with
          | mk s2 e =>
            rw [hc] at k
            cases e with
            | some e => exact k.trans hcs
            | none => exact k.trans hcs

theorem callW_cycle (hsw : ∀ o n g b, .cycle b ∉ sw o n g) {b : Option OId} {s : Stack α κ W}
    {op : SchedOp α κ W} (h : .cycle b ∈ (op.callW sw s).2) :
    b = (op.callW sw s).1.1.cset.order.getLast?.map (·.o) ∧
      ∃ x ∈ (op.callW sw s).1.1.graphs, ∀ ls, toposort x ≠ .ok ls := by
  have hcs : ∀ s : Stack α κ W, (s.handleW sw).1.1.cset = s.cset := by
    intro s
    rw [Stack.handleW_fst]
    exact handle_cset s
  cases op with
  | add n c =>
    have h' : .cycle b ∈ (s.addConditionW sw n c).2 := h
    show b = (s.addConditionW sw n c).1.1.cset.order.getLast?.map (·.o) ∧
      ∃ x ∈ (s.addConditionW sw n c).1.1.graphs, ∀ ls, toposort x ≠ .ok ls
    have k := addW_cycle (b := b) s.cset n c
    unfold Stack.addConditionW at h' ⊢
    cases hc : s.cset.addW n c with
    | mk r ws =>
      obtain ⟨cs, e⟩ := r
      rw [hc] at h' k
      cases e with
      | some e => exact absurd h' k
      | none =>
        rcases List.mem_append.1 h' with h' | h'
        · exact absurd h' k
        · have := handleW_cycle hsw h'
          simp only
          rw [hcs]
          exact this
  | addSet d =>
    have h' : .cycle b ∈ (s.addConditionSetW sw d).2 := h
    show b = (s.addConditionSetW sw d).1.1.cset.order.getLast?.map (·.o) ∧
      ∃ x ∈ (s.addConditionSetW sw d).1.1.graphs, ∀ ls, toposort x ≠ .ok ls
    have k := addSetW_cycle (b := b) d s.cset
    unfold Stack.addConditionSetW at h' ⊢
    cases hc : s.cset.addSetW d with
    | mk r ws =>
      obtain ⟨cs, e⟩ := r
      rw [hc] at h' k
      cases e with
      | some e => exact absurd h' k
      | none =>
        rcases List.mem_append.1 h' with h' | h'
        · exact absurd h' k
        · have := handleW_cycle hsw h'
          simp only
          rw [hcs]
          exact this
  | remove c =>
    have h' : .cycle b ∈ (s.cset.removeCondW c).2 := h
    unfold CSet.removeCondW at h'
    simp only at h'
    repeat' split at h'
    all_goals simp at h'
  | removeOf n =>
    have h' : .cycle b ∈ (s.cset.removeOwnerW n).2 := h
    unfold CSet.removeOwnerW at h'
    simp only at h'
    repeat' split at h'
    all_goals simp at h'
  | graph =>
    have h' : .cycle b ∈ (s.handleW sw).2 := h
    show b = s.readGraph.1.cset.order.getLast?.map (·.o) ∧ ∃ x ∈ s.readGraph.1.graphs, ∀ ls, toposort x ≠ .ok ls
    rw [readGraph_fst, ← Stack.handleW_fst sw, hcs]
    exact handleW_cycle hsw h'
  | queue =>
    have h' : .cycle b ∈ (s.readQueueW sw).2 := h
    rw [readQueueW_snd] at h'
    show b = s.readQueue.1.cset.order.getLast?.map (·.o) ∧ ∃ x ∈ s.readQueue.1.graphs, ∀ ls, toposort x ≠ .ok ls
    rw [readQueue_fst, ← Stack.handleW_fst sw, hcs]
    exact handleW_cycle hsw h'
  | indices =>
    have h' : .cycle b ∈ (s.handleW sw).2 := h
    show b = s.readIndices.1.cset.order.getLast?.map (·.o) ∧ ∃ x ∈ s.readIndices.1.graphs, ∀ ls, toposort x ≠ .ok ls
    rw [readIndices_fst, ← Stack.handleW_fst sw, hcs]
    exact handleW_cycle hsw h'

theorem tower_prefix {base : Graph α} {ls : List (α × SCond α)} {gs : List (Graph α)}
    (h : Tower base ls gs) : ∀ g ∈ gs, ∃ k, composed base (ls.take k) = .ok g := by
  induction h with
  | base =>
    intro g hg
    rw [List.mem_singleton] at hg; subst hg
    exact ⟨0, rfl⟩
  | @push ls g g' gs n c ht ha ih =>
    intro x hx
    rcases List.mem_cons.1 hx with rfl | hx
    · obtain ⟨g1, rest, e, hc⟩ := ht.composed
      injection e with e _
      subst e
      refine ⟨(ls ++ [(n, c)]).length, ?_⟩
      rw [List.take_length, composed_append, hc]
      simp [composed, ha]
    · obtain ⟨k, hk⟩ := ih x hx
      refine ⟨min k ls.length, ?_⟩
      rw [List.take_append_of_le_length (Nat.min_le_right _ _)]
      rcases Nat.le_total k ls.length with h | h
      · rw [Nat.min_eq_left h]; exact hk
      · rw [Nat.min_eq_right h, List.take_length]
        rwa [List.take_of_length_le h] at hk

theorem composed_wf (es : List (α × SCond α)) :
    (∀ e ∈ es, ∀ g g', Dict.WF g → e.2.apply e.1 g = .ok g' → Dict.WF g') →
    ∀ (base g : Graph α), Dict.WF base → composed base es = .ok g → Dict.WF g := by
  induction es with
  | nil => intro _ base g hw h; simp only [composed, Except.ok.injEq] at h; exact h ▸ hw
  | cons e es ih =>
    intro he base g hw h
    obtain ⟨n, c⟩ := e
    simp only [composed] at h
    cases ha : c.apply n base with
    | error e => rw [ha] at h; cases h
    | ok g' =>
      rw [ha] at h
      exact ih (fun e h => he e (.tail _ h)) g' g (he (n, c) (.head _) base g' hw ha) h

theorem callW_last {s s' : Stack α κ W} {op : SchedOp α κ W} (h : op.call s = (s', none))
    (hr : (∀ c, op ≠ .remove c) ∧ ∀ n, op ≠ .removeOf n) :
    s'.last = some (s'.cset.order.map (·.o)) := by
  have key : ∀ t : Stack α κ W, t.handle = (s', none) → s'.last = some (s'.cset.order.map (·.o)) := by
    intro t ht
    have := Stack.handle_last ht
    rw [this.1, this.2]
  have read : ∀ t : Stack α κ W, t.handle.1 = s' → (t.handle.2 = none) → s'.last = some (s'.cset.order.map (·.o)) :=
    fun t h1 h2 => key t (Prod.ext h1 h2)
  cases op with
  | add n c =>
    simp only [SchedOp.call, Stack.addCondition] at h
    split at h
    · simp at h
    · exact key _ h
  | addSet d =>
    simp only [SchedOp.call, Stack.addConditionSet] at h
    split at h
    · simp at h
    · exact key _ h
  | remove c => exact absurd rfl (hr.1 c)
  | removeOf n => exact absurd rfl (hr.2 n)
  | graph =>
    simp only [SchedOp.call, Prod.mk.injEq] at h
    have := readGraph_state s h.2
    rw [h.1] at this
    exact key _ this
  | queue =>
    simp only [SchedOp.call, Prod.mk.injEq] at h
    have := readQueue_state s h.2
    rw [h.1] at this
    exact key _ this
  | indices =>
    simp only [SchedOp.call, Prod.mk.injEq] at h
    have := readIndices_state s h.2
    rw [h.1] at this
    exact key _ this

theorem oneOwner_eq {all : List (α × SCond α)} (h1 : OneOwner all) : ∀ (l m : List (α × SCond α)),
    (∀ e ∈ l, e ∈ all) → (∀ e ∈ m, e ∈ all) → l.map (·.2.o) = m.map (·.2.o) → l = m
  | [], [], _, _, _ => rfl
  | [], _ :: _, _, _, h => by cases h
  | _ :: _, [], _, _, h => by cases h
  | a :: l, b :: m, hl, hm, h => by
    simp only [List.map_cons, List.cons.injEq] at h
    rw [h1 a (hl a (.head _)) b (hm b (.head _)) h.1,
      oneOwner_eq h1 l m (fun e h => hl e (.tail _ h)) (fun e h => hm e (.tail _ h)) h.2]

/-- C85: a warning about a cycle is true.  After any calls that did not raise, if a call that
does not raise warns about a cycle, then the base graph transformed by the first of the
structural conditions present, for some number of them, has a cycle.  The condition named is
the last one present.  (`C86_blame_wrong`: it need not be the one that makes the cycle.) -/
theorem C85_cycle_true (mode : Mode) (base : Graph α) (st : Store α κ) (ow : OId → Option α)
    (ops : List (SchedOp α κ W)) (op : SchedOp α κ W) (s s' : Stack α κ W) (ws : List (Warning α))
    (hq : Quiet (Stack.new mode base st ow) ops s) (h1 : OneOwner ((ops ++ [op]).flatMap SchedOp.adds))
    (hsw : ∀ o n g b, .cycle b ∉ sw o n g) (hop : op.callW sw s = ((s', none), ws))
    (hb : Dict.WF base) (he : ∀ e ∈ present (ops ++ [op]), ∀ g g', Dict.WF g → e.2.apply e.1 g = .ok g' → Dict.WF g')
    (b : Option OId) (h : .cycle b ∈ ws) :
    b = (present (ops ++ [op])).getLast?.map (·.2.o) ∧
      ∃ k g, composed base ((present (ops ++ [op])).take k) = .ok g ∧ HasCycle g := by
  have hcall : op.call s = (s', none) := by rw [← SchedOp.callW_fst sw, hop]
  have hq' : Quiet (Stack.new mode base st ow) (ops ++ [op]) s' := Quiet.snoc hq hcall
  have k := callW_cycle hsw (b := b) (s := s) (op := op) (by rw [hop]; exact h)
  rw [hop] at k
  obtain ⟨kb, x, hx, hno⟩ := k
  obtain ⟨ls, hi⟩ := (SInv.new base mode st ow ((ops ++ [op]).flatMap SchedOp.adds)).quiet h1
    (fun op hop e he => List.mem_flatMap.mpr ⟨op, hop, he⟩) hq'
  have hi : SInv base mode _ (present (ops ++ [op])) ls s' := hi
  have hl : s'.last = some (s'.cset.order.map (·.o)) := by
    refine callW_last hcall ?_
    have h' : .cycle b ∈ (op.callW sw s).2 := by rw [hop]; exact h
    refine ⟨?_, ?_⟩
    · rintro c rfl
      have h' : .cycle b ∈ (s.cset.removeCondW c).2 := h'
      unfold CSet.removeCondW at h'
      simp only at h'
      repeat' split at h'
      all_goals simp at h'
    · rintro n rfl
      have h' : .cycle b ∈ (s.cset.removeOwnerW n).2 := h'
      unfold CSet.removeOwnerW at h'
      simp only at h'
      repeat' split at h'
      all_goals simp at h'
  have hls : ls = present (ops ++ [op]) := by
    have hids : ls.map (·.2.o) = (present (ops ++ [op])).map (·.2.o) := by
      rw [hi.cset.order, List.map_map] at hl
      rcases hi.stack.last with e | e
      · rw [e] at hl; injection hl
      · rw [e.1] at hl; cases hl
    exact oneOwner_eq h1 _ _ hi.lsAll hi.esAll hids
  subst hls
  refine ⟨?_, ?_⟩
  · rw [kb, hi.cset.order, List.getLast?_map, Option.map_map]; rfl
  · obtain ⟨k, hk⟩ := tower_prefix hi.stack.tower x hx
    refine ⟨k, x, hk, ?_⟩
    have hw := composed_wf _ (fun e h => he e (List.mem_of_mem_take h)) base x hb hk
    rcases toposort_spec x hw with ⟨l, h, _⟩ | ⟨_, h⟩
    · exact absurd h (hno l)
    · exact h

/-- The last call of `cyclicOps` meets the hypotheses of `C85_cycle_true`. -/
example : Quiet freshStack [.add 0 (.structural (addSenderTo 1 1))]
      (freshStack.addCondition 0 (.structural (addSenderTo 1 1))).1 ∧
    OneOwner (cyclicOps.flatMap SchedOp.adds) ∧
    ((freshStack.addCondition 0 (.structural (addSenderTo 1 1))).1.addConditionW silent 1
      (.structural (addSenderTo 2 0))).2 = [.cycle (some 2)] ∧
    ((freshStack.addCondition 0 (.structural (addSenderTo 1 1))).1.addConditionW silent 1
      (.structural (addSenderTo 2 0))).1.2 = none := by
  refine ⟨.cons rfl (.nil _), ?_, by decide +kernel, by decide +kernel⟩
  intro e he f hf h
  simp only [cyclicOps, List.flatMap_cons, List.flatMap_nil, SchedOp.adds, structEntries,
    List.append_nil, List.cons_append, List.nil_append, List.mem_cons, List.not_mem_nil,
    or_false] at he hf
  rcases he with rfl | rfl <;> rcases hf with rfl | rfl <;> first | rfl | (simp [addSenderTo] at h)

/-- C86 as stated fails for the name in the warning.  `add_condition_set` adds a condition that
closes the cycle `0 → 1 → 0`, and then one that takes the edge `0 → 1` away.  The warning
names the latter. -/
theorem C86_blame_wrong : ∃ (s : Stack Nat Nat Unit) (c d : SCond Nat) (t : Stack Nat Nat Unit),
    s = Stack.new .standard [(0, []), (1, [0])] noOwners (fun _ => none) ∧
    s.addConditionSetW silent [(1, [.structural c, .structural d])] = ((t, none), [.cycle (some d.o)]) ∧
    c.apply 1 [(0, []), (1, [0])] = .ok [(0, [1]), (1, [0])] ∧
    d.apply 1 [(0, [1]), (1, [0])] = .ok [(0, [1]), (1, [])] ∧
    t.readGraph.2 = .ok [(0, [1]), (1, [])] ∧ c.o ≠ d.o := by
  refine ⟨_, (GSC.addEdgeTo 0).toSCond (fun _ => []) 7, (GSC.removeEdgeFrom 0).toSCond (fun _ => []) 8, _,
    rfl, Prod.ext (Prod.ext rfl ?_) ?_, ?_, ?_, ?_, ?_⟩
  all_goals decide +kernel

/-- C86, what holds of the name.  If the graph has just been read (so that all conditions
have been handled) and one new structural condition is added, there is a warning about a cycle
exactly if the condition turns the graph into one that cannot be sorted, and it names this
condition.  What is missing: `add_condition_set`, and additions after removals without a read
in between. -/
theorem C86_blame_partial (hsw : ∀ o n g b, .cycle b ∉ sw o n g) (s s1 : Stack α κ W) (g : Graph α)
    (hg : s.readGraph = (s1, .ok g)) (n : α) (c : SCond α) (hn : n ∉ c.nodes) (b : Option OId) :
    .cycle b ∈ (s1.addConditionW sw n (.structural c)).2 ↔
      b = some c.o ∧ ∃ g', c.apply n g = .ok g' ∧ ∀ ls, toposort g' ≠ .ok ls := by
  have hh : s.handle = (s1, none) := by
    have h0 : raised s.readGraph.2 = none := by rw [hg]; rfl
    have := readGraph_state s h0
    rw [hg] at this; exact this
  have hlast := Stack.handle_last hh
  have hl1 : s1.last = some (s1.cset.order.map (·.o)) := by rw [hlast.1, hlast.2]
  have hgr : s1.graphs.head? = some g := by
    have := (Stack.reads_handled hh).1
    rw [hg] at this
    have := congrArg (·.2) this
    simp only at this
    cases hd : s1.graphs.head? with
    | none => rw [hd] at this; cases this
    | some g' => rw [hd] at this; injection this with this; rw [this]
  have hk : commonWith s1.last ((s1.cset.order ++ [c]).map (·.o)) = s1.cset.order.length := by
    rw [hl1, List.map_append]
    simp only [commonWith]
    have : ∀ (l m : List OId), commonPrefix l (l ++ m) = l.length := by
      intro l m
      induction l with
      | nil => cases m <;> rfl
      | cons a l ih => simp [commonPrefix, ih]
    rw [this]; simp
  have hp : numPops s1.last s1.cset.order.length = 0 := by
    rw [hl1]; simp [numPops]
  have hne : ¬ s1.last = some ((s1.cset.order ++ [c]).map (·.o)) := by
    rw [hl1]; simp
  cases hgs : s1.graphs with
  | nil => rw [hgs] at hgr; cases hgr
  | cons g0 gs =>
    rw [hgs] at hgr
    simp only [List.head?_cons, Option.some.injEq] at hgr
    subst hgr
    unfold Stack.addConditionW CSet.addW CSet.add CSet.addStructural
    simp only
    rw [if_neg hn]
    simp only [List.nil_append]
    unfold Stack.handleW
    simp only
    rw [if_neg hne, hk, hp, List.drop_left]
    unfold Stack.popN
    simp only [hgs]
    unfold Stack.pushAllW Stack.modify
    simp only [if_true]
    cases ha : c.apply n g0 with
    | error e =>
      simp only
      refine ⟨fun h => absurd h (hsw _ _ _ _), ?_⟩
      rintro ⟨_, g', h, _⟩; cases h
    | ok g' =>
      unfold Stack.pushAllW Stack.pushW
      simp only [List.append_nil, List.mem_append, Except.ok.injEq, exists_eq_left', hsw, false_or]
      cases ht : toposort g' with
      | ok ls => simp
      | error e => simp

example : freshStack.readGraph.2 = .ok threeNodes ∧
    (.cycle (some 5) ∈ ((freshStack.addCondition 0 (.structural (addSenderTo 1 1))).1.addConditionW silent 1
      (.structural (addSenderTo 5 0))).2) := by decide +kernel

/-! ## Conditions that have nothing to do -/

/-- The owner already is where a condition of this kind puts it, for this node. -/
def PlacedFor (k : Kind) (owner : α) (g : Graph α) (n : α) : Prop :=
  match k with
  | .before => Edge g owner n
  | .withNode => ∀ x, Edge g x n ↔ Edge g x owner
  | .after => Edge g n owner

theorem valid_placed {c : OpCond α} {owner : α} {s : HG α} (hs : s.Ok) (n : α) :
    c.valid owner s n = true ↔ PlacedFor c.kind owner s.value n := by
  unfold PlacedFor OpCond.valid
  cases c.kind with
  | before => simp [HG.edge_value hs]
  | after => simp [HG.edge_value hs]
  | withNode =>
    simp only [Bool.and_eq_true, List.all_eq_true, decide_eq_true_eq, HG.edge_value hs]
    exact ⟨fun h x => ⟨h.1 x, h.2 x⟩, fun h => ⟨fun x => (h x).mp, fun x => (h x).mpr⟩⟩

/-- What the warning `already` says. -/
def AlreadySays (c : OpCond α) (owner : α) (g : Graph α) (m : α) (ns : List α) (ignored : Bool) : Prop :=
  m = owner ∧ ns ≠ [] ∧ (∀ n, n ∈ ns ↔ n ∈ c.nodes ∧ PlacedFor c.kind owner g n) ∧
    (ignored = true ↔ AlreadyPlaced c owner g)

theorem filter_all (p : α → Bool) (l : List α) :
    (l.filter p).length = l.length ↔ ∀ n ∈ l, p n = true := by
  rw [← List.filter_eq_self]
  exact ⟨fun h => (List.filter_sublist).eq_of_length h, fun h => by rw [h]⟩

/-- C85: `BeforeNodes`, `WithNode` and `AfterNodes` say that the owner is already in place
exactly if it is so for a node of the condition; the nodes named are those for which it is,
and "Condition is ignored" is said exactly if it is so for all. -/
theorem C85_already (c : OpCond α) (o o' : OId) (owner : α) (g : Graph α) (hw : Dict.WF g) (m : α)
    (ns : List α) (ig : Bool) :
    (.already o' m ns ig ∈ (GSC.reposition c).warningsOn o owner g →
      o' = o ∧ AlreadySays c owner g m ns ig) ∧
    (owner ∈ Dict.keys g → (∀ n ∈ c.nodes, n ∈ Dict.keys g) →
      (∃ n ∈ c.nodes, PlacedFor c.kind owner g n) →
      ∃ ns ig, .already o owner ns ig ∈ (GSC.reposition c).warningsOn o owner g) := by
  have hs := HG.load_ok hw
  have hv : ∀ n, c.valid owner (HG.load g) n = true ↔ PlacedFor c.kind owner g n := by
    intro n
    rw [valid_placed hs, HG.load_value]
  constructor
  · intro h
    unfold GSC.warningsOn GSC.warnings at h
    simp only at h
    split at h
    · cases h
    · split at h
      · rename_i hpos
        rw [List.mem_singleton] at h
        injection h with h1 h2 h3 h4
        subst h1 h2 h3 h4
        refine ⟨rfl, rfl, fun e => by rw [e] at hpos; exact absurd hpos (by simp), fun n => ?_, ?_⟩
        · rw [List.mem_filter, hv]
        · rw [decide_eq_true_eq, filter_all]
          unfold AlreadyPlaced
          exact forall_congr' fun n => imp_congr_right fun _ => hv n
      · cases h
  · rintro ho hn ⟨n, hn1, hn2⟩
    unfold GSC.warningsOn GSC.warnings
    have hin : (GSC.reposition c).inGraph owner (HG.load g) = true := by
      simp only [GSC.inGraph, GSC.nodes, List.all_cons, Bool.and_eq_true, decide_eq_true_eq,
        List.all_eq_true, HG.keys_load]
      exact ⟨ho, hn⟩
    rw [hin]
    simp only [Bool.true_eq_false, if_false]
    have hpos : 0 < (c.nodes.filter (c.valid owner (HG.load g))).length :=
      List.length_pos_of_mem (List.mem_filter.2 ⟨hn1, (hv n).2 hn2⟩)
    rw [if_pos hpos]
    exact ⟨_, _, List.mem_singleton.2 rfl⟩

/-- C85: "is already before" (after) means: in an acyclic graph the owner is considered
strictly earlier (later) than the nodes named, and "with": at the same position. -/
theorem C85_already_order (c : OpCond α) (o o' : OId) (owner : α) (g : Graph α) (hw : Dict.WF g)
    (m : α) (ns : List α) (ig : Bool) (hc : owner ∉ c.nodes) (hcyc : ¬ HasCycle g)
    (hself : ∀ x, ¬ Edge g x x)
    (h : .already o' m ns ig ∈ (GSC.reposition c).warningsOn o owner g) (n : α) (hn : n ∈ ns) (i j : Nat)
    (hi : At (queueOf g) i owner) (hj : At (queueOf g) j n) :
    match c.kind with
    | .before => i < j
    | .withNode => i = j
    | .after => j < i := by
  obtain ⟨_, _, _, hns, _⟩ := (C85_already c o o' owner g hw m ns ig).1 h
  obtain ⟨hn1, hn2⟩ := (hns n).1 hn
  have hne : n ≠ owner := fun e => hc (e ▸ hn1)
  cases hk : c.kind with
  | before => rw [hk] at hn2; exact edge_earlier hw hcyc hn2 (Ne.symm hne) hi hj
  | after => rw [hk] at hn2; exact edge_earlier hw hcyc hn2 hne hj hi
  | withNode =>
    rw [hk] at hn2
    have he : ∀ x, Edge g x n ↔ Edge g x owner := hn2
    have hp : ∀ x, ProperEdge g x owner ↔ ProperEdge g x n := by
      intro x
      constructor
      · rintro ⟨h1, h2⟩
        exact ⟨(he x).mpr h1, fun e => hself n (e ▸ (he x).mpr h1)⟩
      · rintro ⟨h1, h2⟩
        exact ⟨(he x).mp h1, fun e => hself owner (e ▸ (he x).mp h1)⟩
    have a1 := (queue_at hw hcyc i owner).mp hi
    have a2 := (queue_at hw hcyc j n).mp hj
    have hch : ∀ k, 0 < k → (ChainTo g k owner ↔ ChainTo g k n) := by
      intro k hk
      cases k with
      | zero => cases hk
      | succ k =>
        constructor
        · rintro ⟨x, h1, h2⟩; exact ⟨x, (hp x).mp h1, h2⟩
        · rintro ⟨x, h1, h2⟩; exact ⟨x, (hp x).mpr h1, h2⟩
    rcases Nat.lt_trichotomy i j with hlt | heq | hlt
    · exact absurd ((hch (i + 1) (by omega)).mpr (chain_mono a2.1 (by omega))) a1.2
    · exact heq
    · exact absurd ((hch (j + 1) (by omega)).mp (chain_mono a1.1 (by omega))) a2.2

/-- C85: "Condition is ignored" is true: the condition leaves the graph as it is. -/
theorem C85_ignored (cyc : Graph α → List (List α)) (c : OpCond α) (o o' : OId) (owner : α) (g : Graph α)
    (hw : Dict.WF g) (hc : Constructible c owner) (m : α) (ns : List α)
    (h : .already o' m ns true ∈ (GSC.reposition c).warningsOn o owner g) :
    (GSC.reposition c).onValue cyc owner g = .ok g := by
  have h2 := ((C85_already c o o' owner g hw m ns true).1 h).2.2.2.2.1 rfl
  have hs := HG.load_ok hw
  have hin : (GSC.reposition c).inGraph owner (HG.load g) = true := by
    unfold GSC.warningsOn GSC.warnings at h
    cases hg : (GSC.reposition c).inGraph owner (HG.load g) with
    | true => rfl
    | false => rw [hg] at h; cases h
  simp only [GSC.inGraph, GSC.nodes, List.all_cons, Bool.and_eq_true, decide_eq_true_eq,
    List.all_eq_true] at hin
  obtain ⟨t, e1, e2⟩ := C36_unchanged cyc c owner (HG.load g) hs hin.1 hin.2 hc
    (by rw [HG.load_value]; exact h2)
  unfold GSC.onValue
  rw [e1]
  simp only
  rw [e2, HG.load_value]

example : (GSC.reposition gscBefore).warningsOn 4 0 [(0, []), (1, [0]), (2, [1]), (3, [0])] =
      [.already 4 0 [1] true] ∧
    (GSC.reposition { gscBefore with nodes := [1, 2] }).warningsOn 4 0
      [(0, []), (1, [0]), (2, [1]), (3, [0])] = [.already 4 0 [1] false] ∧
    (GSC.reposition gscBefore).warningsOn 4 3 [(0, []), (1, [0]), (2, [1]), (3, [0])] = [] ∧
    Constructible gscBefore 0 := ⟨by decide +kernel, by decide +kernel, by decide +kernel, by decide, fun h => by cases h⟩

/-- C85: `RemoveEdgeFrom` says that there is no edge exactly if there is none; then it leaves
the edges as they are. -/
theorem C85_no_edge (cyc : Graph α → List (List α)) (sender receiver : α) (o : OId) (g : Graph α)
    (hw : Dict.WF g) (hin : receiver ∈ Dict.keys g ∧ sender ∈ Dict.keys g) :
    (.noEdge o sender receiver ∈ (GSC.removeEdgeFrom sender).warningsOn o receiver g ↔
      ¬ Edge g sender receiver) ∧
    (.noEdge o sender receiver ∈ (GSC.removeEdgeFrom sender).warningsOn o receiver g →
      ∃ g', (GSC.removeEdgeFrom sender).onValue cyc receiver g = .ok g' ∧ Dict.keys g' = Dict.keys g ∧
        ∀ x r, Edge g' x r ↔ Edge g x r) := by
  have hs := HG.load_ok hw
  have key : .noEdge o sender receiver ∈ (GSC.removeEdgeFrom sender).warningsOn o receiver g ↔
      ¬ Edge g sender receiver := by
    have hg : (GSC.removeEdgeFrom sender).inGraph receiver (HG.load g) = true := by
      simp [GSC.inGraph, GSC.nodes, HG.keys_load, hin.1, hin.2]
    have C := HG.clone_spec hs
    have he : sender ∈ (HG.load g).clone.senders receiver ↔ Edge g sender receiver := by
      rw [← HG.edge_value C.ok, HG.clone_value hs, HG.load_value]
    unfold GSC.warningsOn GSC.warnings
    rw [hg]
    simp only [Bool.true_eq_false, if_false]
    rw [← he]
    split
    · rename_i h; simp [h]
    · rename_i h; simp [h]
  refine ⟨key, fun h => ?_⟩
  obtain ⟨g', h1, _, h3, h4⟩ := (removeEdge_value cyc hw receiver sender).1 hin
  refine ⟨g', h1, h3, fun x r => ?_⟩
  rw [h4]
  exact ⟨fun h => h.1, fun hx => ⟨hx, by rintro ⟨rfl, rfl⟩; exact key.1 h hx⟩⟩

example : (GSC.removeEdgeFrom 0).warningsOn 4 2 [(0, []), (1, [0]), (2, [1])] = [.noEdge 4 0 2] ∧
    (GSC.removeEdgeFrom 1).warningsOn 4 2 [(0, []), (1, [0]), (2, [1])] = [] := by decide +kernel

/-! ## Exact-time mode -/

/-- A scheduler in exact-time mode for two nodes without edges; node 0 executes every second
pass. -/
def exactTwo : Whole Nat Nat Unit :=
  ((Whole.new [(0, []), (1, [])] .exactTime none 1 demoWorld noOwners (fun _ => none)).addCondition 0
    (.basic (.leaf 0 (.everyNPasses 2 .environment_state_update)))).1

/-- The edge 0 → 1. -/
def exactEdge : AnyCond Nat Nat Unit := .structural ((GSC.addEdgeTo 1).toSCond (fun _ => []) 0)

/-- Three passes. -/
def exactPasses : RunArgs Nat Nat Unit :=
  { onePass with esu := .leaf 10 (.afterNPasses 3 .environment_state_update) }

/-- C86 as stated fails for the warning of exact-time mode, "graph structure conditions will
have no effect": with the condition 0 → 1 the run gives this warning, and yields something
else than without it, because node 1, which has no condition, waits for its senders in the
modified graph. -/
theorem C86_exact_effect :
    exactTwo.runWarnings = [] ∧
    (wholeRun exactTwo exactPasses 60).map (fun r => (r.1, r.2.1)) = some ([[0, 1], [1], [0, 1]], true) ∧
    (exactTwo.addCondition 0 exactEdge).2 = none ∧
    (exactTwo.addCondition 0 exactEdge).1.runWarnings = [.exactTime] ∧
    (wholeRun (exactTwo.addCondition 0 exactEdge).1 exactPasses 60).map (fun r => (r.1, r.2.1)) =
      some ([[0, 1], [], [0, 1]], true) := by
  decide +kernel

end GS.Props
