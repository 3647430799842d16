import Verif.RunEnds
import Verif.Props.Demo
import Verif.Props.Time
/-!
# C08 (the loop ends) and C18
-/

set_option linter.unusedSectionVars false

namespace GS
open Spec
variable {α κ W β : Type _} [DecidableEq α] [DecidableEq κ]
variable {E : Sys α κ W → Sys α κ W → Prop} {a : RunArgs α κ W} {s0 s : Sys α κ W}
variable {abs : Bool} {h : History α κ W} {pc : PC α}

theorem setsConsidered_length (h : History α κ W) :
    (setsConsidered h).length = h.countP isConsider := by
  induction h with
  | nil => rfl
  | cons e h ih =>
    rw [List.countP_cons, ← ih]
    unfold setsConsidered
    rw [List.filterMap_cons]
    cases he : e.ev <;> simp [isConsider, he]

theorem choiceEnds (m : Nat) : ∀ {h s c}, Reach E a s0 abs h s (.choosing c) →
    choiceCost c ≤ m → ∃ k d s' pc', steps a abs k h s (.choosing c) = (h ++ d, s', pc') ∧
      ((∃ d' e set shown, d = d' ++ [e] ∧ e.ev = .layer c.idx set shown ∧
          ∀ x ∈ d', ∃ n, x.ev = .add n) ∨ ∃ err, pc' = .raised err) := by
  induction m using Nat.strongRecOn with
  | _ m ih =>
  intro h s c hr hm
  rcases hs : s.step a abs (.choosing c) with ⟨s', pc', ev⟩
  have hst := Sys.step_stepR hs
  have hr' := Reach.step hr hs
  have onward : ∀ c', pc' = .choosing c' → c'.idx = c.idx → choiceCost c' < choiceCost c →
      (∀ x, ev = some x → ∃ n, x = .add n) →
      ∃ k d s' pc', steps a abs k h s (.choosing c) = (h ++ d, s', pc') ∧
      ((∃ d' e set shown, d = d' ++ [e] ∧ e.ev = .layer c.idx set shown ∧
          ∀ x ∈ d', ∃ n, x.ev = .add n) ∨ ∃ err, pc' = .raised err) := by
    intro c' hc' hi hlt hev
    subst hc'
    obtain ⟨k, d, s2, pc2, h1, h2⟩ := ih _ (Nat.lt_of_lt_of_le hlt hm) hr' (Nat.le_refl _)
    refine ⟨k + 1, ev.toList.map (fun x => ⟨s, x, s'⟩) ++ d, s2, pc2, ?_, ?_⟩
    · simp only [steps, hs]
      have : ext h s ev s' = h ++ ev.toList.map fun x => ⟨s, x, s'⟩ := rfl
      rw [this, h1]; simp
    · rcases h2 with ⟨d', e, set, shown, rfl, g2, g3⟩ | h2
      · refine .inl ⟨ev.toList.map (fun x => ⟨s, x, s'⟩) ++ d', e, set, shown, by simp, ?_, ?_⟩
        · rw [g2, hi]
        · intro x hx
          rcases List.mem_append.1 hx with hx | hx
          · cases ev with
            | none => simp at hx
            | some y =>
              simp at hx
              obtain ⟨n, hn⟩ := hev y rfl
              exact ⟨n, by rw [hx, hn]⟩
          · exact g3 x hx
      · exact .inr h2
  have close : ∀ set shown, ev = some (.layer c.idx set shown) →
      ∃ k d s' pc', steps a abs k h s (.choosing c) = (h ++ d, s', pc') ∧
      ((∃ d' e set shown, d = d' ++ [e] ∧ e.ev = .layer c.idx set shown ∧
          ∀ x ∈ d', ∃ n, x.ev = .add n) ∨ ∃ err, pc' = .raised err) := by
    intro set shown hev
    subst hev
    exact ⟨1, [⟨s, .layer c.idx set shown, s'⟩], s', pc', by simp [steps, hs],
      .inl ⟨[], _, set, shown, rfl, rfl, by simp⟩⟩
  cases hst with
  | again ht hag => exact onward _ rfl rfl (by simp only [choiceCost, ht, hag]; simp) (by simp)
  | skip ht hn =>
    exact onward _ rfl rfl (by simp only [choiceCost, ht, List.length_cons]; omega) (by simp)
  | reject ht hn =>
    exact onward _ rfl rfl (by simp only [choiceCost, ht, List.length_cons]; omega) (by simp)
  | @add _ n ns cond st f u ht hn =>
    have ci := hr.choice c rfl
    obtain ⟨d, hd⟩ := ci.todo
    have := choiceCost_decr ci.nodup ci.sub (n := n) (ns := ns) (by rw [hd, ht]; simp) ht hn
    exact onward _ rfl rfl (by omega) (by simp)
  | yield => exact close _ _ rfl
  | yieldAbs => exact close _ _ rfl
  | silent => exact close _ _ rfl
  | @fails _ _ e _ hp hfr hev =>
    rcases hev with rfl | ⟨hx, _, _⟩
    · exact ⟨1, [], s', .raised e, by simp [steps, hs], .inr ⟨e, rfl⟩⟩
    · cases hx

namespace Props

/-- C08: the loop that chooses an execution set ends: from every state in which a set is
being chosen, finitely many steps complete it (or a condition raises). -/
theorem C08_choice_ends {c : Choice α} (hr : Reach E a s0 abs h s (.choosing c)) :
    ∃ k d s' pc', steps a abs k h s (.choosing c) = (h ++ d, s', pc') ∧
      ((∃ d' e set shown, d = d' ++ [e] ∧ e.ev = .layer c.idx set shown ∧
          ∀ x ∈ d', ∃ n, x.ev = .add n) ∨ ∃ err, pc' = .raised err) :=
  choiceEnds _ hr (Nat.le_refl _)

/-- C18: outside absolute-time mode, every request for the next set comes back: from
every state of a run, finitely many (and at least one) steps lead to a `yield`, a return
or an exception, and the choice of at most twice as many sets as there are consideration
sets is begun until then. -/
theorem C18_next_returns (hr : Reach E a s0 false h s pc) :
    ∃ k d s' pc', steps a false (k + 1) h s pc = (h ++ d, s', pc') ∧
      (pc'.suspended = true ∨ pc'.final = true) ∧
      (setsConsidered d).length ≤ 2 * s.queue.length := by
  obtain ⟨s1, pc1, ev, hs, hc⟩ := hr.comes
  obtain ⟨k, d, s', pc', h1, h2, h3⟩ := hc (ext h s ev s1)
  refine ⟨k, ev.toList.map (fun x => ⟨s, x, s1⟩) ++ d, s', pc', ?_, h2, ?_⟩
  · simp only [steps, hs]
    rw [h1]; simp [ext]
  · rw [setsConsidered_length, List.countP_append]
    have hle : (ev.toList.map (fun x => (⟨s, x, s1⟩ : Entry α κ W))).countP isConsider = considers ev := by
      cases ev with
      | none => rfl
      | some x => cases x <;> rfl
    have hq : considers ev ≤ 2 * s.queue.length := by
      cases Sys.step_stepR hs with
      | @consider idx changed st layer hq' =>
        have hlt : idx < s.queue.length := by
          obtain ⟨h, _⟩ := List.getElem?_eq_some_iff.1 hq'; exact h
        simp only [considers]; omega
      | fails hp hfr hev => rcases hev with rfl | ⟨_, rfl, _⟩ <;> simp [considers]
      | _ => simp [considers]
    omega

/-- C18 in absolute-time mode, for a non-empty consideration queue: the same, and the
choice of at most one set is begun. -/
theorem C18_next_returns_absolute (hr : Reach E a s0 true h s pc) (hq : s.queue ≠ []) :
    ∃ k d s' pc', steps a true (k + 1) h s pc = (h ++ d, s', pc') ∧
      (pc'.suspended = true ∨ pc'.final = true) ∧ (setsConsidered d).length ≤ 1 := by
  have fin : ∀ {s1 pc1}, s.step a true pc = (s1, pc1, none) → Reach E a s0 true h s1 pc1 →
      pc1.suspended = false → s1.queue = s.queue →
      ∃ k d s' pc', steps a true (k + 1) h s pc = (h ++ d, s', pc') ∧
      (pc'.suspended = true ∨ pc'.final = true) ∧ (setsConsidered d).length ≤ 1 := by
    intro s1 pc1 hs hr1 hp1 hq1
    obtain ⟨k, d, s', pc', h1, h2, h3⟩ := hr1.comesAbs (by rw [hq1]; exact hq) hp1 h
    exact ⟨k, d, s', pc', by simp only [steps, hs, ext_none]; exact h1, h2, by
      rw [setsConsidered_length]; exact h3⟩
  by_cases hp : pc.suspended = true
  · rcases hs : s.step a true pc with ⟨s1, pc1, ev⟩
    have hst := Sys.step_stepR hs
    have hr' := Reach.step hr hs
    have hq1 := hst.frame.queue
    cases hst with
    | resume => exact fin hs (by simpa using hr') rfl hq1
    | resumeEmpty => exact fin hs (by simpa using hr') rfl hq1
    | fails _ _ hev =>
      rcases hev with rfl | ⟨hx, _, _⟩
      · exact fin hs (by simpa using hr') rfl hq1
      · subst hx; cases hp
    | _ => simp [PC.suspended] at hp
  · obtain ⟨k, d, s', pc', h1, h2, h3⟩ := hr.comesAbs hq (by simpa using hp) h
    cases k with
    | succ k => exact ⟨k, d, s', pc', h1, h2, by rw [setsConsidered_length]; exact h3⟩
    | zero =>
      simp only [steps, Prod.mk.injEq] at h1
      obtain ⟨e1, rfl, rfl⟩ := h1
      have hfin : pc.final = true := by
        rcases h2 with h2 | h2
        · exact absurd h2 hp
        · exact h2
      refine ⟨0, [], s, pc, ?_, .inr hfin, by simp [setsConsidered]⟩
      cases pc <;> simp [PC.final] at hfin <;> simp [steps, Sys.step]

/-- The scheduler for the empty graph, and a run ended by
`TimeTermination(5, inclusive=False)`. -/
def emptySched : Sys Nat Nat Unit := Sys.new [] .standard none 1 demoWorld

def emptyArgs : RunArgs Nat Nat Unit :=
  { id := none, esu := .leaf 0 (.timeTermination ⟨5, 0⟩ false), seq := .leaf 1 .never }

/-- What is left of C18: in absolute-time mode on an empty graph the run neither yields
nor ends, whatever number of steps is made (passes go by without advancing the absolute
time). -/
theorem C18_empty_graph_absolute_diverges :
    ∃ s1, emptySched.start emptyArgs = (s1, .ok true) ∧
      ∀ k, (steps emptyArgs true k [] s1 .outer).2.2.suspended = false ∧
        (steps emptyArgs true k [] s1 .outer).2.2.final = false := by
  have h0 : (emptySched.start emptyArgs).2 = .ok true := by decide +kernel
  have hab0 : ((emptySched.start emptyArgs).1.clock none).time.absolute = 0 := by decide +kernel
  obtain ⟨s1, h1⟩ : ∃ s1, emptySched.start emptyArgs = (s1, .ok true) := ⟨_, Prod.ext rfl h0⟩
  rw [h1] at hab0
  have hs := Sys.start_ok h1
  refine ⟨s1, h1, ?_⟩
  have inv : ∀ k (h : History Nat Nat Unit) (s : Sys Nat Nat Unit) (pc : PC Nat),
      s.queue = [] → (s.clock none).time.absolute = 0 →
      (∃ log, NoLife log ∧ (s.clock none).tree = Tree.ofLog Clock.maxDepth 4 0 log) →
      (∃ f, Dict.get? s.countsTotal none = some f) →
      (pc = .outer ∨ pc = .inner 0 false) →
      (steps emptyArgs true k h s pc).2.2.suspended = false ∧
        (steps emptyArgs true k h s pc).2.2.final = false := by
    intro k
    induction k with
    | zero =>
      intro h s pc _ _ _ _ hp
      rcases hp with rfl | rfl <;> exact ⟨rfl, rfl⟩
    | succ k ih =>
      intro h s pc hq hc ht hf hp
      obtain ⟨f, hf⟩ := hf
      obtain ⟨log, hlog, ht⟩ := ht
      have hcont : s.continues emptyArgs = (s, .ok true) := by
        have h5 : decide ((5 : Rat) < 0) = false := by decide
        unfold Sys.continues Sys.evalCond
        have hid : emptyArgs.id = none := rfl
        simp [emptyArgs, eval, evalLeaf, hc, Qty.val, h5]
      rcases hp with rfl | rfl
      · have : s.step emptyArgs true .outer =
            (s.putTotal none (resetF .pass f), .inner 0 false, some .passStart) := by
          simp only [Sys.step, hcont, Sys.resetTotal]
          have hid : emptyArgs.id = none := rfl
          rw [hid, hf]; rfl
        simp only [steps, this]
        exact ih _ _ _ hq hc ⟨log, hlog, ht⟩ ⟨_, Dict.get?_set_self _ _ _⟩ (.inr rfl)
      · obtain ⟨t', hi⟩ : ∃ c', (s.clock none).incr .pass = .ok c' ∧ c'.time.absolute = 0 ∧
            ∃ log, NoLife log ∧ c'.tree = Tree.ofLog Clock.maxDepth 4 0 log := by
          unfold Clock.incr
          rw [ht, Tree.incr_ofLog Clock.maxDepth (by decide) .pass 3 0 log (by decide)]
          refine ⟨_, rfl, ?_, log ++ [.pass], ?_, rfl⟩
          · simp [Time.incr, Time.reset, Time.set, hc]
          · intro e he
            rcases List.mem_append.1 he with he | he
            · exact hlog e he
            · simp at he; subst he; decide
        have : s.step emptyArgs true (.inner 0 false) = (s.setClock none t', .outer, none) := by
          simp only [Sys.step, hq, List.getElem?_nil, Sys.endPass, Sys.incrClock]
          have hid : emptyArgs.id = none := rfl
          rw [hid, hi.1]; rfl
        simp only [steps, this]
        refine ih _ _ _ hq ?_ ?_ ⟨f, hf⟩ (.inl rfl)
        · rw [Sys.clock_setClock]; exact hi.2.1
        · rw [Sys.clock_setClock]; exact hi.2.2
  intro k
  refine inv k _ _ _ (by rw [hs.queue]; decide) hab0 ⟨[], by decide, ?_⟩ ?_ (.inl rfl)
  · obtain ⟨ab, ai, ae, hcl⟩ := hs.clock
    unfold View.clock
    rw [hcl]
    have hid : emptyArgs.id = none := rfl
    rw [hid, Dict.get?_set_self]
    have h := Clock.tree_new
    rw [Tree.new_eq_ofLog Clock.maxDepth (by decide)] at h
    injection h with h
    rw [h]; rfl
  · obtain ⟨f, hf, _⟩ := hs.total
    exact ⟨f, hf⟩

example : (∃ c, (demoAfter 2).2.2 = .choosing c) ∧
    (demoAfter 2).2.1.queue = [[0], [1, 2]] := by
  refine ⟨?_, by decide +kernel⟩
  have h : (match (demoAfter 2).2.2 with | .choosing _ => true | _ => false) = true := by
    decide +kernel
  revert h
  generalize (demoAfter 2).2.2 = p
  cases p with
  | choosing c => intro _; exact ⟨c, rfl⟩
  | _ => intro h; cases h

end Props
end GS
