import Verif.RatedList
import Verif.Props.NPasses
/-!
# C79: the complete schedule of nodes with rates
-/

set_option linter.unusedSectionVars false

namespace GS.Props
open Spec TimeScale
variable {α κ W : Type _} [DecidableEq α] [DecidableEq κ]
variable {E : Sys α κ W → Sys α κ W → Prop} {a : RunArgs α κ W} {s0 s1 s : Sys α κ W}
variable {abs : Bool} {h : History α κ W} {pc : PC α}

/-- C79: every node has a rate, and every pass went through all consideration sets. Between
passes, and when the run has returned, the sets yielded are those of the passes so far: in
the `p`-th pass, of every consideration set the nodes whose rate divides `p`. -/
theorem C79_complete_passes (hr : Reach E a s0 false h s pc) (hE : Leaves' E a)
    (hq : s0.queue.flatten.Nodup) (hqn : ∀ n ∈ s0.queue.flatten, n ∈ s0.nodes)
    {rate : α → Nat} (hG : AllRated s0 rate) (hp : PassesReach (s0.queue.length - 1) h)
    (hpc : pc = .outer ∨ pc = .returned)
    (hl : InPass h → s0.queue.length - 1 ∈ setsConsidered (currentPass h)) :
    SameSets (yields h) (ratedSchedule rate s0.queue (passes h)) := by
  have := hr.ratedList hE hq hqn hG hp
  rcases hpc with rfl | rfl
  · exact listAt_complete this.1 this.2 hl
  · exact listAt_complete this.1 this.2 hl

theorem untilAll_eq : ∀ {nodes : List α} {pre rest : List (List α)},
    (∀ n ∈ nodes, ∃ x ∈ pre, n ∈ x) →
    (∀ l1 x l2, pre = l1 ++ x :: l2 → ∃ n ∈ nodes, ∀ y ∈ l1, n ∉ y) →
    untilAll nodes (pre ++ rest) = pre
  | nodes, [], rest, h1, _ => by
    have : nodes = [] := by
      apply List.eq_nil_iff_forall_not_mem.2
      intro n hn; obtain ⟨x, hx, _⟩ := h1 n hn; cases hx
    subst this
    cases rest <;> simp [untilAll]
  | nodes, x :: pre, rest, h1, h2 => by
    have hne : nodes ≠ [] := by
      obtain ⟨n, hn, _⟩ := h2 [] x pre rfl
      intro h; rw [h] at hn; cases hn
    rw [List.cons_append, untilAll, if_neg hne, untilAll_eq]
    · intro n hn
      obtain ⟨hn, hx⟩ := List.mem_filter.1 hn
      obtain ⟨y, hy, hny⟩ := h1 n hn
      rcases List.mem_cons.1 hy with rfl | hy
      · simp [hny] at hx
      · exact ⟨y, hy, hny⟩
    · intro l1 z l2 he
      obtain ⟨n, hn, hx⟩ := h2 (x :: l1) z l2 (by rw [he]; rfl)
      refine ⟨n, List.mem_filter.2 ⟨hn, ?_⟩, fun y hy => hx y (by simp [hy])⟩
      simpa using hx x (by simp)

theorem SameSets_split : ∀ {l l1 l2 : List (List α)}, SameSets (l1 ++ l2) l →
    ∃ m1 m2, l = m1 ++ m2 ∧ SameSets l1 m1 ∧ SameSets l2 m2
  | l, [], l2, h => ⟨[], l, rfl, .nil, h⟩
  | _, x :: l1, l2, .cons h1 h2 => by
    obtain ⟨m1, m2, rfl, h3, h4⟩ := SameSets_split (l1 := l1) h2
    exact ⟨_ :: m1, m2, rfl, .cons h1 h3, h4⟩

section
variable (hE : ∀ s s', E s s' → Agree a.id s s')
  (hq : s0.queue.flatten.Nodup) (hqn : ∀ n, n ∈ s0.queue.flatten ↔ n ∈ s0.nodes)
  {rate : α → Nat} (hG : AllRated s0 rate)
include hE hq hqn hG

/-- C79: with the default termination conditions, a run that has returned yielded the sets of
that schedule up to the one with which every node has executed. -/
theorem C79_default (ha : DefaultTermination a) (hr : Reach E a s0 false h s .returned) {M : Nat}
    (hM : ∀ n ∈ s0.nodes, rate n ≤ M) :
    SameSets (yields h) (untilAll s0.nodes (ratedSchedule rate s0.queue M)) := by
  have hL := agree_leaves ha hE hq hqn hG
  have hT : Keeps E fun s => Dict.get? s.countsTotal a.id := fun s s' he => (hE s s' he).view.total
  have hP := reaches_all ha hE hq hqn hG hr
  have hall := C15_all_have_run ha hr hT hL.nodes
  have hmin := fun l1 l2 x => C15_no_proper_prefix ha hr hT hL.nodes (l1 := l1) (l2 := l2) (x := x)
  obtain ⟨hl1, hl2⟩ := hr.ratedList hL hq (fun n hn => (hqn n).1 hn) hG hP
  -- what was yielded is an initial part of the schedule
  have hpre : ∃ pre rest, ratedSchedule rate s0.queue M = pre ++ rest ∧ SameSets (yields h) pre := by
    by_cases hi : InPass h
    · obtain ⟨k, e1, e2, e3⟩ := hl2 hi
      have hp := inPass_pos hi
      have hpm := passes_le ha hE hq hqn hG hr hM
      obtain ⟨p, hp⟩ : ∃ p, passes h = p + 1 := ⟨passes h - 1, by omega⟩
      rw [hp] at e3 hpm
      rw [Nat.add_sub_cancel] at e3
      obtain ⟨r, hr'⟩ := ratedSchedule_le rate s0.queue hpm
      rw [ratedSchedule_succ] at hr'
      by_cases hne : partPass rate s0.queue (p + 1) k = []
      · -- an empty pass is complete
        have hk : s0.queue.length ≤ k := by
          rcases hr.passEnded ha hT hL.nodes hL.queue hi with h3 | h3
          · apply Classical.byContradiction
            intro hk
            have := h3 k (by omega)
            rw [e1, List.mem_range] at this
            omega
          · exfalso
            rw [hne] at e3
            obtain ⟨m1, m2, g1, g2, g3⟩ := SameSets_split e3.symm
            have : ∃ z, m2 = [z] ∧ ∀ n, n ∉ z := by
              cases g3 with
              | cons g4 g5 =>
                cases g5
                exact ⟨_, rfl, fun n hn => by have := (g4 n).2 hn; cases this⟩
            obtain ⟨z, rfl, hz⟩ := this
            obtain ⟨n, hn, hno⟩ := hmin m1 [] z g1
            obtain ⟨x, hx, hnx⟩ := hall n hn
            rw [g1] at hx
            rcases List.mem_append.1 hx with hx | hx
            · exact hno x hx hnx
            · rw [List.mem_singleton.1 hx] at hnx
              exact hz n hnx
        rw [partPass_all hk] at e3
        exact ⟨_, r, hr', e3⟩
      · rw [orEmpty_of_ne (partPass_ne _ _ _ _) hne] at e3
        obtain ⟨r', hr''⟩ := partPass_prefix rate s0.queue (p + 1) k hne
        refine ⟨_, r' ++ r, ?_, e3⟩
        rw [hr', hr'']; simp
    · rw [hl1 hi]; exact ⟨[], _, rfl, .nil⟩
  obtain ⟨pre, rest, h1, h2⟩ := hpre
  rw [h1, untilAll_eq]
  · exact h2
  · intro n hn
    obtain ⟨x, hx, hnx⟩ := hall n hn
    obtain ⟨y1, y2, hy⟩ := List.append_of_mem hx
    rw [hy] at h2
    obtain ⟨m1, m2, rfl, _, g3⟩ := SameSets_split h2
    cases g3 with
    | cons g4 _ => exact ⟨_, by simp, (g4 n).1 hnx⟩
  · intro l1 x l2 he
    rw [he] at h2
    obtain ⟨m1, m2, g1, g2, g3⟩ := SameSets_split h2.symm
    cases g3 with
    | cons g4 _ =>
      obtain ⟨n, hn, hno⟩ := hmin m1 _ _ g1
      refine ⟨n, hn, fun y hy hny => ?_⟩
      obtain ⟨y1, y2, rfl⟩ := List.append_of_mem hy
      obtain ⟨k1, k2, rfl, _, g6⟩ := SameSets_split g2
      cases g6 with
      | cons g7 _ => exact hno _ (by simp) ((g7 n).1 hny)

/-- C79: such a run, left alone, returns, and yields that list. -/
theorem C79_default_run (ha : DefaultTermination a) {log} (hc : Shows (s0.clock a.id) log) {s1}
    (hs : s0.start a = (s1, .ok false)) {M : Nat} (hM : ∀ n ∈ s0.nodes, rate n ≤ M)
    (hM' : ∃ n ∈ s0.nodes, rate n = M) :
    ∃ k h s, exec s0 a k = some (false, h, s, .returned) ∧
      SameSets (yields h) (untilAll s0.nodes (ratedSchedule rate s0.queue M)) := by
  obtain ⟨k, h, s, h1, _⟩ := C62_returns ha (E := E) hE hq hqn hG hc hs hM hM'
  have hr : Reach (fun _ _ => False) a s0 false h s .returned := exec_reach h1
  exact ⟨k, h, s, h1, C79_default (fun _ _ h => h.elim) hq hqn hG ha hr hM⟩

/-- C79: a run that ends after `N` passes yields the sets of the missing passes. -/
theorem C79_n_passes {N : Nat} {ts : TimeScale} (ha : EndsAfter a N ts) (hts : pass.val < ts.val)
    {log : List TimeScale} (h0 : Shows (s0.clock a.id) log) (hne : s0.queue ≠ [])
    (hr : Reach E a s0 false h s .returned) :
    SameSets (yields h) (ratedSchedule rate s0.queue (N - elapsed log ts pass)) := by
  have hL : Leaves' E a :=
    ⟨fun s s' he => (hE s s' he).view.queue, fun s s' he => (hE s s' he).view.nodes,
      fun s s' he => (hE s s' he).conds, fun s s' he => (hE s s' he).store.owner,
      fun s s' he => (hE s s' he).view.useable⟩
  have hC : Keeps E (fun s => s.clock a.id) := fun s s' he => (hE s s' he).view.clock
  have hlen : s0.queue.length - 1 < s0.queue.length := by
    cases hx : s0.queue with
    | nil => exact absurd hx hne
    | cons => simp
  have hset := hr.setsAt hC hL.queue ha hts h0
  rw [← hset.2.1]
  refine C79_complete_passes hr hL hq (fun n hn => (hqn n).1 hn) hG
    (C78_passes_reach ha hts hC hL.queue h0 hr hlen) (.inr rfl) fun hin => ?_
  rw [hset.2.2 hin, List.mem_range]
  exact hlen

end

/-- C79: such a run, left alone, returns. -/
theorem C79_n_passes_run (hq : s0.queue.flatten.Nodup)
    (hqn : ∀ n, n ∈ s0.queue.flatten ↔ n ∈ s0.nodes) {rate : α → Nat} (hG : AllRated s0 rate)
    {N : Nat} {ts : TimeScale} {o o' : OId} (ha : a.esu = .leaf o (.afterNPasses N ts))
    (ha' : a.seq = .leaf o' .never) (hts : pass.val < ts.val)
    {log : List TimeScale} (h0 : Shows (s0.clock a.id) log) (hne : s0.queue ≠ [])
    (hs : s0.start a = (s1, .ok false)) :
    ∃ k h s, exec s0 a k = some (false, h, s, .returned) ∧
      SameSets (yields h) (ratedSchedule rate s0.queue (N - elapsed log ts pass)) := by
  have hA : EndsAfter a N ts := ⟨o, o', .inl ⟨ha, ha'⟩⟩
  obtain ⟨k, h, s, pc, h1, h2⟩ := C78_ends hA hts h0 hs
  have safe : ∀ {ab} {h : History α κ W} {s pc}, Reach (fun _ _ => False) a s0 ab h s pc → ab = false →
      ∀ e, pc ≠ .raised e := by
    intro ab h s pc hr
    induction hr with
    | start hs => simp
    | env _ _ h => exact h.elim
    | @step abs h s s' pc pc' ev hr hst ih =>
      intro hab
      subst hab
      have hpc := ih rfl
      have hL : Leaves' (fun _ _ => False) a :=
        ⟨fun _ _ h => h.elim, fun _ _ h => h.elim, fun _ _ h => h.elim, fun _ _ h => h.elim,
          fun _ _ h => h.elim⟩
      obtain ⟨f, _, hf, _⟩ := C11_run_count hr fun _ _ h => h.elim
      obtain ⟨u, hu, _⟩ := hr.useable hL.useable
      obtain ⟨l0, hl0, _⟩ := (Sys.start_ok hs).list
      have hl := hr.execs (fun _ _ h => h.elim) hpc hs hl0
      obtain ⟨lg, hlg⟩ := (hr.clockAt (fun _ _ h => h.elim) h0).shows hpc
      refine Sys.step_safe (fun st _ _ => ⟨_, by rw [ha, (C22_passes hlg hts N).2.2.2.1]⟩)
        (fun d st _ _ => ⟨false, by rw [ha']; simp [eval, evalLeaf]⟩) hlg hf hu hl ?_ hpc hst
      rintro c rfl n hn
      have ci := hr.choice c rfl
      obtain ⟨d, hdd⟩ := ci.todo
      have hat : At s0.queue c.idx n :=
        ⟨c.layer, by rw [← hr.keepQueue hL.queue]; exact ci.queue, by rw [hdd]; simp [hn]⟩
      have hmem := (hqn n).1 (At.mem hat)
      obtain ⟨i, l, _, _, h3, _, h5⟩ := hG n hmem
      obtain ⟨cd, c1, c2⟩ := h3.started hs hmem
      have hns := hr.keepNodes hL.nodes
      refine ⟨by rw [hns]; exact hmem, cd, by rw [hr.keepConds hL.conds hs]; exact c1, fun st ho _ => ?_⟩
      rw [c2.eval (ho.trans (hr.keepOwner hL.owner hs)) hu (by rw [hns]; exact hmem)
        (fun p hp => by rw [hns]; exact (h5 p hp).1)]
      exact ⟨_, rfl⟩
  have hr : Reach (fun _ _ => False) a s0 false h s pc := exec_reach h1
  have hpc : pc = .returned := by
    rcases h2 with h | ⟨e, he⟩
    · exact h
    · exact absurd he (safe hr rfl e)
  subst hpc
  exact ⟨k, h, s, h1, C79_n_passes (fun _ _ h => h.elim) hq hqn hG hA hts h0 hne hr⟩

/-- `rated`: node 0 has rate 1, node 1 rate 2, nodes 2 and 3 rate 3. -/
example : ratedSchedule ratedRate rated.queue 4 = [[0], [0], [1], [0], [2], [3], [0], [1]] ∧
    untilAll rated.nodes (ratedSchedule ratedRate rated.queue 3) = [[0], [0], [1], [0], [2], [3]] ∧
    rated.queue.flatten.Nodup ∧ (∀ n, n ∈ rated.queue.flatten ↔ n ∈ rated.nodes) ∧
    AllRated rated ratedRate ∧ DefaultTermination demoArgs ∧
    EndsAfter demoThree 3 environment_state_update ∧
    Shows (rated.clock demoArgs.id) [] ∧ (rated.start demoArgs).2 = .ok false ∧
    (rated.start demoThree).2 = .ok false ∧ rated.queue ≠ [] ∧
    (∀ n ∈ rated.nodes, ratedRate n ≤ 3) ∧ (∃ n ∈ rated.nodes, ratedRate n = 3) := by
  refine ⟨by decide, by decide, by decide, ?_, rated_all, ⟨10, 11, rfl, rfl⟩,
    ⟨10, 11, .inl ⟨rfl, rfl⟩⟩, .new, by decide +kernel, by decide +kernel, by decide, by decide,
    ⟨3, by decide⟩⟩
  intro n
  rw [show rated.queue.flatten = [0, 1, 2, 3] by decide]
  have h1 : ∀ x ∈ rated.nodes, x ∈ [0, 1, 2, 3] := by decide
  have h2 : ∀ x ∈ [0, 1, 2, 3], x ∈ rated.nodes := by decide
  exact ⟨h2 n, h1 n⟩

end GS.Props
