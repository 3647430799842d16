import Verif.Spec.NPasses
import Verif.Rates
import Verif.Props.EveryN
import Verif.Props.CondTime
import Verif.RunClock
/-!
# Runs that end after a number of passes
-/

set_option linter.unusedSectionVars false

namespace GS
open Spec Props TimeScale
variable {α κ W : Type _} [DecidableEq α] [DecidableEq κ]
variable {E : Sys α κ W → Sys α κ W → Prop} {a : RunArgs α κ W} {s0 s1 s : Sys α κ W}
variable {abs : Bool} {h : History α κ W} {pc : PC α}

theorem times_succ (n : Nat) (l : List β) : times (n + 1) l = times n l ++ l := by
  unfold times; rw [List.replicate_succ']; simp

theorem count_passTicks (ps : List (List (List α))) : (passTicks ps).count pass = ps.length := by
  induction ps with
  | nil => rfl
  | cons p ps ih =>
    have : passTicks (p :: ps) =
        List.replicate p.length consideration_set_execution ++ [pass] ++ passTicks ps := by
      simp [passTicks]
    rw [this, List.count_append, List.count_append, ih, List.count_replicate]
    simp; omega

theorem passTicks_fine (ps : List (List (List α))) {e : TimeScale} (he : e ∈ passTicks ps) :
    e.val ≤ pass.val := by
  unfold passTicks at he
  obtain ⟨p, _, he⟩ := List.mem_flatMap.1 he
  rcases List.mem_append.1 he with h | h
  · rw [(List.mem_replicate.1 h).2]; decide
  · rw [List.mem_singleton.1 h]; exact Nat.le_refl _

theorem passYields_passes (hr : Reach E a s0 abs h s pc) : (passYields h).length = passes h := by
  rw [hr.passYields_flatten.2.1]
  unfold passes isPassStart
  rw [List.countP_eq_length_filter]

/-- The passes completed, as the clock counts them. -/
theorem Reach.passesElapsed (hr : Reach E a s0 abs h s pc) (hE : Keeps E (fun s => s.clock a.id))
    {log0 : List TimeScale} (h0 : Shows (s0.clock a.id) log0) {ts : TimeScale}
    (hts : pass.val < ts.val) :
    (pc = .outer → ∃ log, Shows (s.clock a.id) log ∧
      elapsed log ts pass = elapsed log0 ts pass + passes h) ∧
    (∀ k ch, pc = .inner k ch → ∃ log, Shows (s.clock a.id) log ∧
      elapsed log ts pass = elapsed log0 ts pass + (passes h - 1)) := by
  have hc := hr.clockAt hE h0
  have hl := passYields_passes hr
  constructor
  · rintro rfl
    refine ⟨_, hc, ?_⟩
    rw [Props.elapsed_append _ _ _ _ fun e he => Nat.lt_of_le_of_lt (passTicks_fine _ he) hts,
      count_passTicks, hl]
  · rintro k ch rfl
    obtain ⟨ps, p, e1, e2⟩ := hc
    rw [List.append_assoc] at e2
    refine ⟨_, e2, ?_⟩
    rw [e1, List.length_append] at hl
    simp only [List.length_singleton] at hl
    rw [Props.elapsed_append _ _ _ _ (fun e he => by
      rcases List.mem_append.1 he with h | h
      · exact Nat.lt_of_le_of_lt (passTicks_fine _ h) hts
      · rw [(List.mem_replicate.1 h).2]; exact Nat.lt_trans (by decide) hts),
      List.count_append, count_passTicks, List.count_replicate]
    simp; omega

section
variable {N : Nat} {ts : TimeScale} (ha : EndsAfter a N ts) (hts : pass.val < ts.val)
include ha hts

theorem going_lt {log : List TimeScale} (hl : Shows (s.clock a.id) log) {st}
    (hg : Going s a st) : elapsed log ts pass < N := by
  obtain ⟨o, o', ⟨e1, e2⟩ | ⟨e1, e2⟩⟩ := ha
  · obtain ⟨st1, h1, _⟩ := hg
    rw [e1, (C22_passes hl hts N).2.2.2.1] at h1
    simp at h1; omega
  · obtain ⟨st1, _, h1⟩ := hg
    rw [e2, (C22_passes hl hts N).2.2.2.1] at h1
    simp at h1; omega

theorem done_le {log : List TimeScale} (hl : Shows (s.clock a.id) log) {st}
    (hd : Done s a st) : N ≤ elapsed log ts pass := by
  obtain ⟨o, o', ⟨e1, e2⟩ | ⟨e1, e2⟩⟩ := ha
  · rcases hd with h1 | ⟨st1, _, h1⟩
    · rw [e1, (C22_passes hl hts N).2.2.2.1] at h1
      simp at h1; omega
    · rw [e2] at h1; simp [eval, evalLeaf] at h1
  · rcases hd with h1 | ⟨st1, _, h1⟩
    · rw [e1] at h1; simp [eval, evalLeaf] at h1
    · rw [e2, (C22_passes hl hts N).2.2.2.1] at h1
      simp at h1; omega

end

/-- What has been considered, by program counter; at most `N` passes, of `L` sets each. -/
def SetsAt (N L : Nat) (h : History α κ W) : PC α → Prop
  | .outer | .yieldedEmpty => setsConsidered h = times (passes h) (List.range L) ∧ passes h ≤ N ∧
      (InPass h → setsConsidered (currentPass h) = List.range L)
  | .returned => setsConsidered h = times (passes h) (List.range L) ∧ passes h = N ∧
      (InPass h → setsConsidered (currentPass h) = List.range L)
  | .inner k _ => setsConsidered h = times (passes h - 1) (List.range L) ++ List.range k ∧
      1 ≤ passes h ∧ passes h ≤ N
  | .choosing c => setsConsidered h = times (passes h - 1) (List.range L) ++ List.range (c.idx + 1) ∧
      1 ≤ passes h ∧ passes h ≤ N
  | .yielded k _ => setsConsidered h = times (passes h - 1) (List.range L) ++ List.range (k + 1) ∧
      1 ≤ passes h ∧ passes h ≤ N
  | .raised _ => passes h ≤ N

theorem SetsAt.le {N L : Nat} {h : History α κ W} {pc : PC α} (hs : SetsAt N L h pc) :
    passes h ≤ N := by
  cases pc with
  | outer => exact hs.2.1
  | yieldedEmpty => exact hs.2.1
  | returned => exact Nat.le_of_eq hs.2.1
  | inner => exact hs.2.2
  | choosing => exact hs.2.2
  | yielded => exact hs.2.2
  | raised => exact hs

theorem Reach.setsAt (hr : Reach E a s0 abs h s pc) (hE : Keeps E (fun s => s.clock a.id))
    (hQ : Keeps E fun s => s.queue) {N : Nat} {ts : TimeScale} (ha : EndsAfter a N ts)
    (hts : pass.val < ts.val) {log0 : List TimeScale} (h0 : Shows (s0.clock a.id) log0) :
    SetsAt (N - elapsed log0 ts pass) s0.queue.length h pc := by
  refine hr.ind (P := fun h _ pc => SetsAt (N - elapsed log0 ts pass) s0.queue.length h pc) ?_ ?_ ?_
  · intro s _
    exact ⟨rfl, Nat.zero_le _, fun ⟨e, he, _⟩ => by cases he⟩
  · intro h s s' pc pc' ev hr ih hst
    have psame : ∀ x : Event α, x ≠ .passStart → passes (ext h s (some x) s') = passes h := by
      intro x hx; rw [passes_ext, if_neg hx]; rfl
    have csame : ∀ x : Event α, (∀ i l, x ≠ .consider i l) →
        setsConsidered (ext h s (some x) s') = setsConsidered h := by
      intro x hx
      rw [ext_some, setsConsidered_snoc]
      cases x <;> simp at hx ⊢
    -- a pass ends only after the last set
    have leave : ∀ idx ch st, pc = .inner idx ch → GS.Leaves s a idx st →
        setsConsidered (currentPass h) = List.range s0.queue.length ∧
        setsConsidered h = times (passes h) (List.range s0.queue.length) := by
      rintro idx ch st rfl hl
      obtain ⟨k, hk, e1, e2⟩ := hr.considered_range hQ
      cases hk
      have hi : idx = s0.queue.length := by
        rcases hl with ⟨hl, _⟩ | ⟨_, hd⟩
        · rw [hr.keepQueue hQ] at hl
          have := List.getElem?_eq_none_iff.1 hl
          omega
        · obtain ⟨log, hl, he⟩ := (hr.passesElapsed hE h0 hts).2 _ _ rfl
          have := done_le ha hts hl hd
          have := ih.2
          omega
      subst hi
      refine ⟨e1, ?_⟩
      obtain ⟨p, hp⟩ : ∃ p, passes h = p + 1 := ⟨passes h - 1, by have := ih.2; omega⟩
      have := ih.1
      rw [hp] at this ⊢
      rw [times_succ]; exact this
    cases hst with
    | pass hg =>
      obtain ⟨log, hl, he⟩ := (hr.passesElapsed hE h0 hts).1 rfl
      have := going_lt ha hts hl hg
      refine ⟨?_, ?_, ?_⟩
      · rw [csame _ (by simp), passes_ext, if_pos rfl, ih.1]; simp
      · rw [passes_ext, if_pos rfl]; omega
      · rw [passes_ext, if_pos rfl]; omega
    | stopSkip hd =>
      obtain ⟨log, hl, he⟩ := (hr.passesElapsed hE h0 hts).1 rfl
      have := done_le ha hts hl hd
      have := ih.2.1
      refine ⟨by rw [csame _ (by simp), psame _ (by simp)]; exact ih.1,
        by rw [psame _ (by simp)]; omega, ?_⟩
      rw [inPass_ext _ _ _ _ (by simp), setsConsidered_cur_ext _ _ _ _ (by simp) (by simp)]
      exact ih.2.2
    | stopIncr hd =>
      obtain ⟨log, hl, he⟩ := (hr.passesElapsed hE h0 hts).1 rfl
      have := done_le ha hts hl hd
      have := ih.2.1
      refine ⟨by rw [csame _ (by simp), psame _ (by simp)]; exact ih.1,
        by rw [psame _ (by simp)]; omega, ?_⟩
      rw [inPass_ext _ _ _ _ (by simp), setsConsidered_cur_ext _ _ _ _ (by simp) (by simp)]
      exact ih.2.2
    | passEnd hl =>
      rw [ext_none]
      have := leave _ _ _ rfl hl
      exact ⟨this.2, ih.2.2, fun _ => this.1⟩
    | emptyYield hl =>
      have := leave _ _ _ rfl hl
      refine ⟨by rw [csame _ (by simp), psame _ (by simp)]; exact this.2,
        by rw [psame _ (by simp)]; exact ih.2.2, fun _ => ?_⟩
      rw [setsConsidered_cur_ext _ _ _ _ (by simp) (by simp)]
      exact this.1
    | consider =>
      refine ⟨?_, by rw [psame _ (by simp)]; exact ih.2.1, by rw [psame _ (by simp)]; exact ih.2.2⟩
      rw [psame _ (by simp), ext_some, setsConsidered_snoc, ih.1, List.range_succ, List.append_assoc]
    | again => rw [ext_none]; exact ih
    | skip => rw [ext_none]; exact ih
    | reject => rw [ext_none]; exact ih
    | add =>
      unfold SetsAt
      rw [csame _ (by simp), psame _ (by simp)]; exact ih
    | yield =>
      unfold SetsAt
      rw [csame _ (by simp), psame _ (by simp)]; exact ih
    | yieldAbs =>
      unfold SetsAt
      rw [csame _ (by simp), psame _ (by simp)]; exact ih
    | silent =>
      unfold SetsAt
      rw [csame _ (by simp), psame _ (by simp)]; exact ih
    | resume => rw [ext_none]; exact ih
    | resumeEmpty => rw [ext_none]; exact ih
    | returned => rw [ext_none]; exact ih
    | raised => rw [ext_none]; exact ih
    | fails _ _ hev =>
      rcases hev with rfl | ⟨rfl, rfl, _⟩
      · rw [ext_none]; exact ih.le
      · unfold SetsAt; rw [psame _ (by simp)]; exact ih.le
  · intro h s s' pc _ ih _ _; exact ih

end GS
