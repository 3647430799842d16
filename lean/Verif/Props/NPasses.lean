import Verif.NPasses
import Verif.Props.RunEnds
/-!
# C78: a run of a number of passes
-/

set_option linter.unusedSectionVars false

namespace GS.Props
open Spec TimeScale
variable {α κ W : Type _} [DecidableEq α] [DecidableEq κ]
variable {E : Sys α κ W → Sys α κ W → Prop} {a : RunArgs α κ W} {s0 s1 s : Sys α κ W}
variable {abs : Bool} {h : History α κ W} {pc : PC α}

section
variable {N : Nat} {ts : TimeScale} (ha : EndsAfter a N ts) (hts : pass.val < ts.val)
  (hC : Keeps E (fun s => s.clock a.id)) (hQ : Keeps E fun s => s.queue)
  {log : List TimeScale} (h0 : Shows (s0.clock a.id) log)
include ha hts hC hQ h0

/-- C78: a run that is to end after `N` passes of the current unit `ts`, of which some were
completed before it, returns after exactly the missing number of passes, whatever the
conditions of the nodes. Each of these passes considers all consideration sets in order. -/
theorem C78_returned (hr : Reach E a s0 abs h s .returned) :
    passes h = N - elapsed log ts pass ∧
    setsConsidered h = times (N - elapsed log ts pass) (List.range s0.queue.length) := by
  obtain ⟨h1, h2, _⟩ := hr.setsAt hC hQ ha hts h0
  rw [h2] at h1
  exact ⟨h2, h1⟩

/-- C78: it never begins more passes than that, and what it has considered at any time until
it raises is an initial part of that list. -/
theorem C78_at_most (hr : Reach E a s0 abs h s pc) :
    passes h ≤ N - elapsed log ts pass ∧
    ((∀ e, pc ≠ .raised e) → ∃ rest, times (N - elapsed log ts pass) (List.range s0.queue.length) =
      setsConsidered h ++ rest) := by
  have hs := hr.setsAt hC hQ ha hts h0
  refine ⟨hs.le, fun hne => ?_⟩
  have more : ∀ (L : List Nat) {m n : Nat}, m ≤ n → ∃ rest, times n L = times m L ++ rest := by
    intro L m n hmn
    refine ⟨times (n - m) L, ?_⟩
    unfold times
    rw [← List.flatten_append, List.replicate_append_replicate, Nat.add_sub_cancel' hmn]
  have part : ∀ {k L p N : Nat}, k ≤ L → 1 ≤ p → p ≤ N →
      ∃ rest, times N (List.range L) = times (p - 1) (List.range L) ++ List.range k ++ rest := by
    intro k L p N hk hp hN
    obtain ⟨r, hr⟩ := more (List.range L) hN
    obtain ⟨q, rfl⟩ : ∃ q, p = q + 1 := ⟨p - 1, by omega⟩
    rw [times_succ] at hr
    have : List.range L = List.range k ++ (List.range L).drop k := by
      conv => lhs; rw [← List.take_append_drop k (List.range L)]
      rw [List.take_range, Nat.min_eq_left hk]
    rw [hr, Nat.add_sub_cancel]
    refine ⟨(List.range L).drop k ++ r, ?_⟩
    simp only [List.append_assoc]
    congr 1
    rw [← List.append_assoc, ← this]
  obtain ⟨k, hk, _, e2⟩ := hr.considered_range hQ
  cases pc with
  | outer => rw [hs.1]; exact more _ hs.2.1
  | yieldedEmpty => rw [hs.1]; exact more _ hs.2.1
  | returned => rw [hs.1]; exact more _ (Nat.le_of_eq hs.2.1)
  | inner i ch => cases hk; rw [hs.1]; exact part e2 hs.2.1 hs.2.2
  | choosing c => cases hk; rw [hs.1]; exact part e2 hs.2.1 hs.2.2
  | yielded i ch => cases hk; rw [hs.1]; exact part e2 hs.2.1 hs.2.2
  | raised e => exact absurd rfl (hne e)

/-- C78: every pass that is followed by another one gets to every consideration set. -/
theorem C78_passes_reach (hr : Reach E a s0 abs h s pc) {j : Nat} (hj : j < s0.queue.length) :
    PassesReach j h := by
  intro h1 e h2 hh he hin
  obtain ⟨p, p', hr1, hs, _⟩ := hr.entry h1 e h2 hh
  have hst := Sys.step_stepR hs
  have key : p = .outer := by
    generalize hx : some e.ev = ev at hst
    generalize e.after = sa at hst
    rw [he] at hx
    cases hst with
    | pass hg => rfl
    | fails _ _ hx' => rcases hx' with rfl | ⟨_, rfl, _⟩ <;> cases hx
    | _ => cases hx
  subst key
  rw [(hr1.setsAt hC hQ ha hts h0).2.2 hin, List.mem_range]
  exact hj

end

theorem steps_yields (k : Nat) : ∀ (h : History α κ W) (s : Sys α κ W) (pc : PC α),
    (yields h).length ≤ (yields (steps a abs k h s pc).1).length := by
  induction k with
  | zero => intro h s pc; exact Nat.le_refl _
  | succ k ih =>
    intro h s pc
    refine Nat.le_trans ?_ (ih _ _ _)
    cases (s.step a abs pc).2.2 with
    | none => rw [ext_none]; exact Nat.le_refl _
    | some x => rw [ext_some, yields_snoc]; simp

/-- A call of `next()` that ends at a `yield` has yielded something. -/
theorem steps_yielded {k : Nat} {h h' : History α κ W} {s s' : Sys α κ W} {pc pc' : PC α}
    (hk : steps a abs (k + 1) h s pc = (h', s', pc')) (hp : pc'.suspended = true) :
    (yields h).length < (yields h').length := by
  have h1 := steps_yields (a := a) (abs := abs) k h s pc
  rw [steps_add] at hk
  generalize steps a abs k h s pc = r at hk h1
  obtain ⟨hx, sx, px⟩ := r
  simp only [steps] at hk
  rcases hst : sx.step a abs px with ⟨s2, pc2, ev⟩
  rw [hst] at hk
  simp only [Prod.mk.injEq] at hk
  obtain ⟨rfl, rfl, rfl⟩ := hk
  have hev : ∃ x y, ev = some x ∧ x.yield? = some y := by
    cases Sys.step_stepR hst <;> first | (cases hp; done) | exact ⟨_, _, rfl, rfl⟩
  obtain ⟨x, y, rfl, hy⟩ := hev
  rw [ext_some, yields_snoc, hy]
  simp at h1 ⊢; omega

/-- A run that yields boundedly many sets and begins boundedly many passes comes to an end. -/
theorem bounded_run_ends (hs : s0.start a = (s1, .ok abs)) (B P : Nat)
    (hB : ∀ j h s pc, steps a abs j [] s1 .outer = (h, s, pc) → (yields h).length ≤ B)
    (hP : ∀ j h s pc, steps a abs j [] s1 .outer = (h, s, pc) → passes h ≤ P) :
    ∃ k h s pc, steps a abs k [] s1 .outer = (h, s, pc) ∧ pc.final = true := by
  have reach : ∀ {j h s pc}, steps a abs j [] s1 .outer = (h, s, pc) →
      Reach (fun _ _ => False) a s0 abs h s pc := fun hj => steps_reach (.start hs) hj
  have queue : ∀ {j h s pc}, steps a abs j [] s1 .outer = (h, s, pc) → s.queue = s0.queue :=
    fun hj => (reach hj).keepQueue fun _ _ h => h.elim
  by_cases hn : abs = false ∨ s0.queue ≠ []
  · have go : ∀ {j h s pc}, steps a abs j [] s1 .outer = (h, s, pc) → ∃ k h' s' pc',
        steps a abs (k + 1) h s pc = (h', s', pc') ∧ (pc'.suspended = true ∨ pc'.final = true) := by
      intro j h s pc hj
      cases abs with
      | false =>
        obtain ⟨k, d, s', pc', e, h2, _⟩ := C18_next_returns (reach hj)
        exact ⟨k, _, s', pc', e, h2⟩
      | true =>
        have hq : s.queue ≠ [] := by
          rw [queue hj]; rcases hn with x | x
          · cases x
          · exact x
        obtain ⟨k, d, s', pc', e, h2, _⟩ := C18_next_returns_absolute (reach hj) hq
        exact ⟨k, _, s', pc', e, h2⟩
    have key : ∀ m j h s pc, steps a abs j [] s1 .outer = (h, s, pc) → B - (yields h).length ≤ m →
        ∃ k h s pc, steps a abs k [] s1 .outer = (h, s, pc) ∧ pc.final = true := by
      intro m
      induction m with
      | zero =>
        intro j h s pc hj hm
        obtain ⟨k, h', s', pc', e, h2⟩ := go hj
        have hj' : steps a abs (j + (k + 1)) [] s1 .outer = (h', s', pc') := by rw [steps_add, hj]; exact e
        rcases h2 with x | x
        · have := steps_yielded e x
          have := hB _ _ _ _ hj'
          omega
        · exact ⟨_, _, _, _, hj', x⟩
      | succ m ih =>
        intro j h s pc hj hm
        obtain ⟨k, h', s', pc', e, h2⟩ := go hj
        have hj' : steps a abs (j + (k + 1)) [] s1 .outer = (h', s', pc') := by rw [steps_add, hj]; exact e
        rcases h2 with x | x
        · have := steps_yielded e x
          exact ih _ _ _ _ hj' (by omega)
        · exact ⟨_, _, _, _, hj', x⟩
    exact key _ 0 [] s1 .outer rfl (Nat.le_refl _)
  · -- no consideration sets, in absolute-time mode
    have ha : abs = true := by cases abs <;> simp_all
    have hq : s0.queue = [] := Classical.byContradiction fun x => hn (.inr x)
    subst ha
    have key : ∀ m j h s, steps a true j [] s1 .outer = (h, s, .outer) → P - passes h ≤ m →
        ∃ k h s pc, steps a true k [] s1 .outer = (h, s, pc) ∧ pc.final = true := by
      intro m
      induction m with
      | zero =>
        intro j h s hj hm
        rcases hst : s.step a true .outer with ⟨s2, pc2, ev⟩
        have hj2 : steps a true (j + 1) [] s1 .outer = (ext h s ev s2, s2, pc2) := by
          rw [steps_add, hj]; simp only [steps, hst]
        cases Sys.step_stepR hst with
        | pass =>
          have := hP _ _ _ _ hj2
          rw [passes_ext, if_pos rfl] at this
          omega
        | stopSkip => exact ⟨_, _, _, _, hj2, rfl⟩
        | stopIncr => exact ⟨_, _, _, _, hj2, rfl⟩
        | fails => exact ⟨_, _, _, _, hj2, rfl⟩
      | succ m ih =>
        intro j h s hj hm
        rcases hst : s.step a true .outer with ⟨s2, pc2, ev⟩
        have hj2 : steps a true (j + 1) [] s1 .outer = (ext h s ev s2, s2, pc2) := by
          rw [steps_add, hj]; simp only [steps, hst]
        have hc : (pc2 = .inner 0 false ∧ ev = some .passStart) ∨ pc2.final = true := by
          cases Sys.step_stepR hst with
          | pass => exact .inl ⟨rfl, rfl⟩
          | stopSkip => exact .inr rfl
          | stopIncr => exact .inr rfl
          | fails => exact .inr rfl
        rcases hc with ⟨rfl, rfl⟩ | hc
        · rcases hst3 : s2.step a true (.inner 0 false) with ⟨s3, pc3, ev3⟩
          have hj3 : steps a true (j + 1 + 1) [] s1 .outer = (ext (ext h s (some .passStart) s2) s2 ev3 s3, s3, pc3) := by
            rw [steps_add, hj2]; simp only [steps, hst3]
          have hq2 : s2.queue = [] := by rw [queue hj2]; exact hq
          have hc3 : (pc3 = .outer ∧ ev3 = none) ∨ pc3.final = true := by
            cases Sys.step_stepR hst3 with
            | passEnd => exact .inl ⟨rfl, rfl⟩
            | consider hx => rw [hq2] at hx; simp at hx
            | fails => exact .inr rfl
            | emptyYield hx => simp_all
          rcases hc3 with ⟨rfl, rfl⟩ | hc3
          · refine ih _ _ _ hj3 ?_
            rw [ext_none, passes_ext, if_pos rfl]
            omega
          · exact ⟨_, _, _, _, hj3, hc3⟩
        · exact ⟨_, _, _, _, hj2, hc⟩
    exact key _ 0 [] s1 rfl (Nat.le_refl _)

/-- C78: left alone, such a run comes to an end, in absolute-time mode or not: it returns, unless a
condition raises. -/
theorem C78_ends {N : Nat} {ts : TimeScale} (ha : EndsAfter a N ts) (hts : pass.val < ts.val)
    {log : List TimeScale} (h0 : Shows (s0.clock a.id) log)
    (hs : s0.start a = (s1, .ok abs)) :
    ∃ k h s pc, exec s0 a k = some (abs, h, s, pc) ∧ (pc = .returned ∨ ∃ e, pc = .raised e) := by
  have hle : ∀ {j h s pc}, steps a abs j [] s1 .outer = (h, s, pc) → passes h ≤ N - elapsed log ts pass := by
    intro j h s pc hj
    have hr : Reach (fun _ _ => False) a s0 abs h s pc := steps_reach (.start hs) hj
    exact (hr.setsAt (fun _ _ h => h.elim) (fun _ _ h => h.elim) ha hts h0).le
  obtain ⟨k, h, s, pc, h1, h2⟩ := bounded_run_ends hs ((N - elapsed log ts pass) * (s0.queue.length + 1))
    (N - elapsed log ts pass) (by
    intro j h s pc hj
    have hr : Reach (fun _ _ => False) a s0 abs h s pc := steps_reach (.start hs) hj
    have hy := hr.yieldsAt fun _ _ h => h.elim
    have hfin : (yields h).length ≤ passes h * (s0.queue.length + 1) := by
      cases pc with
      | inner i ch =>
        obtain ⟨k, hk, _, e2⟩ := hr.considered_range fun _ _ h => h.elim
        cases hk; simp only [YieldsAt] at hy; omega
      | choosing c =>
        obtain ⟨k, hk, _, e2⟩ := hr.considered_range fun _ _ h => h.elim
        cases hk; simp only [YieldsAt] at hy; omega
      | yielded i ch =>
        obtain ⟨k, hk, _, e2⟩ := hr.considered_range fun _ _ h => h.elim
        cases hk; simp only [YieldsAt] at hy; omega
      | _ => exact hy
    exact Nat.le_trans hfin (Nat.mul_le_mul_right _ (hle hj))) (fun j h s pc hj => hle hj)
  refine ⟨k, h, s, pc, by unfold exec; rw [hs]; simp [h1], ?_⟩
  cases pc with
  | returned => exact .inl rfl
  | raised e => exact .inr ⟨e, rfl⟩
  | _ => cases h2

/-- Three passes of the current environment state update. -/
def demoThree : RunArgs Nat Nat Unit :=
  { demoArgs with esu := .leaf 10 (.afterNPasses 3 .environment_state_update) }

example : EndsAfter demoThree 3 environment_state_update ∧
    pass.val < environment_state_update.val ∧
    Shows (demo.clock demoThree.id) [] ∧ (demo.start demoThree).2 = .ok false ∧
    (runAfter demo demoThree 90).2.2 = .returned ∧
    setsConsidered (runAfter demo demoThree 90).1 = [0, 1, 0, 1, 0, 1] ∧
    yields (runAfter demo demoThree 90).1 = [[0], [1], [0], [1, 2], [0], [1]] := by
  refine ⟨⟨10, 11, .inl ⟨rfl, rfl⟩⟩, by decide, .new, by decide +kernel, by decide +kernel,
    by decide +kernel, by decide +kernel⟩

/-- A node that is to run every two milliseconds. -/
def timedNode : Sys Nat Nat Unit :=
  ((Sys.new [(0, []), (1, [0])] .standard none 1 demoWorld).alloc 1).addBasic 0
    (.leaf 0 (.timeInterval (some ⟨2, 0⟩) none none true true))

/-- The same in absolute-time mode. -/
example : EndsAfter demoThree 3 environment_state_update ∧
    Shows (timedNode.clock demoThree.id) [] ∧ (timedNode.start demoThree).2 = .ok true ∧
    (runAfter timedNode demoThree 90).2.2 = .returned ∧
    yields (runAfter timedNode demoThree 90).1 = [[0], [1], [0], [1], [0], [1]] := by
  refine ⟨⟨10, 11, .inl ⟨rfl, rfl⟩⟩, .new, by decide +kernel, by decide +kernel, by decide +kernel⟩

end GS.Props
