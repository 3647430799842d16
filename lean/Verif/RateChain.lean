import Verif.Spec.RateChain
import Verif.RestateRule
import Verif.ReferenceRun
/-!
# A node that waits for calls of another, in the reference scheduler
-/

set_option linter.unusedSectionVars false

namespace GS
open Spec
variable {α κ W : Type _} [DecidableEq α] [DecidableEq κ]

mutual
theorem holds_needs (e : Around α κ W) (n : α) (p : Past α) {d : α} {k : Nat} : ∀ c : Cond α κ W,
    NeedsCalls d k c → holds e (some n) p c = true → k ≤ p.callsSince n d
  | .leaf _ _, h, hh => by
    cases h with
    | every =>
      simp only [holds, holdsLeaf, decide_eq_true_eq] at hh
      omega
  | .whileNot _ _, h, _ => by cases h
  | .nwhen _ _ _, _, hh => by simp only [holds] at hh; cases hh
  | .all _ cs, h, hh => by
    cases h with | all hc h => exact holdsAll_needs e n p cs _ hc h hh
  | .any _ cs, h, hh => by
    cases h with | any h => exact holdsAny_needs e n p cs h hh
  | .not _ _, h, _ => by cases h
theorem holdsAll_needs (e : Around α κ W) (n : α) (p : Past α) {d : α} {k : Nat} :
    ∀ (cs : List (Cond α κ W)) (c : Cond α κ W), c ∈ cs → NeedsCalls d k c →
      holdsAll e (some n) p cs = true → k ≤ p.callsSince n d
  | [], _, hc, _, _ => by cases hc
  | x :: cs, c, hc, h, hh => by
    simp only [holdsAll, Bool.and_eq_true] at hh
    by_cases hx : c = x
    · exact holds_needs e n p x (hx ▸ h) hh.1
    · exact holdsAll_needs e n p cs c ((List.mem_cons.1 hc).resolve_left hx) h hh.2
theorem holdsAny_needs (e : Around α κ W) (n : α) (p : Past α) {d : α} {k : Nat} :
    ∀ cs : List (Cond α κ W), (∀ c ∈ cs, NeedsCalls d k c) →
      holdsAny e (some n) p cs = true → k ≤ p.callsSince n d
  | [], _, hh => by simp only [holdsAny] at hh; cases hh
  | x :: cs, h, hh => by
    simp only [holdsAny, Bool.or_eq_true] at hh
    rcases hh with hh | hh
    · exact holds_needs e n p x (h x List.mem_cons_self) hh
    · exact holdsAny_needs e n p cs (fun c hc => h c (List.mem_cons_of_mem _ hc)) hh
end

theorem rule_needs {s : Sys α κ W} {n d : α} {k : Nat} (h : WaitsForCalls s n d k) (e : Around α κ W)
    (p : Past α) (hr : rule s e n p = true) : k ≤ p.callsSince n d := by
  obtain ⟨_, ⟨c, h1, h2⟩ | ⟨h1, rfl, ds, h2, h3⟩⟩ := h
  · unfold rule at hr
    rw [h1] at hr
    cases h2 with
    | nwhen h2 =>
      simp only [Bool.and_eq_true] at hr
      exact holds_needs e n p _ h2 hr.2
    | every => exact holds_needs e n p _ .every hr
    | all hc h2 => exact holds_needs e n p _ (.all hc h2) hr
    | any h2 => exact holds_needs e n p _ (.any h2) hr
  · unfold rule at hr
    rw [h1] at hr
    simp only at hr
    rw [h2] at hr
    exact of_decide_eq_true hr d h3

/-- In every part of the history up to some moment, `d` was called enough. -/
def EnoughCalls (n d : α) (k : Nat) (l : List α) : Prop :=
  ∀ x, x <+: l → k * x.count n + (since n x).count d ≤ x.count d

theorem EnoughCalls.nil {n d : α} {k : Nat} : EnoughCalls n d k [] := by
  intro x hx
  rw [List.prefix_nil.1 hx]
  simp [since, afterLast]

theorem EnoughCalls.snoc {n d : α} (hd : d ≠ n) {k : Nat} {l : List α} (h : EnoughCalls n d k l) {m : α}
    (hm : m = n → k ≤ (since n l).count d) : EnoughCalls n d k (l ++ [m]) := by
  intro x hx
  rcases List.prefix_concat_iff.1 hx with e | e
  · subst e
    have h1 := h l (List.prefix_refl _)
    rw [since_snoc, List.count_append, List.count_append, Nat.mul_add]
    by_cases hmn : m = n
    · have := hm hmn
      subst hmn
      rw [if_pos rfl]
      simp
      omega
    · rw [if_neg hmn, List.count_append, List.count_singleton (a := n), if_neg (by simpa using hmn)]
      omega
  · exact h x e

section
variable {R : α → Past α → Bool} {T : Past α → Bool} {abs : Bool} {n d : α} {k : Nat}

theorem goThrough_enough (hd : d ≠ n) (hR : ∀ p, R n p = true → k ≤ p.callsSince n d) :
    ∀ (l : List α) (p : Past α), EnoughCalls n d k (p.inRun.flatten ++ p.next) →
      EnoughCalls n d k (p.inRun.flatten ++ (goThrough R l p).next)
  | [], _, h => h
  | m :: l, p, h => by
    simp only [goThrough]
    by_cases h1 : m ∈ p.next
    · rw [if_pos h1]
      exact goThrough_enough hd hR l p h
    · rw [if_neg h1]
      by_cases h2 : R m p = true
      · rw [if_pos h2]
        refine goThrough_enough hd hR l { p with next := p.next ++ [m] } ?_
        show EnoughCalls n d k (p.inRun.flatten ++ (p.next ++ [m]))
        rw [← List.append_assoc]
        refine h.snoc hd fun e => ?_
        subst e
        have := hR p h2
        unfold Past.callsSince at this
        rwa [if_neg (fun (x : d = m ∧ _) => hd x.1)] at this
      · rw [if_neg h2]
        exact goThrough_enough hd hR l p h

theorem goRound_enough (hd : d ≠ n) (hR : ∀ p, R n p = true → k ≤ p.callsSince n d) (l : List α) :
    ∀ (j : Nat) (p : Past α), EnoughCalls n d k (p.inRun.flatten ++ p.next) →
      EnoughCalls n d k (p.inRun.flatten ++ (goRound R l j p).next)
  | 0, _, h => h
  | j + 1, p, h => by
    have h1 := goThrough_enough hd hR l p h
    have e := goThrough_frame (R := R) l p
    have h2 := goRound_enough hd hR l j (goThrough R l p) (by rw [e]; exact h1)
    have e2 : (goThrough R l p).inRun = p.inRun := by rw [e]; rfl
    rw [e2] at h2
    exact h2

theorem passFrom_enough (hd : d ≠ n) (hR : ∀ p, R n p = true → k ≤ p.callsSince n d) :
    ∀ (q : List (List α)) (p : Past α), p.next = [] → EnoughCalls n d k p.inRun.flatten →
      EnoughCalls n d k (passFrom abs R T q p).inRun.flatten
  | [], _, _, h => h
  | l :: q, p, h0, h => by
    simp only [passFrom]
    split
    · exact h
    · split
      · exact passFrom_enough hd hR q p h0 h
      · refine passFrom_enough hd hR q { p with now := p.now ++ [choice R l p] } h0 ?_
        have := goRound_enough hd hR l (l.length + 1) p (by rw [h0, List.append_nil]; exact h)
        have e : (Past.inRun { p with now := p.now ++ [choice R l p] }).flatten =
            p.inRun.flatten ++ choice R l p := by
          simp [Past.inRun]
        rw [e]
        exact this

theorem reference_enough (hd : d ≠ n) (hR : ∀ p, R n p = true → k ≤ p.callsSince n d)
    (runs : List (List (List (List α)))) (q : List (List α)) : ∀ N : Nat,
      (reference abs R T q N ⟨runs, [], [], []⟩).now = [] ∧
      (reference abs R T q N ⟨runs, [], [], []⟩).next = [] ∧
      EnoughCalls n d k (reference abs R T q N ⟨runs, [], [], []⟩).before.flatten.flatten
  | 0 => ⟨rfl, rfl, .nil⟩
  | N + 1 => by
    obtain ⟨h1, h2, h3⟩ := reference_enough hd hR runs q N
    rw [reference_succ]
    split
    · exact ⟨h1, h2, h3⟩
    · have hf := passFrom_frame (abs := abs) (R := R) (T := T) q
        (reference abs R T q N ⟨runs, [], [], []⟩)
      refine ⟨rfl, hf.2.2.1.trans h2, ?_⟩
      have := passFrom_enough (abs := abs) (T := T) hd hR q (reference abs R T q N ⟨runs, [], [], []⟩) h2
        (by rw [Past.inRun, h1, List.append_nil]; exact h3)
      rw [Past.inRun] at this
      simp only [closePass]
      split
      · rename_i hz
        rw [hz.1] at this
        simpa using this
      · simpa using this

end
end GS
