import Verif.Spec.ByPass
import Verif.Twins
/-!
# Conditions on the numbers of passes and runs in the reference scheduler
-/

set_option linter.unusedSectionVars false

namespace GS
open Spec
variable {α κ W : Type _} [DecidableEq α] [DecidableEq κ]

theorem holdsLeaf_due (e : Around α κ W) (own : Option α) (p : Past α) (k : Leaf α κ W)
    (hk : PassLeaf k) : holdsLeaf e own p k = true ↔ dueLeaf p.runs.length p.before.length k := by
  cases k <;> simp only [PassLeaf] at hk <;> try (subst hk)
  all_goals simp only [holdsLeaf, dueLeaf, Past.passes, decide_eq_true_eq, Bool.false_eq_true,
    gt_iff_lt, ge_iff_le]
  all_goals first | rfl | exact decide_eq_true_iff

mutual
theorem holds_due (e : Around α κ W) (own : Option α) (p : Past α) : ∀ c : Cond α κ W, PassCond c →
    (holds e own p c = true ↔ dueIn p.runs.length p.before.length c)
  | .leaf _ k, h => by
    cases h with | leaf h => exact holdsLeaf_due e own p k h
  | .whileNot _ _, h => by cases h
  | .nwhen _ _ _, h => by cases h
  | .all _ cs, h => by
    cases h with | all h => exact (holdsAll_due e own p cs h).1
  | .any _ cs, h => by
    cases h with | any h => exact (holdsAll_due e own p cs h).2
  | .not _ c, h => by
    cases h with
    | not h =>
      simp only [holds, dueIn, ← holds_due e own p c h]
      simp
theorem holdsAll_due (e : Around α κ W) (own : Option α) (p : Past α) :
    ∀ cs : List (Cond α κ W), (∀ c ∈ cs, PassCond c) →
    (holdsAll e own p cs = true ↔ dueAll p.runs.length p.before.length cs) ∧
    (holdsAny e own p cs = true ↔ dueAny p.runs.length p.before.length cs)
  | [], _ => by simp [holdsAll, holdsAny, dueAll, dueAny]
  | c :: cs, h => by
    have h1 := holds_due e own p c (h c List.mem_cons_self)
    have h2 := holdsAll_due e own p cs fun x hx => h x (List.mem_cons_of_mem _ hx)
    simp only [holdsAll, holdsAny, dueAll, dueAny, Bool.and_eq_true, Bool.or_eq_true, h1, h2.1, h2.2,
      and_self]
end

section
variable {R : α → Past α → Bool} {T : Past α → Bool} {abs : Bool} {n : α} {b : Bool}

theorem choice_times {p : Past α} (hp : p.next = []) (l : List α)
    (hR : n ∈ l → ∀ X, n ∉ X → R n { p with next := X } = b) :
    (choice R l p).count n = if b = true ∧ n ∈ l then 1 else 0 := by
  have kp := choice_part (R := R) (l := l) hp
  rw [kp.1.count]
  by_cases hn : n ∈ l
  · have := choice_decided (R := R) hp hn b (fun X _ h => hR hn X h)
    simp only [this, hn, and_true]
  · rw [if_neg fun h => hn (kp.2 n h), if_neg fun h => hn h.2]

/-- How often a node is called in a pass, if its rule does not depend on what happens in it until the
node is called. -/
theorem passFrom_times (runs : List (List (List (List α)))) (B : List (List (List α)))
    (hR : ∀ p : Past α, p.runs = runs → p.before = B → n ∉ p.now.flatten → n ∉ p.next → R n p = b) :
    ∀ (q : List (List α)), q.flatten.Nodup → ∀ p : Past α, p.runs = runs → p.before = B → p.next = [] →
      (n ∈ q.flatten → n ∉ p.now.flatten) →
      ((passFrom abs R T q p).now.flatten.count n ≤
        p.now.flatten.count n + if b = true ∧ n ∈ q.flatten then 1 else 0) ∧
      ((∀ p : Past α, p.runs = runs → p.before = B → T p = false) →
        (passFrom abs R T q p).now.flatten.count n =
          p.now.flatten.count n + if b = true ∧ n ∈ q.flatten then 1 else 0)
  | [], _, p, _, _, _, _ => by simp [passFrom]
  | l :: q, hq, p, h1, h2, h3, h4 => by
    have hq' : l.Nodup ∧ q.flatten.Nodup ∧ ∀ x ∈ l, x ∉ q.flatten := by
      rw [List.flatten_cons, List.nodup_append] at hq
      exact ⟨hq.1, hq.2.1, fun x hx hx' => hq.2.2 x hx x hx' rfl⟩
    have hc := choice_times (R := R) h3 l (n := n) (b := b) (fun hl X hX => hR _ h1 h2
      (h4 (by rw [List.flatten_cons]; exact List.mem_append_left _ hl)) hX)
    have hsum : (if b = true ∧ n ∈ (l :: q).flatten then 1 else 0) =
        (if b = true ∧ n ∈ l then 1 else 0) + if b = true ∧ n ∈ q.flatten then 1 else 0 := by
      have := hq'.2.2 n
      rw [List.flatten_cons]
      simp only [List.mem_append]
      by_cases hb : b = true <;> by_cases hl : n ∈ l <;> by_cases hx : n ∈ q.flatten <;>
        simp only [hb, hl, hx, true_and, false_and, or_true, or_false, false_or, if_true, if_false,
          and_self] <;> first | rfl | exact absurd hx (this hl)
    have ih := passFrom_times runs B hR q hq'.2.1
    simp only [passFrom]
    by_cases hT : T p = true
    · rw [if_pos hT]
      exact ⟨Nat.le_add_right _ _, fun h => by rw [h p h1 h2] at hT; cases hT⟩
    · rw [if_neg hT]
      by_cases hz : choice R l p = [] ∧ abs = false
      · rw [if_pos hz]
        have hc0 : (if b = true ∧ n ∈ l then 1 else 0) = 0 := by rw [← hc, hz.1]; rfl
        rw [hsum, hc0, Nat.zero_add]
        exact ih p h1 h2 h3 fun h => h4 (by rw [List.flatten_cons]; exact List.mem_append_right _ h)
      · rw [if_neg hz]
        have k := ih { p with now := p.now ++ [choice R l p] } h1 h2 h3 (fun h hx => by
          simp only [List.flatten_append, List.flatten_cons, List.flatten_nil, List.append_nil,
            List.mem_append] at hx
          rcases hx with hx | hx
          · exact h4 (by rw [List.flatten_cons]; exact List.mem_append_right _ h) hx
          · exact hq'.2.2 n ((choice_part (R := R) (l := l) h3).2 n hx) h)
        have e : (p.now ++ [choice R l p]).flatten.count n =
            p.now.flatten.count n + if b = true ∧ n ∈ l then 1 else 0 := by
          rw [List.flatten_append, List.count_append, ← hc]; simp
        simp only [e] at k
        rw [hsum, ← Nat.add_assoc]
        exact k

theorem closePass_times (p : Past α) (n : α) :
    ∃ P, (closePass abs p).before = p.before ++ [P] ∧ P.flatten.count n = p.now.flatten.count n := by
  refine ⟨_, rfl, ?_⟩
  split
  · rename_i h; rw [h.1]; rfl
  · rfl

/-- The passes of the reference scheduler. -/
theorem reference_times (runs : List (List (List (List α)))) {q : List (List α)} (hq : q.flatten.Nodup)
    (D : List (List (List α)) → Prop)
    (hR : ∀ p : Past α, p.runs = runs → n ∉ p.now.flatten → n ∉ p.next → (R n p = true ↔ D p.before))
    (hn : n ∈ q.flatten) : ∀ N : Nat,
      (reference abs R T q N ⟨runs, [], [], []⟩).runs = runs ∧
      (reference abs R T q N ⟨runs, [], [], []⟩).now = [] ∧
      (reference abs R T q N ⟨runs, [], [], []⟩).next = [] ∧
      ∀ i P, (reference abs R T q N ⟨runs, [], [], []⟩).before[i]? = some P →
        P.flatten.count n ≤ 1 ∧ (n ∈ P.flatten → D ((reference abs R T q N ⟨runs, [], [], []⟩).before.take i)) ∧
        ((∀ p : Past α, p.runs = runs → p.before.length = i → T p = false) →
          D ((reference abs R T q N ⟨runs, [], [], []⟩).before.take i) →
          P.flatten.count n = 1)
  | 0 => ⟨rfl, rfl, rfl, fun i P h => by simp [reference] at h⟩
  | N + 1 => by
    obtain ⟨h1, h2, h3, h4⟩ := reference_times runs hq D hR hn N
    rw [reference_succ]
    split
    · exact ⟨h1, h2, h3, h4⟩
    · revert h1 h2 h3 h4
      generalize reference abs R T q N ⟨runs, [], [], []⟩ = p
      intro h1 h2 h3 h4
      have hf := passFrom_frame (abs := abs) (R := R) (T := T) q p
      refine ⟨hf.1.trans h1, rfl, hf.2.2.1.trans h3, ?_⟩
      obtain ⟨P0, e0, c0⟩ := closePass_times (abs := abs) (passFrom abs R T q p) n
      rw [hf.2.1] at e0
      rw [e0]
      intro i P hP
      by_cases hi : i < p.before.length
      · rw [List.getElem?_append_left hi] at hP
        rw [List.take_append_of_le_length (Nat.le_of_lt hi)]
        exact h4 i P hP
      · rw [List.getElem?_append_right (by omega)] at hP
        have hi' : i = p.before.length := by
          have := (List.getElem?_eq_some_iff.1 hP).1
          simp at this
          omega
        subst hi'
        simp at hP
        subst hP
        rw [List.take_left' rfl]
        have hRp := hR p h1 (by rw [h2]; simp) (by rw [h3]; simp)
        have k := passFrom_times (abs := abs) (T := T) (R := R) (n := n) (b := R n p) runs p.before
          (fun p' g1 g2 g3 g4 => by
            have x := hR p' g1 g3 g4
            rw [g2] at x
            exact Bool.eq_iff_iff.2 (x.trans hRp.symm)) q hq p h1 rfl h3 (by rw [h2]; simp)
        rw [h2] at k
        simp only [hn, and_true, List.flatten_nil, List.count_nil, Nat.zero_add] at k
        rw [c0]
        refine ⟨Nat.le_trans k.1 (by split <;> omega), fun hm => ?_, fun hT hD => ?_⟩
        · have hpos : 0 < P0.flatten.count n := List.count_pos_iff.2 hm
          rw [c0] at hpos
          refine hRp.1 ?_
          refine Classical.byContradiction fun hb => ?_
          rw [if_neg hb] at k
          omega
        · rw [k.2 fun p' g1 g2 => hT p' g1 (by rw [g2]), if_pos (hRp.2 hD)]

end
end GS
