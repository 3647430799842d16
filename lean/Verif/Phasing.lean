import Verif.Spec.Phasing
import Verif.GoesFirst
/-!
# The phasing examples of the documentation: the reference scheduler

Lemmas behind `Verif/Props/Phasing.lean`.
-/

set_option linter.unusedSectionVars false

namespace GS
open Spec
variable {α : Type _} [DecidableEq α]
variable {R : α → Past α → Bool} {S : Past α → Bool} {a b c : α}
variable {runs : List (List (List (List α)))}

/-- The choice from a set with one node. -/
theorem choice_one {p : Past α} (hp : p.next = []) : choice R [a] p = if R a p then [a] else [] := by
  unfold choice
  simp only [List.length_cons, List.length_nil, goRound, goThrough, hp, List.not_mem_nil, if_false,
    List.nil_append]
  by_cases h : R a p = true
  · simp [h]
  · simp [h, hp]

/-- The choice from two nodes of which the first one always executes. -/
theorem choice_two {p : Past α} (hp : p.next = []) (hab : a ≠ b) (ha : ∀ x, R a { p with next := x } = true)
    (hb : R b { p with next := [] } = false) {L : List α} (hL : L = [a, b] ∨ L = [b, a]) :
    choice R L p = if R b { p with next := [a] } then [a, b] else [a] := by
  have hba : ¬ b = a := fun e => hab e.symm
  have hpe : p = { p with next := [] } := by rw [← hp]
  rw [hpe]
  generalize hq : ({ p with next := [] } : Past α) = q at *
  have hqn : q.next = [] := by rw [← hq]
  have e : ∀ x, ({ q with next := x } : Past α) = { p with next := x } := by intro x; rw [← hq]
  have ha0 : R a q = true := by rw [← hq]; exact ha []
  rw [← e] at *
  unfold choice
  rcases hL with rfl | rfl
  · by_cases h : R b { q with next := [a] } = true
    · simp [goRound, goThrough, hqn, ha0, hba, h]
    · simp [goRound, goThrough, hqn, ha0, hba, h]
  · by_cases h : R b { q with next := [a] } = true
    · simp [goRound, goThrough, hqn, ha0, hb, hba, h]
    · simp [goRound, goThrough, hqn, ha0, hb, hba, h]

/-! ## Alternating phases -/

section
variable {n m : Nat} (hn : 1 ≤ n) (hab : a ≠ b)
  (hRa : ∀ p : Past α, R a p = (decide (p.before.length = 0) ||
    decide (n ≤ (since a (p.inRun.flatten ++ p.next)).count b)))
  (hRb : ∀ p : Past α, R b p = (decide (1 ≤ (since b (p.inRun.flatten ++ p.next)).count a) ||
    decide (b ∈ p.inRun.flatten ++ p.next)))
  (hS : ∀ p : Past α, S p = decide (m ≤ (p.inRun.flatten ++ p.next).count b))
include hn hab hRa hRb hS

theorem reference_alternates : ∀ k, k ≤ m →
    reference false R S [[a], [b]] k ⟨runs, [], [], []⟩ =
      ⟨runs, (List.range k).map (alternatePass a b n), [], []⟩ ∧
    ((List.range k).map (alternatePass a b n)).flatten.flatten.count b = k ∧
    (1 ≤ k → (since a ((List.range k).map (alternatePass a b n)).flatten.flatten).count b = (k - 1) % n + 1) := by
  have hba : ¬ b = a := fun e => hab e.symm
  intro k
  induction k with
  | zero => exact fun _ => ⟨rfl, rfl, by omega⟩
  | succ k ih =>
    intro hk
    obtain ⟨i1, i2, i3⟩ := ih (by omega)
    rw [List.range_succ, List.map_append]
    have hlen : ((List.range k).map (alternatePass a b n)).length = k := by simp
    generalize hB : (List.range k).map (alternatePass a b n) = B at *
    generalize hl : B.flatten.flatten = l at *
    have eA : R a ⟨runs, B, [], []⟩ = decide (n ∣ k) := by
      rw [hRa]
      simp only [Past.inRun, List.append_nil, hl, hlen]
      rw [← Bool.decide_or, decide_eq_decide]
      constructor
      · rintro (h | h)
        · rw [h]; exact Nat.dvd_zero n
        · by_cases h0 : k = 0
          · rw [h0]; exact Nat.dvd_zero n
          · rw [i3 (by omega)] at h
            have h1 := Nat.mod_lt (k - 1) (show 0 < n by omega)
            have h2 : (k - 1) % n + 1 = n := by omega
            have h3 := Nat.div_add_mod (k - 1) n
            exact ⟨(k - 1) / n + 1, by rw [Nat.mul_add, Nat.mul_one]; omega⟩
      · rintro ⟨q, hq⟩
        by_cases h0 : k = 0
        · exact .inl h0
        · right
          rw [i3 (by omega)]
          obtain ⟨q', rfl⟩ : ∃ q', q = q' + 1 := ⟨q - 1, by
            cases q with
            | zero => simp at hq; exact absurd hq h0
            | succ q => rfl⟩
          have : k - 1 = n - 1 + n * q' := by rw [hq, Nat.mul_add]; omega
          rw [this, Nat.add_mul_mod_self_left, Nat.mod_eq_of_lt (by omega)]
          omega
    have stop : ∀ z : List (List α), z.flatten.count b = 0 → S ⟨runs, B, z, []⟩ = false := by
      intro z hz
      rw [hS]
      simp only [Past.inRun, List.append_nil, List.flatten_append, List.count_append, hl, i2, hz]
      simp; omega
    have eB : ∀ z : List (List α), (z = [[a]] ∨ (z = [] ∧ 1 ≤ k)) → R b ⟨runs, B, z, []⟩ = true := by
      intro z hz
      rw [hRb]
      simp only [Past.inRun, List.append_nil, List.flatten_append, hl]
      rcases hz with rfl | ⟨rfl, h⟩
      · have : a ∈ since b (l ++ [[a]].flatten) := by
          simp only [List.flatten_cons, List.flatten_nil, List.append_nil]
          exact since_has_snoc.2 ⟨hab, .inl rfl⟩
        have := List.count_pos_iff.2 this
        rw [Bool.or_eq_true]; left; simpa using this
      · have : b ∈ l := List.count_pos_iff.1 (by omega)
        simp [this]
    rw [reference_succ, i1, stop [] rfl, if_neg (by simp)]
    have ep : closePass false (passFrom false R S [[a], [b]] ⟨runs, B, [], []⟩) =
        ⟨runs, B ++ [alternatePass a b n k], [], []⟩ := by
      simp only [passFrom]
      rw [stop [] rfl, if_neg (by simp), choice_one rfl, eA]
      by_cases hd : n ∣ k
      · simp only [hd, decide_true, if_true]
        rw [if_neg (by simp)]
        simp only [List.nil_append]
        rw [stop [[a]] (by simp [hab]), if_neg (by simp), choice_one rfl, eB _ (.inl rfl)]
        simp [closePass, alternatePass, hd]
      · have hk1 : 1 ≤ k := by
          apply Classical.byContradiction
          intro h
          apply hd
          have : k = 0 := by omega
          rw [this]; exact Nat.dvd_zero n
        simp only [hd, decide_false, Bool.false_eq_true, if_false, and_self, if_true]
        rw [choice_one rfl, eB _ (.inr ⟨rfl, hk1⟩)]
        simp [closePass, alternatePass, hd]
    have efl : (B ++ [k].map (alternatePass a b n)).flatten.flatten =
        l ++ (alternatePass a b n k).flatten := by simp [hl]
    refine ⟨ep, ?_, fun _ => ?_⟩
    · rw [efl, List.count_append, i2]
      unfold alternatePass
      split
      · simp [hab]
      · simp
    · rw [efl, Nat.add_sub_cancel]
      unfold alternatePass
      split
      · rename_i hd
        have e1 : (([[a]] ++ [[b]] : List (List α))).flatten = [a] ++ [b] := rfl
        rw [e1, ← List.append_assoc, since_snoc, if_neg hba, since_snoc, if_pos rfl]
        rw [Nat.mod_eq_zero_of_dvd hd]
        simp
      · rename_i hd
        have hk1 : 1 ≤ k := by
          apply Classical.byContradiction
          intro h
          apply hd
          have : k = 0 := by omega
          rw [this]; exact Nat.dvd_zero n
        have e1 : (([] ++ [[b]] : List (List α))).flatten = [b] := rfl
        rw [e1, since_snoc, if_neg hba, List.count_append, i3 hk1]
        have h1 : k % n = (k - 1) % n + 1 := by
          have g1 := Nat.div_add_mod (k - 1) n
          have g2 := Nat.mod_lt (k - 1) (show 0 < n by omega)
          by_cases g3 : (k - 1) % n + 1 = n
          · exfalso; exact hd ⟨(k - 1) / n + 1, by rw [Nat.mul_add, Nat.mul_one]; omega⟩
          · have : k = (k - 1) % n + 1 + n * ((k - 1) / n) := by omega
            rw [this, Nat.add_mul_mod_self_left, Nat.mod_eq_of_lt (by omega)]
            have e : (k - 1) % n + 1 + n * ((k - 1) / n) - 1 = (k - 1) % n + n * ((k - 1) / n) := by omega
            rw [e, Nat.add_mul_mod_self_left, Nat.mod_mod]
        rw [h1]; simp

end

/-! ## Two processes -/

section
variable {k i j m : Nat} (hk : 1 ≤ k) (hi : 1 ≤ i) (hj : 1 ≤ j) (hm : 1 ≤ m) (hab : a ≠ b) (hac : a ≠ c) (hbc : b ≠ c)
  (hRa : ∀ p : Past α, R a p = true)
  (hRb : ∀ p : Past α, R b p = decide (k ≤ (since b (p.inRun.flatten ++ p.next)).count a))
  (hRc : ∀ p : Past α, R c p = (decide (i ≤ (p.inRun.flatten ++ p.next).count a) ||
    decide (j ≤ (p.inRun.flatten ++ p.next).count b)))
  (hS : ∀ p : Past α, S p = decide (m ≤ (p.inRun.flatten ++ p.next).count c))
include hk hi hj hm hab hac hbc hRa hRb hRc hS

theorem reference_twoProcesses {q : List (List α)} (hq : q = [[a, b], [c]] ∨ q = [[b, a], [c]]) :
    ∀ t, t ≤ min i (j * k) - 1 + m →
    reference false R S q t ⟨runs, [], [], []⟩ =
      ⟨runs, (List.range t).map (twoProcessPass a b c k i j), [], []⟩ ∧
    ((List.range t).map (twoProcessPass a b c k i j)).flatten.flatten.count a = t ∧
    ((List.range t).map (twoProcessPass a b c k i j)).flatten.flatten.count b = t / k ∧
    ((List.range t).map (twoProcessPass a b c k i j)).flatten.flatten.count c = t - (min i (j * k) - 1) ∧
    (since b ((List.range t).map (twoProcessPass a b c k i j)).flatten.flatten).count a = t % k := by
  have hba : ¬ b = a := fun e => hab e.symm
  have hca : ¬ c = a := fun e => hac e.symm
  have hcb : ¬ c = b := fun e => hbc e.symm
  have hF : 1 ≤ min i (j * k) := by
    have : 1 ≤ j * k := Nat.mul_pos hj hk
    omega
  intro t
  induction t with
  | zero => exact fun _ => ⟨rfl, rfl, by simp, by simp, by simp [since, afterLast]⟩
  | succ t ih =>
    intro ht
    obtain ⟨i1, i2, i3, i4, i5⟩ := ih (by omega)
    rw [List.range_succ, List.map_append]
    generalize hB : (List.range t).map (twoProcessPass a b c k i j) = B at *
    generalize hl : B.flatten.flatten = l at *
    have hkt := Nat.mod_lt t (show 0 < k by omega)
    have hdm := Nat.div_add_mod t k
    have hdvd : k ∣ t + 1 ↔ k = t % k + 1 := by
      constructor
      · rintro ⟨x, hx⟩
        cases x with
        | zero => simp at hx
        | succ x =>
          have : t = k - 1 + k * x := by rw [Nat.mul_add, Nat.mul_one] at hx; omega
          rw [this, Nat.add_mul_mod_self_left, Nat.mod_eq_of_lt (by omega)]; omega
      · intro h
        exact ⟨t / k + 1, by rw [Nat.mul_add, Nat.mul_one]; omega⟩
    have hdiv : (t + 1) / k = t / k + if k ∣ t + 1 then 1 else 0 := Nat.succ_div
    have hmod : ¬ k ∣ t + 1 → (t + 1) % k = t % k + 1 := by
      intro h
      rw [hdvd] at h
      have : t + 1 = t % k + 1 + k * (t / k) := by omega
      rw [this, Nat.add_mul_mod_self_left, Nat.mod_eq_of_lt (by omega)]
    have hcdue : (i ≤ t + 1 ∨ j ≤ (t + 1) / k) ↔ min i (j * k) ≤ t + 1 := by
      rw [Nat.le_div_iff_mul_le (by omega)]; omega
    have stop : ∀ z : List (List α), z.flatten.count c = 0 → S ⟨runs, B, z, []⟩ = false := by
      intro z hz
      rw [hS]
      simp only [Past.inRun, List.append_nil, List.flatten_append, List.count_append, hl, i4, hz]
      exact decide_eq_false (by omega)
    have ech : ∀ L : List α, (L = [a, b] ∨ L = [b, a]) →
        choice R L ⟨runs, B, [], []⟩ = if k ∣ t + 1 then [a, b] else [a] := by
      intro L hL
      rw [choice_two rfl hab (fun x => hRa _) (by
        rw [hRb]; simp only [Past.inRun, List.append_nil, hl, i5]; simp; omega) hL, hRb]
      simp only [Past.inRun, List.append_nil, hl]
      rw [since_snoc, if_neg hab, List.count_append, i5]
      simp only [List.count_singleton_self, decide_eq_true_eq]
      by_cases h : k ∣ t + 1
      · rw [if_pos h, if_pos]; rw [hdvd] at h; omega
      · rw [if_neg h, if_neg]; rw [hdvd] at h; omega
    have ec : R c ⟨runs, B, [if k ∣ t + 1 then [a, b] else [a]], []⟩ =
        decide (i ≤ t + 1 ∨ j ≤ (t + 1) / k) := by
      rw [hRc]
      simp only [Past.inRun, List.append_nil, List.flatten_append, hl, List.count_append, i2, i3]
      rw [← Bool.decide_or, decide_eq_decide, hdiv]
      by_cases h : k ∣ t + 1
      · simp [h, hab, hba]
      · simp [h, hab]
    rw [reference_succ, i1, stop [] rfl, if_neg (by simp)]
    have ep : closePass false (passFrom false R S q ⟨runs, B, [], []⟩) =
        ⟨runs, B ++ [twoProcessPass a b c k i j t], [], []⟩ := by
      have step : ∀ L : List α, (L = [a, b] ∨ L = [b, a]) → closePass false
          (passFrom false R S [L, [c]] ⟨runs, B, [], []⟩) =
          ⟨runs, B ++ [twoProcessPass a b c k i j t], [], []⟩ := by
        intro L hL
        simp only [passFrom]
        rw [stop [] rfl, if_neg (by simp), ech L hL, if_neg (by split <;> simp)]
        simp only [List.nil_append]
        rw [stop _ (by split <;> simp [hac, hbc]), if_neg (by simp), choice_one rfl, ec]
        by_cases h : i ≤ t + 1 ∨ j ≤ (t + 1) / k
        · simp [h, closePass, twoProcessPass]
        · simp [h, closePass, twoProcessPass]
      rcases hq with rfl | rfl
      · exact step _ (.inl rfl)
      · exact step _ (.inr rfl)
    have efl : (B ++ [t].map (twoProcessPass a b c k i j)).flatten.flatten =
        l ++ (twoProcessPass a b c k i j t).flatten := by simp [hl]
    rw [efl]
    refine ⟨ep, ?_, ?_, ?_, ?_⟩
    · rw [List.count_append, i2]
      unfold twoProcessPass
      split <;> split <;> simp [hca, hba, hac]
    · rw [List.count_append, i3, hdiv]
      unfold twoProcessPass
      split <;> split <;> simp [hca, hcb, hab, hbc]
    · rw [List.count_append, i4]
      have : (twoProcessPass a b c k i j t).flatten.count c = if i ≤ t + 1 ∨ j ≤ (t + 1) / k then 1 else 0 := by
        unfold twoProcessPass
        split <;> split <;> simp [hac, hbc]
      rw [this]
      by_cases h : i ≤ t + 1 ∨ j ≤ (t + 1) / k
      · rw [if_pos h]; rw [hcdue] at h; omega
      · rw [if_neg h]; rw [hcdue] at h; omega
    · have tail : (since b (l ++ (twoProcessPass a b c k i j t).flatten)).count a =
          (since b (l ++ if k ∣ t + 1 then [a, b] else [a])).count a := by
        unfold twoProcessPass
        by_cases hh : i ≤ t + 1 ∨ j ≤ (t + 1) / k
        · simp only [hh, if_true, List.flatten_append, List.flatten_cons, List.flatten_nil, List.append_nil]
          rw [← List.append_assoc, since_snoc, if_neg hcb, List.count_append]
          simp [hca]
        · simp only [hh, if_false, List.flatten_append, List.flatten_cons, List.flatten_nil, List.append_nil]
      rw [tail]
      by_cases h : k ∣ t + 1
      · rw [if_pos h, Nat.mod_eq_zero_of_dvd h]
        have e1 : l ++ [a, b] = l ++ [a] ++ [b] := by simp
        rw [e1, since_snoc, if_pos rfl]
        simp
      · rw [if_neg h, since_snoc, if_neg hab, List.count_append, i5, hmod h]
        simp

end

end GS
