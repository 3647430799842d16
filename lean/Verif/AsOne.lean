import Verif.ByPass
/-!
# Nodes that follow their senders, in the reference scheduler
-/

set_option linter.unusedSectionVars false

namespace GS
open Spec
variable {α κ W : Type _} [DecidableEq α] [DecidableEq κ]

theorem sameSets_snoc {xs ys : List (List α)} {x y : List α} (h : SameSets xs ys) (hx : SameMembers x y) :
    SameSets (xs ++ [x]) (ys ++ [y]) := by
  induction h with
  | nil => exact .cons hx .nil
  | cons h1 _ ih => exact .cons h1 ih

theorem sameSets_flatten {xs ys : List (List α)} (h : SameSets xs ys) (n : α) :
    n ∈ xs.flatten ↔ n ∈ ys.flatten := by
  induction h with
  | nil => exact Iff.rfl
  | cons h1 _ ih => rw [List.flatten_cons, List.flatten_cons, List.mem_append, List.mem_append, h1 n, ih]

theorem sameSets_split {xs : List (List α)} {q1 : List (List α)} {l : List α} {q2 : List (List α)} :
    SameSets xs (q1 ++ l :: q2) → ∃ x1 x x2, xs = x1 ++ x :: x2 ∧ SameSets x1 q1 ∧ SameMembers x l ∧
      SameSets x2 q2 := by
  induction q1 generalizing xs with
  | nil =>
    intro h
    cases h with
    | cons h1 h2 => exact ⟨[], _, _, rfl, .nil, h1, h2⟩
  | cons a q1 ih =>
    intro h
    cases h with
    | cons h1 h2 =>
      obtain ⟨x1, x, x2, rfl, k1, k2, k3⟩ := ih h2
      exact ⟨_ :: x1, x, x2, rfl, .cons h1 k1, k2, k3⟩

section
variable (R : α → Past α → Bool) (runs : List (List (List (List α)))) (D : Nat → Prop)
  (q : List (List α))

/-- The node is due in the passes `D`, or when its senders, which are in earlier sets, executed since
it did. -/
def FollowsRule (n : α) : Prop :=
  (∀ p : Past α, p.runs = runs → (R n p = true ↔ D p.before.length)) ∨
  ∃ ds, ds ≠ [] ∧ (∀ d ∈ ds, ∀ q1 l q2, q = q1 ++ l :: q2 → n ∈ l → d ∈ q1.flatten) ∧
    ∀ p : Past α, R n p = decide (∀ d ∈ ds, 1 ≤ p.callsSince n d)

/-- No node of an earlier set has executed since a node did. -/
def AllServed (B : List (List (List α))) : Prop :=
  ∀ q1 l q2, q = q1 ++ l :: q2 → ∀ n ∈ l, ∀ d ∈ q1.flatten, (since n B.flatten.flatten).count d = 0
end

section
variable {R : α → Past α → Bool} {T : Past α → Bool} {runs : List (List (List (List α)))}
  {D : Nat → Prop} {q : List (List α)} {B : List (List (List α))} {abs : Bool}

theorem nodup_parts (hq : q.flatten.Nodup) {q1 : List (List α)} {l : List α} {q2 : List (List α)}
    (e : q = q1 ++ l :: q2) : (∀ x ∈ l, x ∉ q1.flatten ∧ x ∉ q2.flatten) ∧
      ∀ x ∈ q1.flatten, x ∉ l ∧ x ∉ q2.flatten := by
  subst e
  rw [List.flatten_append, List.flatten_cons, List.nodup_append, List.nodup_append] at hq
  obtain ⟨_, ⟨_, _, h2⟩, h3⟩ := hq
  exact ⟨fun x hx => ⟨fun k => h3 x k x (List.mem_append_left _ hx) rfl, fun k => h2 x hx x k rfl⟩,
    fun x hx => ⟨fun k => h3 x hx x (List.mem_append_left _ k) rfl,
      fun k => h3 x hx x (List.mem_append_right _ k) rfl⟩⟩

/-- A pass in which everything executes. -/
theorem passFrom_whole (hq : q.flatten.Nodup) (hne : ∀ l ∈ q, l ≠ [])
    (hF : ∀ n ∈ q.flatten, FollowsRule R runs D q n) (hD : D B.length)
    (hT : ∀ p : Past α, p.before = B → T p = false) :
    ∀ (q2 q1 : List (List α)), q = q1 ++ q2 → ∀ p : Past α, p.runs = runs → p.before = B → p.next = [] →
      SameSets p.now q1 → SameSets (passFrom abs R T q2 p).now q
  | [], q1, e, p, _, _, _, h => by
    rw [List.append_nil] at e
    rw [e]; exact h
  | l :: q2, q1, e, p, h1, h2, h3, h4 => by
    have hp := nodup_parts hq e
    have hall : SameMembers (choice R l p) l := by
      intro n
      refine ⟨(choice_part h3).2 n, fun hn => ?_⟩
      refine (choice_decided h3 hn true fun X hX hnX => ?_).2 rfl
      rcases hF n (by rw [e]; simp [hn]) with k | ⟨ds, _, k2, k3⟩
      · exact (k { p with next := X } h1).2 (by rw [← h2] at hD; exact hD)
      · rw [k3]
        refine decide_eq_true fun d hd => ?_
        have hd1 : d ∈ p.now.flatten := (sameSets_flatten h4 d).2 (k2 d hd q1 l q2 e hn)
        have hn1 : n ∉ p.now.flatten := fun k => (hp.1 n hn).1 ((sameSets_flatten h4 n).1 k)
        have : 1 ≤ (since n ((p.before.flatten ++ p.now).flatten ++ X)).count d := by
          rw [since_append_not_mem X _ hnX, List.flatten_append, since_append_not_mem _ _ hn1,
            List.count_append, List.count_append]
          have : 0 < p.now.flatten.count d := List.count_pos_iff.2 hd1
          omega
        exact Nat.le_trans this (Nat.le_add_right _ _)
    have hnz : choice R l p ≠ [] := by
      intro k
      obtain ⟨x, hx⟩ := List.exists_mem_of_ne_nil l (hne l (by rw [e]; simp))
      have := (hall x).2 hx
      rw [k] at this; cases this
    simp only [passFrom]
    rw [if_neg (by rw [hT p h2]; simp), if_neg fun k => hnz k.1]
    exact passFrom_whole hq hne hF hD hT q2 (q1 ++ [l]) (by rw [e]; simp)
      { p with now := p.now ++ [choice R l p] } h1 h2 h3 (sameSets_snoc h4 hall)

/-- A pass in which nothing executes. -/
theorem passFrom_idle (hq : q.flatten.Nodup) (hF : ∀ n ∈ q.flatten, FollowsRule R runs D q n)
    (hD : ¬ D B.length) (hI : AllServed q B) (hT : ∀ p : Past α, p.before = B → T p = false) :
    ∀ (q2 q1 : List (List α)), q = q1 ++ q2 → ∀ p : Past α, p.runs = runs → p.before = B → p.next = [] →
      p.now = (if abs then List.replicate q1.length [] else []) →
      (passFrom abs R T q2 p).now = if abs then List.replicate q.length [] else []
  | [], q1, e, p, _, _, _, h4 => by
    rw [List.append_nil] at e
    rw [e]; exact h4
  | l :: q2, q1, e, p, h1, h2, h3, h4 => by
    have hp := nodup_parts hq e
    have hnow : p.now.flatten = [] := by
      rw [h4]; split <;> simp
    have hz : choice R l p = [] := by
      refine List.eq_nil_iff_forall_not_mem.2 fun n hn' => ?_
      have hn := (choice_part (R := R) h3).2 n hn'
      have := (choice_decided (R := R) h3 hn false fun X hX hnX => by
        rcases hF n (by rw [e]; simp [hn]) with k | ⟨ds, k1, k2, k3⟩
        · refine Bool.eq_false_iff.2 fun x => hD ?_
          have := (k { p with next := X } h1).1 x
          rw [← h2]; exact this
        · rw [k3]
          refine decide_eq_false fun x => ?_
          obtain ⟨d, hd⟩ := List.exists_mem_of_ne_nil ds k1
          have hd1 := k2 d hd q1 l q2 e hn
          have hdl := (hp.2 d hd1).1
          have hx := x d hd
          unfold Past.callsSince at hx
          rw [if_neg (fun (k : d = n ∧ _) => hdl (k.1 ▸ hn))] at hx
          have h0 : (since n ((p.before.flatten ++ p.now).flatten ++ X)).count d = 0 := by
            rw [since_append_not_mem X _ hnX, List.flatten_append, hnow, List.append_nil, List.count_append,
              List.count_eq_zero_of_not_mem fun k => hdl (hX d k), h2]
            exact hI q1 l q2 e n hn d hd1
          have hx : 1 ≤ (since n ((p.before.flatten ++ p.now).flatten ++ X)).count d + 0 := hx
          omega).1 hn'
      cases this
    simp only [passFrom]
    rw [if_neg (by rw [hT p h2]; simp), hz]
    by_cases ha : abs = true
    · rw [if_neg (fun h => by rw [ha] at h; cases h.2)]
      exact passFrom_idle hq hF hD hI hT q2 (q1 ++ [l]) (by rw [e]; simp)
        { p with now := p.now ++ [[]] } h1 h2 h3 (by
          show p.now ++ [[]] = _
          rw [h4, if_pos ha, if_pos ha, List.length_append]
          exact List.replicate_succ'.symm)
    · rw [if_pos ⟨rfl, Bool.eq_false_iff.2 ha⟩]
      exact passFrom_idle hq hF hD hI hT q2 (q1 ++ [l]) (by rw [e]; simp) p h1 h2 h3
        (by rw [h4, if_neg ha, if_neg ha])

theorem AllServed.whole (hq : q.flatten.Nodup) {P : List (List α)} (h : SameSets P q) :
    AllServed q (B ++ [P]) := by
  intro q1 l q2 e n hn d hd
  rw [e] at h
  obtain ⟨x1, x, x2, rfl, _, k2, k3⟩ := sameSets_split h
  have hp := (nodup_parts hq e).2 d hd
  refine List.count_eq_zero_of_not_mem fun hm => ?_
  have e2 : (B ++ [x1 ++ x :: x2]).flatten.flatten =
      (B.flatten.flatten ++ x1.flatten) ++ (x ++ x2.flatten) := by simp
  rw [e2] at hm
  rcases List.mem_append.1 (since_suffix_part _ _ (List.mem_append_left _ ((k2 n).2 hn)) d hm) with k | k
  · exact hp.1 ((k2 d).1 k)
  · exact hp.2 ((sameSets_flatten k3 d).1 k)

theorem AllServed.idle (h : AllServed q B) {P : List (List α)} (hP : P.flatten = []) :
    AllServed q (B ++ [P]) := by
  intro q1 l q2 e n hn d hd
  have e2 : (B ++ [P]).flatten.flatten = B.flatten.flatten := by
    rw [List.flatten_append, List.flatten_append, List.flatten_singleton, hP, List.append_nil]
  rw [e2]
  exact h q1 l q2 e n hn d hd

/-- The passes of the reference scheduler if all nodes follow the same origins. -/
theorem reference_asOne (hq : q.flatten.Nodup) (hne : ∀ l ∈ q, l ≠ []) (hq0 : q ≠ [])
    (hF : ∀ n ∈ q.flatten, FollowsRule R runs D q n)
    (hT : ∀ p p' : Past α, p.before.length = p'.before.length → T p = T p') : ∀ N : Nat,
      (reference abs R T q N ⟨runs, [], [], []⟩).runs = runs ∧
      (reference abs R T q N ⟨runs, [], [], []⟩).now = [] ∧
      (reference abs R T q N ⟨runs, [], [], []⟩).next = [] ∧
      AllServed q (reference abs R T q N ⟨runs, [], [], []⟩).before ∧
      ∀ i P, (reference abs R T q N ⟨runs, [], [], []⟩).before[i]? = some P →
        (D i → SameSets P q) ∧ (¬ D i → P = if abs then List.replicate q.length [] else [[]])
  | 0 => ⟨rfl, rfl, rfl, fun _ _ _ _ _ _ _ _ => rfl, fun i P h => by simp [reference] at h⟩
  | N + 1 => by
    obtain ⟨h1, h2, h3, h4, h5⟩ := reference_asOne hq hne hq0 hF hT N
    rw [reference_succ]
    split
    · exact ⟨h1, h2, h3, h4, h5⟩
    · rename_i hstop
      revert h1 h2 h3 h4 h5 hstop
      generalize reference abs R T q N ⟨runs, [], [], []⟩ = p
      intro h1 h2 h3 h4 h5 hstop
      have hT' : ∀ p' : Past α, p'.before = p.before → T p' = false := fun p' e => by
        rw [hT p' p (by rw [e])]; simpa using hstop
      have hf := passFrom_frame (abs := abs) (R := R) (T := T) q p
      have key : ∃ P, (closePass abs (passFrom abs R T q p)).before = p.before ++ [P] ∧
          ((D p.before.length → SameSets P q) ∧ (¬ D p.before.length → P = if abs then List.replicate q.length [] else [[]])) ∧
          AllServed q (p.before ++ [P]) := by
        by_cases hD : D p.before.length
        · have k := passFrom_whole (abs := abs) hq hne hF hD hT' q [] rfl p h1 rfl h3 (by rw [h2]; exact .nil)
          have hnz : (passFrom abs R T q p).now ≠ [] := by
            intro e
            rw [e] at k
            cases k
            exact hq0 rfl
          refine ⟨(passFrom abs R T q p).now, ?_, ⟨fun _ => k, fun x => absurd hD x⟩, .whole hq k⟩
          unfold closePass
          rw [if_neg fun x => hnz x.1, hf.2.1]
        · have k := passFrom_idle (abs := abs) hq hF hD h4 hT' q [] rfl p h1 rfl h3 (by
            rw [h2]; cases abs <;> rfl)
          refine ⟨if abs then List.replicate q.length [] else [[]], ?_, ⟨fun x => absurd x hD, fun _ => rfl⟩,
            h4.idle (by split <;> simp)⟩
          unfold closePass
          rw [k, hf.2.1]
          cases abs with
          | false => rfl
          | true =>
            simp
      obtain ⟨P0, e0, k1, k2⟩ := key
      refine ⟨hf.1.trans h1, rfl, hf.2.2.1.trans h3, by rw [e0]; exact k2, ?_⟩
      rw [e0]
      intro i P hP
      by_cases hi : i < p.before.length
      · rw [List.getElem?_append_left hi] at hP
        exact h5 i P hP
      · rw [List.getElem?_append_right (by omega)] at hP
        have hi' : i = p.before.length := by
          have := (List.getElem?_eq_some_iff.1 hP).1
          simp at this
          omega
        subst hi'
        simp at hP
        subst hP
        exact k1

end
end GS
