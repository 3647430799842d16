import Verif.Time
/-!
# Lemmas about the history tree: it is determined by the log of increments
-/

set_option linter.unusedSectionVars false
set_option linter.unusedSimpArgs false

namespace GS

/-- The log cut at every occurrence of the scale with value `k`: `segs k log` has one
more element than there are `k`s in the log. -/
def segs (k : Nat) (log : List TimeScale) : List (List TimeScale) :=
  log.foldl (fun acc ts => if ts.val = k then acc ++ [[]]
    else acc.dropLast ++ [(acc.getLast?.getD []) ++ [ts]]) [[]]

theorem segs_snoc (k : Nat) (log : List TimeScale) (ts : TimeScale) :
    segs k (log ++ [ts]) =
      if ts.val = k then segs k log ++ [[]]
      else (segs k log).dropLast ++ [((segs k log).getLast?.getD []) ++ [ts]] := by
  simp [segs, List.foldl_append]

theorem segs_ne_nil (k : Nat) (log : List TimeScale) : segs k log ≠ [] := by
  unfold segs
  rw [← List.foldr_reverse]
  induction log.reverse with
  | nil => simp
  | cons x xs ih => simp only [List.foldr_cons]; split <;> simp

/-- The tree determined by a log (specification of the data structure). -/
def Tree.ofLog (md : TimeScale) : Nat → Nat → List TimeScale → Tree
  | 0, idx, log => .node 0 idx [] (fun q => log.count q)
  | k + 1, idx, log =>
    .node (k + 1) idx
      (if md.val ≤ k then (segs k log).mapIdx (fun i s => Tree.ofLog md k i s) else [])
      (fun q => if q.val < k + 1 then log.count q else 0)

theorem Tree.new_eq_ofLog (md : TimeScale) (hmd : 1 ≤ md.val) :
    ∀ (k idx : Nat), Tree.new md (k + 1) idx = .ok (Tree.ofLog md (k + 1) idx []) := by
  intro k
  induction k with
  | zero =>
    intro idx
    have : ¬ md.val ≤ 0 := by omega
    simp [Tree.new, Tree.ofLog, this]
  | succ k ih =>
    intro idx
    by_cases h : md.val ≤ k + 1
    · rw [Tree.new]; simp only [h, if_true, ih]
      conv => rhs; rw [Tree.ofLog]
      simp [h, segs]
    · rw [Tree.new]; simp [h, Tree.ofLog]

theorem getLast?_append_singleton {β : Type _} (l : List β) (x : β) :
    (l ++ [x]).getLast? = some x := by simp

theorem mapIdx_append_singleton {β γ : Type _} (f : Nat → β → γ) (l : List β) (x : β) :
    (l ++ [x]).mapIdx f = l.mapIdx f ++ [f l.length x] := by
  simp [List.mapIdx_append]

theorem Tree.incrLast_append (md : TimeScale) (ts : TimeScale) (l : List Tree) (t t' : Tree)
    (h : t.incr md ts = .ok t') : Tree.incrLast md ts (l ++ [t]) = .ok (l ++ [t']) := by
  induction l with
  | nil => simp [Tree.incrLast, h]
  | cons a l ih =>
    cases l with
    | nil => simp only [List.nil_append] at ih; simp [Tree.incrLast, h]
    | cons b l =>
      simp only [List.cons_append] at ih ⊢
      rw [Tree.incrLast]; simp only [ih]

theorem Tree.incr_ofLog (md : TimeScale) (hmd : 1 ≤ md.val) (ts : TimeScale) :
    ∀ (k idx : Nat) (log : List TimeScale), ts.val < k + 1 →
      (Tree.ofLog md (k + 1) idx log).incr md ts = .ok (Tree.ofLog md (k + 1) idx (log ++ [ts])) := by
  intro k
  induction k with
  | zero =>
    intro idx log hts
    have h0 : ¬ md.val ≤ 0 := by omega
    simp only [Tree.ofLog, Tree.incr, h0, if_false, Tree.bump, hts, if_true]
    congr 2
    funext q
    by_cases hq : q = ts
    · subst hq; simp [List.count_append, hts]
    · have : ([ts] : List TimeScale).count q = 0 := by
        exact List.count_eq_zero.2 (by simpa using hq)
      by_cases hq2 : q.val = 0 <;> simp [hq, hq2, List.count_append, this]
  | succ k ih =>
    intro idx log hts
    have htot : Tree.bump (k + 2) (fun q => if q.val < k + 2 then log.count q else 0) ts =
        .ok (fun q => if q.val < k + 2 then (log ++ [ts]).count q else 0) := by
      have hts' : ts.val < k + 2 := by omega
      simp only [Tree.bump, hts', if_true]
      congr 1
      funext q
      by_cases hq : q = ts
      · subst hq; simp [List.count_append, hts']
      · have : ([ts] : List TimeScale).count q = 0 := by
          exact List.count_eq_zero.2 (by simpa using hq)
        simp [hq, List.count_append, this]
    by_cases hm : md.val ≤ k + 1
    · rw [Tree.ofLog, Tree.incr]
      simp only [hm, if_true, Nat.add_sub_cancel]
      by_cases heq : ts.val = k + 1
      · simp only [heq, if_true]
        rw [Tree.new_eq_ofLog md hmd]
        simp only [htot]
        conv => rhs; rw [Tree.ofLog]
        simp only [hm, if_true, segs_snoc, heq, mapIdx_append_singleton]
        simp
      · simp only [heq, if_false]
        obtain ⟨l, x, hlx⟩ : ∃ l x, segs (k + 1) log = l ++ [x] := by
          have := segs_ne_nil (k + 1) log
          exact ⟨_, _, (List.dropLast_concat_getLast this).symm⟩
        rw [hlx, mapIdx_append_singleton,
          Tree.incrLast_append md ts _ _ _ (ih l.length x (by omega))]
        simp only [htot]
        conv => rhs; rw [Tree.ofLog]
        simp only [hm, if_true, segs_snoc, heq, if_false, hlx, List.dropLast_concat,
          getLast?_append_singleton, Option.getD_some, mapIdx_append_singleton]
    · rw [Tree.ofLog, Tree.incr]
      simp only [hm, if_false, Nat.add_sub_cancel, htot]
      conv => rhs; rw [Tree.ofLog]
      simp [hm]

end GS
