import Verif.Spec.AllAlike
import Verif.Standstill
/-!
# Lemmas: passes that are all alike
-/

set_option linter.unusedSectionVars false

namespace GS
open Spec
variable {α κ W : Type _} [DecidableEq α] [DecidableEq κ]

/-- The same has happened in the pass. -/
structure SameNow (p p' : Past α) : Prop where
  now : p'.now = p.now
  next : p'.next = p.next

section
variable {p p' : Past α} {e e' : Around α κ W}

theorem SameNow.calls (h : SameNow p p') : p'.calls .pass = p.calls .pass := by
  funext n
  simp only [Past.calls, h.now, h.next]

theorem SameNow.leaf (h : SameNow p p') (he : e'.nodes = e.nodes) (own : Option α)
    {k : Leaf α κ W} (hk : PassOnlyLeaf k) : holdsLeaf e' own p' k = holdsLeaf e own p k := by
  cases k with
  | afterNCallsCombined ds m ts => cases hk; cases m <;> simp only [holdsLeaf, h.calls]
  | beforeNCalls d n ts => cases hk; simp only [holdsLeaf, h.calls]
  | atNCalls d n ts => cases hk; simp only [holdsLeaf, h.calls]
  | afterCall d n ts => cases hk; simp only [holdsLeaf, h.calls]
  | afterNCalls d n ts => cases hk; simp only [holdsLeaf, h.calls]
  | allHaveRun ds ts => cases hk; simp only [holdsLeaf, h.calls, he]
  | _ => first
    | exact hk.elim
    | simp only [holdsLeaf]

mutual
theorem SameNow.holds (h : SameNow p p') (he : e'.nodes = e.nodes) (own : Option α) :
    ∀ c : Cond α κ W, MadeOf PassOnlyLeaf c → holds e' own p' c = holds e own p c
  | .leaf _ k, hc => by
    cases hc with | leaf hk => exact h.leaf he own hk
  | .whileNot _ _, hc => by cases hc
  | .nwhen _ _ _, hc => by cases hc
  | .all _ cs, hc => by
    cases hc with | all hc => exact (SameNow.holdsAll h he own cs hc).1
  | .any _ cs, hc => by
    cases hc with | any hc => exact (SameNow.holdsAll h he own cs hc).2
  | .not _ c, hc => by
    cases hc with | not hc => simp only [Spec.holds, SameNow.holds h he own c hc]
theorem SameNow.holdsAll (h : SameNow p p') (he : e'.nodes = e.nodes) (own : Option α) :
    ∀ cs : List (Cond α κ W), (∀ c ∈ cs, MadeOf PassOnlyLeaf c) →
      holdsAll e' own p' cs = holdsAll e own p cs ∧ holdsAny e' own p' cs = holdsAny e own p cs
  | [], _ => ⟨rfl, rfl⟩
  | c :: cs, hc => by
    have h1 := SameNow.holds h he own c (hc c List.mem_cons_self)
    have h2 := SameNow.holdsAll h he own cs fun x hx => hc x (List.mem_cons_of_mem _ hx)
    simp only [Spec.holdsAll, Spec.holdsAny, h1, h2.1, h2.2, and_self]
end

theorem SameNow.rule (h : SameNow p p') {s : Sys α κ W} (hs : PassOnlyNodes s) (he : e'.nodes = e.nodes)
    {n : α} (hn : n ∈ s.queue.flatten) : rule s e' n p' = rule s e n p := by
  unfold Spec.rule
  rcases hs n hn with ⟨c, h1, h2⟩ | ⟨h1, h2⟩
  · rw [h1]
    have k := h.holds he (some n) c h2
    cases h2 <;> exact k
  · rw [h1, h2]
    simp
end

section
variable {R R' : α → Past α → Bool} {T T' : Past α → Bool} {q : List (List α)} {abs : Bool}

theorem goThrough_now {L : List α} (hR : ∀ n ∈ L, ∀ p p' : Past α, SameNow p p' → R' n p' = R n p) :
    ∀ (l : List α), (∀ n ∈ l, n ∈ L) → ∀ p p' : Past α, SameNow p p' →
      SameNow (goThrough R l p) (goThrough R' l p')
  | [], _, _, _, h => h
  | n :: ns, hl, p, p', h => by
    simp only [goThrough]
    refine goThrough_now hR ns (fun x hx => hl x (List.mem_cons_of_mem _ hx)) _ _ ?_
    rw [h.next, hR n (hl n List.mem_cons_self) p p' h]
    split
    · exact h
    · split
      · exact ⟨h.now, rfl⟩
      · exact h

theorem choice_now {l : List α} (hR : ∀ n ∈ l, ∀ p p' : Past α, SameNow p p' → R' n p' = R n p)
    {p p' : Past α} (h : SameNow p p') : choice R' l p' = choice R l p := by
  have : ∀ k (p p' : Past α), SameNow p p' → SameNow (goRound R l k p) (goRound R' l k p') := by
    intro k
    induction k with
    | zero => exact fun _ _ h => h
    | succ k ih => exact fun p p' h => ih _ _ (goThrough_now hR l (fun _ hx => hx) p p' h)
  exact (this _ p p' h).next

theorem passFrom_now : ∀ (q : List (List α)),
    (∀ l ∈ q, ∀ n ∈ l, ∀ p p' : Past α, SameNow p p' → R' n p' = R n p) → ∀ p p' : Past α, SameNow p p' →
    (∀ x : Past α, x.before = p.before → T x = false) → (∀ x : Past α, x.before = p'.before → T' x = false) →
    SameNow (passFrom abs R T q p) (passFrom abs R' T' q p')
  | [], _, _, _, h, _, _ => h
  | l :: q, hR, p, p', h, hT, hT' => by
    have hR' := fun x hx => hR x (List.mem_cons_of_mem _ hx)
    simp only [passFrom, hT p rfl, hT' p' rfl, Bool.false_eq_true, if_false,
      choice_now (hR l List.mem_cons_self) h]
    split
    · exact passFrom_now q hR' p p' h hT hT'
    · exact passFrom_now q hR' _ _ ⟨by rw [h.now], h.next⟩ hT hT'

/-- All passes are the pass with rules `R` from an empty past. -/
theorem reference_alike (runs : List (List (List (List α)))) {N : Nat}
    (hR : ∀ l ∈ q, ∀ n ∈ l, ∀ p p' : Past α, SameNow p p' → R' n p' = R n p)
    (hT : ∀ p : Past α, T p = decide (N ≤ p.before.length)) : ∀ k : Nat,
      (reference abs R' T q k ⟨runs, [], [], []⟩).now = [] ∧
      (reference abs R' T q k ⟨runs, [], [], []⟩).next = [] ∧
      ∀ P ∈ (reference abs R' T q k ⟨runs, [], [], []⟩).before,
        (closePass abs (passFrom abs R (fun _ => false) q ⟨[], [], [], []⟩)).before = [P]
  | 0 => ⟨rfl, rfl, fun P h => by simp [reference] at h⟩
  | k + 1 => by
    obtain ⟨h1, h2, h3⟩ := reference_alike runs hR hT k
    rw [reference_succ]
    split
    · exact ⟨h1, h2, h3⟩
    · rename_i hstop
      revert h1 h2 h3 hstop
      generalize reference abs R' T q k ⟨runs, [], [], []⟩ = x
      intro h1 h2 h3 hstop
      have hx : T x = false := Bool.eq_false_iff.2 hstop
      have t1 : ∀ y : Past α, y.before = x.before → T y = false := fun y e => by
        rw [hT, e, ← hT]; exact hx
      have key := passFrom_now (abs := abs) (R := R) (T := fun _ => false) q hR ⟨[], [], [], []⟩ x ⟨h1, h2⟩
        (fun _ _ => rfl) t1
      have hf := passFrom_frame (abs := abs) (R := R') (T := T) q x
      have hf0 := passFrom_frame (abs := abs) (R := R) (T := fun _ => false) q ⟨[], [], [], []⟩
      refine ⟨rfl, hf.2.2.1.trans h2, fun P hP => ?_⟩
      unfold closePass at hP
      simp only [hf.2.1, List.mem_append, List.mem_singleton] at hP
      rcases hP with hP | hP
      · exact h3 P hP
      · rw [hP]
        unfold closePass
        rw [key.now]
        simp only [hf0.2.1, List.nil_append]

/-- A pass that may be cut short contains only nodes of the whole pass. -/
theorem passFrom_shortened : ∀ (q : List (List α)),
    (∀ l ∈ q, ∀ n ∈ l, ∀ p p' : Past α, SameNow p p' → R' n p' = R n p) → ∀ p p' : Past α, SameNow p p' →
    ∀ n ∈ (passFrom abs R' T q p').now.flatten, n ∈ (passFrom abs R (fun _ => false) q p).now.flatten
  | [], _, _, _, h => fun n hn => by
    simp only [passFrom] at hn ⊢
    rw [← h.now]; exact hn
  | l :: q, hR, p, p', h => by
    have hR' := fun x hx => hR x (List.mem_cons_of_mem _ hx)
    by_cases hs : T p' = true
    · intro n hn
      simp only [passFrom, hs, if_true] at hn
      obtain ⟨z, hz⟩ := (passFrom_frame (abs := abs) (R := R) (T := fun _ => false) (l :: q) p).2.2.2
      rw [← hz, List.flatten_append, ← h.now]
      exact List.mem_append_left _ hn
    · simp only [passFrom, hs, Bool.false_eq_true, if_false, choice_now (hR l List.mem_cons_self) h]
      split
      · exact passFrom_shortened q hR' p p' h
      · exact passFrom_shortened q hR' _ _ ⟨by rw [h.now], h.next⟩

/-- If the run need not stop after the pass, the pass is whole. -/
theorem passFrom_unshortened : ∀ (q : List (List α)),
    (∀ l ∈ q, ∀ n ∈ l, ∀ p p' : Past α, SameNow p p' → R' n p' = R n p) → ∀ p p' : Past α, SameNow p p' →
    T (passFrom abs R' T q p') = false →
    (passFrom abs R' T q p').now = (passFrom abs R (fun _ => false) q p).now
  | [], _, _, _, h, _ => h.now
  | l :: q, hR, p, p', h, hT => by
    have hR' := fun x hx => hR x (List.mem_cons_of_mem _ hx)
    by_cases hs : T p' = true
    · simp only [passFrom, hs, if_true] at hT
      cases hT
    · simp only [passFrom, hs, Bool.false_eq_true, if_false,
        choice_now (hR l List.mem_cons_self) h] at hT ⊢
      split
      · rename_i hc
        rw [if_pos hc] at hT
        exact passFrom_unshortened q hR' p p' h hT
      · rename_i hc
        rw [if_neg hc] at hT
        exact passFrom_unshortened q hR' _ _ ⟨by rw [h.now], h.next⟩ hT

/-- If a run ends when all nodes have executed, it is over after the first pass or never. -/
theorem reference_once (runs : List (List (List (List α)))) {nodes : List α}
    (hR : ∀ l ∈ q, ∀ n ∈ l, ∀ p p' : Past α, SameNow p p' → R' n p' = R n p)
    (hT : ∀ p : Past α, T p = decide (∀ d ∈ nodes, 1 ≤ p.calls .environment_state_update d)) : ∀ k : Nat,
      (reference abs R' T q k ⟨runs, [], [], []⟩).now = [] ∧
      (reference abs R' T q k ⟨runs, [], [], []⟩).next = [] ∧
      (∀ P ∈ (reference abs R' T q k ⟨runs, [], [], []⟩).before, ∀ n ∈ P.flatten,
        n ∈ (passFrom abs R (fun _ => false) q ⟨[], [], [], []⟩).now.flatten) ∧
      ((reference abs R' T q k ⟨runs, [], [], []⟩).before.length ≤ 1 ∨
        T (reference abs R' T q k ⟨runs, [], [], []⟩) = false) ∧
      (1 ≤ (reference abs R' T q k ⟨runs, [], [], []⟩).before.length →
        T (reference abs R' T q k ⟨runs, [], [], []⟩) = false → ∃ d ∈ nodes,
          d ∉ (passFrom abs R (fun _ => false) q ⟨[], [], [], []⟩).now.flatten)
  | 0 => ⟨rfl, rfl, fun P h => (by simp [reference] at h), .inl (by simp [reference]),
      fun h => by simp [reference] at h⟩
  | k + 1 => by
    obtain ⟨h1, h2, h3, h4, h5⟩ := reference_once runs hR hT k
    rw [reference_succ]
    split
    · exact ⟨h1, h2, h3, h4, h5⟩
    · rename_i hstop
      revert h1 h2 h3 h4 h5 hstop
      generalize reference abs R' T q k ⟨runs, [], [], []⟩ = x
      intro h1 h2 h3 h4 h5 hstop
      have hx : T x = false := Bool.eq_false_iff.2 hstop
      have hS : SameNow ⟨[], [], [], []⟩ x := ⟨h1, h2⟩
      have hf := passFrom_frame (abs := abs) (R := R') (T := T) q x
      have cut := passFrom_shortened (abs := abs) (R := R) (T := T) q hR _ _ hS
      have uncut := passFrom_unshortened (abs := abs) (R := R) (T := T) q hR _ _ hS
      have e1 : (closePass abs (passFrom abs R' T q x)).inRun.flatten =
          (passFrom abs R' T q x).inRun.flatten := by
        unfold closePass
        simp only [Past.inRun, List.append_nil, List.flatten_append]
        congr 1
        split
        · rename_i hn
          rw [hn.1]; rfl
        · simp
      have e2 : T (closePass abs (passFrom abs R' T q x)) = T (passFrom abs R' T q x) := by
        rw [hT, hT]
        simp only [Past.calls, e1]
        rfl
      have h3' : ∀ P ∈ (closePass abs (passFrom abs R' T q x)).before, ∀ n ∈ P.flatten,
          n ∈ (passFrom abs R (fun _ => false) q ⟨[], [], [], []⟩).now.flatten := by
        intro P hP n hn
        unfold closePass at hP
        simp only [hf.2.1, List.mem_append, List.mem_singleton] at hP
        rcases hP with hP | hP
        · exact h3 P hP n hn
        · refine cut n ?_
          rw [hP] at hn
          split at hn
          · simp at hn
          · exact hn
      have hlen : (closePass abs (passFrom abs R' T q x)).before.length = x.before.length + 1 := by
        unfold closePass
        rw [List.length_append, hf.2.1]; rfl
      have fromD : ∀ d ∈ nodes, d ∉ (passFrom abs R (fun _ => false) q ⟨[], [], [], []⟩).now.flatten →
          T (closePass abs (passFrom abs R' T q x)) = false := by
        intro d hd hdn
        rw [hT]
        refine decide_eq_false fun k => ?_
        have := k d hd
        have en : (closePass abs (passFrom abs R' T q x)).next = [] := hf.2.2.1.trans h2
        have ew : (closePass abs (passFrom abs R' T q x)).now = [] := rfl
        simp only [Past.calls, Past.inRun, en, ew, List.append_nil] at this
        have hm : d ∈ (closePass abs (passFrom abs R' T q x)).before.flatten.flatten :=
          List.count_pos_iff.1 (by omega)
        obtain ⟨l, hl, hdl⟩ := List.mem_flatten.1 hm
        obtain ⟨P, hP, hlP⟩ := List.mem_flatten.1 hl
        exact hdn (h3' P hP d (List.mem_flatten.2 ⟨l, hlP, hdl⟩))
      refine ⟨rfl, hf.2.2.1.trans h2, h3', ?_, fun _ hTc => ?_⟩
      · by_cases hl : 1 ≤ x.before.length
        · obtain ⟨d, hd, hdn⟩ := h5 hl hx
          exact .inr (fromD d hd hdn)
        · exact .inl (by rw [hlen]; omega)
      · by_cases hl : 1 ≤ x.before.length
        · exact h5 hl hx
        · have hb : x.before = [] := List.eq_nil_of_length_eq_zero (by omega)
          rw [e2] at hTc
          rw [← uncut hTc]
          rw [hT] at hTc
          have hTc := of_decide_eq_false hTc
          have en : (passFrom abs R' T q x).next = [] := hf.2.2.1.trans h2
          have eb : (passFrom abs R' T q x).before = [] := hf.2.1.trans hb
          simp only [Past.calls, Past.inRun, en, eb, List.append_nil, List.flatten_nil, List.nil_append] at hTc
          refine Classical.byContradiction fun hno => hTc fun d hd => ?_
          exact List.count_pos_iff.2 (Classical.byContradiction fun hdn => hno ⟨d, hd, hdn⟩)
end
end GS
