import Verif.Spec.OneRun
import Verif.Standstill
/-!
# Lemmas: two runs and one run
-/

set_option linter.unusedSectionVars false

namespace GS
open Spec
variable {α κ W : Type _} [DecidableEq α] [DecidableEq κ]

/-- The same has happened, apart from where runs ended. -/
structure SameLife (p p' : Past α) : Prop where
  all : p'.all = p.all
  now : p'.now = p.now
  next : p'.next = p.next
  passes : p'.runs.flatten.length + p'.before.length = p.runs.flatten.length + p.before.length

section
variable {p p' : Past α} {e e' : Around α κ W}

theorem SameLife.calls (h : SameLife p p') {ts : TimeScale} (ht : ts = .pass ∨ LongScale ts) :
    p'.calls ts = p.calls ts := by
  funext n
  rcases ht with rfl | rfl | rfl <;> simp only [Past.calls, h.now, h.next, h.all]

theorem SameLife.leaf (h : SameLife p p') (he : e'.nodes = e.nodes) (own : Option α)
    {k : Leaf α κ W} (hk : LifeLeaf k) : holdsLeaf e' own p' k = holdsLeaf e own p k := by
  have hp : ∀ ts, LongScale ts → p'.passes ts = p.passes ts := by
    rintro ts (rfl | rfl) <;> exact h.passes
  have hs : ∀ ts, LongScale ts → p'.sets ts = p.sets ts := by
    rintro ts (rfl | rfl) <;> simp only [Past.sets, h.all]
  cases k with
  | afterNCallsCombined ds m ts => cases m <;> simp only [holdsLeaf, h.calls hk]
  | justRan d => simp only [holdsLeaf, Past.justRan, h.all]
  | beforeNCalls d n ts => simp only [holdsLeaf, h.calls hk]
  | atNCalls d n ts => simp only [holdsLeaf, h.calls hk]
  | afterCall d n ts => simp only [holdsLeaf, h.calls hk]
  | afterNCalls d n ts => simp only [holdsLeaf, h.calls hk]
  | allHaveRun ds ts => simp only [holdsLeaf, h.calls hk, he]
  | beforePass n ts => simp only [holdsLeaf, hp ts hk]
  | atPass n ts => simp only [holdsLeaf, hp ts hk]
  | afterPass n ts => simp only [holdsLeaf, hp ts hk]
  | afterNPasses n ts => simp only [holdsLeaf, hp ts hk]
  | everyNPasses n ts => simp only [holdsLeaf, hp ts hk]
  | beforeConsiderationSetExecution n ts => simp only [holdsLeaf, hs ts hk]
  | atConsiderationSetExecution n ts => simp only [holdsLeaf, hs ts hk]
  | afterConsiderationSetExecution n ts => simp only [holdsLeaf, hs ts hk]
  | afterNConsiderationSetExecutions n ts => simp only [holdsLeaf, hs ts hk]
  | _ => first
    | exact hk.elim
    | simp only [holdsLeaf]

mutual
theorem SameLife.holds (h : SameLife p p') (he : e'.nodes = e.nodes) (own : Option α) :
    ∀ c : Cond α κ W, MadeOf LifeLeaf c → holds e' own p' c = holds e own p c
  | .leaf _ k, hc => by
    cases hc with | leaf hk => exact h.leaf he own hk
  | .whileNot _ _, hc => by cases hc
  | .nwhen _ _ _, hc => by cases hc
  | .all _ cs, hc => by
    cases hc with | all hc => exact (SameLife.holdsAll h he own cs hc).1
  | .any _ cs, hc => by
    cases hc with | any hc => exact (SameLife.holdsAll h he own cs hc).2
  | .not _ c, hc => by
    cases hc with | not hc => simp only [Spec.holds, SameLife.holds h he own c hc]
theorem SameLife.holdsAll (h : SameLife p p') (he : e'.nodes = e.nodes) (own : Option α) :
    ∀ cs : List (Cond α κ W), (∀ c ∈ cs, MadeOf LifeLeaf c) →
      holdsAll e' own p' cs = holdsAll e own p cs ∧ holdsAny e' own p' cs = holdsAny e own p cs
  | [], _ => ⟨rfl, rfl⟩
  | c :: cs, hc => by
    have h1 := SameLife.holds h he own c (hc c List.mem_cons_self)
    have h2 := SameLife.holdsAll h he own cs fun x hx => hc x (List.mem_cons_of_mem _ hx)
    simp only [Spec.holdsAll, Spec.holdsAny, h1, h2.1, h2.2, and_self]
end

theorem SameLife.rule (h : SameLife p p') {s : Sys α κ W} (hs : LifeNodes s) (he : e'.nodes = e.nodes)
    {n : α} (hn : n ∈ s.queue.flatten) : rule s e' n p' = rule s e n p := by
  unfold Spec.rule
  rcases hs n hn with ⟨c, h1, h2⟩ | ⟨o, c, m, h1, h2⟩ | ⟨h1, h2⟩
  · rw [h1]
    have k := h.holds he (some n) c h2
    cases h2 <;> exact k
  · rw [h1]
    simp only [h.holds he (some n) c h2, h.calls (.inr (.inr rfl))]
  · rw [h1, h2]
    simp
end

section
variable {R R' : α → Past α → Bool} {T T' : Past α → Bool} {q : List (List α)} {abs : Bool}

theorem goThrough_life {L : List α} (hR : ∀ n ∈ L, ∀ p p' : Past α, SameLife p p' → R' n p' = R n p) :
    ∀ (l : List α), (∀ n ∈ l, n ∈ L) → ∀ p p' : Past α, SameLife p p' →
      SameLife (goThrough R l p) (goThrough R' l p')
  | [], _, _, _, h => h
  | n :: ns, hl, p, p', h => by
    simp only [goThrough]
    refine goThrough_life hR ns (fun x hx => hl x (List.mem_cons_of_mem _ hx)) _ _ ?_
    rw [h.next, hR n (hl n List.mem_cons_self) p p' h]
    split
    · exact h
    · split
      · exact ⟨h.all, h.now, rfl, h.passes⟩
      · exact h

theorem choice_life {l : List α} (hR : ∀ n ∈ l, ∀ p p' : Past α, SameLife p p' → R' n p' = R n p)
    {p p' : Past α} (h : SameLife p p') : choice R' l p' = choice R l p := by
  have : ∀ k (p p' : Past α), SameLife p p' → SameLife (goRound R l k p) (goRound R' l k p') := by
    intro k
    induction k with
    | zero => exact fun _ _ h => h
    | succ k ih => exact fun p p' h => ih _ _ (goThrough_life hR l (fun _ hx => hx) p p' h)
  exact (this _ p p' h).next

theorem SameLife.addSet {p p' : Past α} (h : SameLife p p') (x : List α) :
    SameLife { p with now := p.now ++ [x] } { p' with now := p'.now ++ [x] } := by
  have := h.all
  refine ⟨?_, by rw [h.now], h.next, h.passes⟩
  simp only [Past.all, Past.inRun] at this ⊢
  rw [← List.append_assoc, ← List.append_assoc, ← List.append_assoc, ← List.append_assoc]
  rw [← List.append_assoc, ← List.append_assoc] at this
  rw [this]

theorem passFrom_life : ∀ (q : List (List α)),
    (∀ l ∈ q, ∀ n ∈ l, ∀ p p' : Past α, SameLife p p' → R' n p' = R n p) → ∀ p p' : Past α, SameLife p p' →
    (∀ x : Past α, x.before = p.before → T x = false) → (∀ x : Past α, x.before = p'.before → T' x = false) →
    SameLife (passFrom abs R T q p) (passFrom abs R' T' q p')
  | [], _, _, _, h, _, _ => h
  | l :: q, hR, p, p', h, hT, hT' => by
    have hR' := fun x hx => hR x (List.mem_cons_of_mem _ hx)
    simp only [passFrom, hT p rfl, hT' p' rfl, Bool.false_eq_true, if_false,
      choice_life (hR l List.mem_cons_self) h]
    split
    · exact passFrom_life q hR' p p' h hT hT'
    · exact passFrom_life q hR' _ _ (h.addSet _) hT hT'

theorem closePass_life {p p' : Past α} (h : SameLife p p') :
    SameLife (closePass abs p) (closePass abs p') ∧
      ∃ P, (closePass abs p).before = p.before ++ [P] ∧ (closePass abs p').before = p'.before ++ [P] := by
  refine ⟨⟨?_, rfl, h.next, ?_⟩, _, rfl, by unfold closePass; rw [h.now]⟩
  · have := h.all
    unfold closePass
    simp only [Past.all, Past.inRun] at this ⊢
    rw [h.now] at this ⊢
    by_cases hn : p.now = [] ∧ abs = false
    · rw [if_pos hn]
      rw [hn.1] at this
      simp only [List.append_nil, List.flatten_append, List.flatten_singleton] at this ⊢
      rw [← List.append_assoc, ← List.append_assoc, this]
    · rw [if_neg hn]
      simp only [List.append_nil, List.flatten_append, List.flatten_singleton]
      exact this
  · have := h.passes
    unfold closePass
    simp only [List.length_append, List.length_singleton]
    omega

/-- From two pasts that differ only in where runs ended, the passes are the same. -/
theorem reference_life {N M : Nat} {E : List (List (List α))}
    {p p' : Past α} (hp : SameLife p p') (hb : p.before = E) (hb' : p'.before = [])
    (hR : ∀ l ∈ q, ∀ n ∈ l, ∀ p p' : Past α, SameLife p p' → R' n p' = R n p)
    (hT : ∀ p : Past α, p.before.length < N + M → T p = false)
    (hT' : ∀ p : Past α, T' p = decide (M ≤ p.before.length)) (hE : E.length = N) : ∀ k : Nat, k ≤ M →
      SameLife (reference abs R T q k p) (reference abs R' T' q k p') ∧
      (reference abs R T q k p).before = E ++ (reference abs R' T' q k p').before ∧
      (reference abs R' T' q k p').before.length = k
  | 0, _ => ⟨hp, by simp [reference, hb, hb'], by simp [reference, hb']⟩
  | k + 1, hk => by
    obtain ⟨h1, h2, h3⟩ := reference_life hp hb hb' hR hT hT' hE k (by omega)
    rw [reference_succ, reference_succ]
    revert h1 h2 h3
    generalize reference abs R T q k p = x
    generalize reference abs R' T' q k p' = x'
    intro h1 h2 h3
    have hx : x.before.length = N + k := by rw [h2, List.length_append, hE, h3]
    have t1 : ∀ y : Past α, y.before = x.before → T y = false := fun y e => by
      exact hT y (by rw [e, hx]; omega)
    have t2 : ∀ y : Past α, y.before = x'.before → T' y = false := fun y e => by
      rw [hT', e, h3]; exact decide_eq_false (by omega)
    rw [t1 x rfl, t2 x' rfl, if_neg (by simp), if_neg (by simp)]
    obtain ⟨k1, P, k2, k3⟩ := closePass_life (abs := abs)
      (passFrom_life (abs := abs) q hR x x' h1 t1 t2)
    rw [(passFrom_frame _ _).2.1] at k2 k3
    refine ⟨k1, by rw [k2, k3, h2, List.append_assoc], by rw [k3, List.length_append, h3]; rfl⟩

/-- The first passes do not depend on how many there will be. -/
theorem reference_shorter {N M : Nat} {p : Past α} (hp : p.before = [])
    (hR : ∀ l ∈ q, ∀ n ∈ l, ∀ p p' : Past α, SameLife p p' → R' n p' = R n p)
    (hT : ∀ p : Past α, T p = decide (N + M ≤ p.before.length))
    (hT' : ∀ p : Past α, T' p = decide (N ≤ p.before.length)) : ∀ k : Nat, k ≤ N →
      SameLife (reference abs R T q k p) (reference abs R' T' q k p) ∧
      (reference abs R T q k p).before = (reference abs R' T' q k p).before ∧
      (reference abs R' T' q k p).before.length = k := by
  intro k hk
  have := reference_life (abs := abs) (N := 0) (M := N) (E := []) (q := q) (R := R) (R' := R')
    (T := fun p => decide (0 + N ≤ p.before.length)) (T' := T') (p := p) (p' := p) ⟨rfl, rfl, rfl, rfl⟩ hp hp
    hR (fun _ h => decide_eq_false (by omega)) hT' rfl k hk
  have key : ∀ k, k ≤ N → reference abs R T q k p =
      reference abs R (fun p => decide (0 + N ≤ p.before.length)) q k p ∧
      (reference abs R T q k p).before.length = k := by
    intro k
    induction k with
    | zero => exact fun _ => ⟨rfl, by simp [reference, hp]⟩
    | succ k ih =>
      intro hk
      obtain ⟨i1, i2⟩ := ih (by omega)
      rw [reference_succ, reference_succ, ← i1]
      revert i1 i2
      generalize reference abs R T q k p = x
      intro i1 i2
      have t1 : ∀ y : Past α, y.before = x.before → T y = false := fun y e => by
        rw [hT, e, i2]; exact decide_eq_false (by omega)
      rw [t1 x rfl, if_neg (by simp), if_neg (by rw [i2, decide_eq_true_eq]; omega)]
      have pf : ∀ (q : List (List α)) (y : Past α), y.before = x.before → passFrom abs R T q y =
          passFrom abs R (fun p => decide (0 + N ≤ p.before.length)) q y := by
        intro q
        induction q with
        | nil => exact fun _ _ => rfl
        | cons l q jh =>
          intro y hy
          have t2 : decide (0 + N ≤ y.before.length) = false := by
            rw [hy, i2]; exact decide_eq_false (by omega)
          simp only [passFrom, t1 y hy, t2, Bool.false_eq_true, if_false]
          split
          · exact jh y hy
          · exact jh _ hy
      rw [pf q x rfl]
      refine ⟨rfl, ?_⟩
      unfold closePass
      rw [List.length_append, (passFrom_frame _ _).2.1, i2]
      rfl
  rw [(key k hk).1]
  simpa using this
end
end GS
