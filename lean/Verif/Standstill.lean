import Verif.Spec.Standstill
import Verif.AsOne
/-!
# Lemmas: a pass in which nothing executes
-/

set_option linter.unusedSectionVars false

namespace GS
open Spec
variable {α κ W : Type _} [DecidableEq α] [DecidableEq κ]

/-- The same nodes have executed in the same order, in the earlier runs, in this run and in this pass. -/
structure SameCalls (p p' : Past α) : Prop where
  runs : p'.runs = p.runs
  inRun : p'.inRun.flatten = p.inRun.flatten
  now : p'.now.flatten = p.now.flatten
  next : p'.next = p.next

theorem SameCalls.calls {p p' : Past α} (h : SameCalls p p') (ts : TimeScale) : p'.calls ts = p.calls ts := by
  have e : p'.all.flatten = p.all.flatten := by
    rw [Past.all, Past.all, List.flatten_append, List.flatten_append, h.runs, h.inRun]
  funext n
  cases ts <;> simp only [Past.calls, h.now, h.next, h.inRun, e]

theorem SameCalls.since {p p' : Past α} (h : SameCalls p p') (n d : α) :
    p'.callsSince n d = p.callsSince n d := by
  simp only [Past.callsSince, h.inRun, h.next]

theorem SameCalls.leaf {p p' : Past α} (h : SameCalls p p') (e : Around α κ W) (own : Option α)
    {k : Leaf α κ W} (hk : CallsLeaf k) : holdsLeaf e own p' k = holdsLeaf e own p k := by
  cases k with
  | afterNCallsCombined ds m ts => cases m <;> simp only [holdsLeaf, h.calls]
  | everyNCalls d m => cases own <;> simp only [holdsLeaf, h.since]
  | _ => first
    | exact hk.elim
    | simp only [holdsLeaf, h.calls, h.runs]

theorem SameCalls.leafPasses {p p' : Past α} (h : SameCalls p p') (hl : p'.before.length = p.before.length)
    (e : Around α κ W) (own : Option α) {k : Leaf α κ W} (hk : CallsOrPassesLeaf k) :
    holdsLeaf e own p' k = holdsLeaf e own p k := by
  have hp : ∀ ts, p'.passes ts = p.passes ts := fun ts => by
    cases ts <;> simp only [Past.passes, hl, h.runs]
  cases k with
  | beforePass n ts => simp only [holdsLeaf, hp]
  | atPass n ts => simp only [holdsLeaf, hp]
  | afterPass n ts => simp only [holdsLeaf, hp]
  | afterNPasses n ts => simp only [holdsLeaf, hp]
  | everyNPasses n ts => simp only [holdsLeaf, hp]
  | _ => exact h.leaf e own hk

section
variable {Q : Leaf α κ W → Prop} {e : Around α κ W} {own : Option α} {p p' : Past α}

mutual
theorem holds_same (hQ : ∀ k, Q k → holdsLeaf e own p' k = holdsLeaf e own p k) : ∀ c : Cond α κ W,
    MadeOf Q c → holds e own p' c = holds e own p c
  | .leaf _ k, hc => by
    cases hc with | leaf h => exact hQ k h
  | .whileNot _ _, hc => by cases hc
  | .nwhen _ _ _, hc => by cases hc
  | .all _ cs, hc => by
    cases hc with | all h => exact (holdsAll_same hQ cs h).1
  | .any _ cs, hc => by
    cases hc with | any h => exact (holdsAll_same hQ cs h).2
  | .not _ c, hc => by
    cases hc with | not h => simp only [holds, holds_same hQ c h]
theorem holdsAll_same (hQ : ∀ k, Q k → holdsLeaf e own p' k = holdsLeaf e own p k) :
    ∀ cs : List (Cond α κ W), (∀ c ∈ cs, MadeOf Q c) →
      holdsAll e own p' cs = holdsAll e own p cs ∧ holdsAny e own p' cs = holdsAny e own p cs
  | [], _ => ⟨rfl, rfl⟩
  | c :: cs, hc => by
    have h1 := holds_same hQ c (hc c List.mem_cons_self)
    have h2 := holdsAll_same hQ cs fun x hx => hc x (List.mem_cons_of_mem _ hx)
    simp only [holdsAll, holdsAny, h1, h2.1, h2.2, and_self]
end
end

theorem SameCalls.rule {p p' : Past α} (h : SameCalls p p') {s : Sys α κ W} (hs : CallsNodes s)
    (e : Around α κ W) {n : α} (hn : n ∈ s.queue.flatten) : rule s e n p' = rule s e n p := by
  unfold Spec.rule
  rcases hs n hn with ⟨c, h1, h2⟩ | ⟨o, c, m, h1, h2⟩ | h1
  · rw [h1]
    have k := holds_same (e := e) (own := some n) (fun k hk => h.leaf e (some n) hk) c h2
    cases h2 <;> exact k
  · rw [h1]
    have k := holds_same (e := e) (own := some n) (fun k hk => h.leaf e (some n) hk) c h2
    simp only [k, h.calls]
  · rw [h1]
    simp only [h.since]

section
variable {R : α → Past α → Bool} {T : Past α → Bool} {q : List (List α)} {abs : Bool}

theorem goThrough_same {L : List α} (hR : ∀ n ∈ L, ∀ p p' : Past α, SameCalls p p' → R n p' = R n p) :
    ∀ (l : List α), (∀ n ∈ l, n ∈ L) → ∀ p p' : Past α, SameCalls p p' →
      SameCalls (goThrough R l p) (goThrough R l p')
  | [], _, _, _, h => h
  | n :: ns, hl, p, p', h => by
    simp only [goThrough]
    refine goThrough_same hR ns (fun x hx => hl x (List.mem_cons_of_mem _ hx)) _ _ ?_
    rw [h.next, hR n (hl n List.mem_cons_self) p p' h]
    split
    · exact h
    · split
      · exact ⟨h.runs, h.inRun, h.now, rfl⟩
      · exact h

theorem choice_same {l : List α} (hR : ∀ n ∈ l, ∀ p p' : Past α, SameCalls p p' → R n p' = R n p)
    {p p' : Past α} (h : SameCalls p p') : choice R l p' = choice R l p := by
  have : ∀ k (p p' : Past α), SameCalls p p' → SameCalls (goRound R l k p) (goRound R l k p') := by
    intro k
    induction k with
    | zero => exact fun _ _ h => h
    | succ k ih => exact fun p p' h => ih _ _ (goThrough_same hR l (fun _ hx => hx) p p' h)
  exact (this _ p p' h).next

theorem SameCalls.symm {p p' : Past α} (h : SameCalls p p') : SameCalls p' p :=
  ⟨h.runs.symm, h.inRun.symm, h.now.symm, h.next.symm⟩

theorem SameCalls.addEmpty (p : Past α) : SameCalls p { p with now := p.now ++ [[]] } :=
  ⟨rfl, by simp [Past.inRun], by simp, rfl⟩

/-- If nothing can be chosen, nothing is. -/
theorem passFrom_unable : ∀ (q : List (List α)),
    (∀ l ∈ q, ∀ n ∈ l, ∀ p p' : Past α, SameCalls p p' → R n p' = R n p) → ∀ p : Past α,
    (∀ l ∈ q, choice R l p = []) → (passFrom abs R T q p).now.flatten = p.now.flatten
  | [], _, _, _ => rfl
  | l :: q, hR, p, h => by
    have hR' := fun x hx => hR x (List.mem_cons_of_mem _ hx)
    have h' := fun x hx => h x (List.mem_cons_of_mem _ hx)
    simp only [passFrom]
    split
    · rfl
    · rw [h l List.mem_cons_self]
      split
      · exact passFrom_unable q hR' p h'
      · have k := SameCalls.addEmpty p
        rw [passFrom_unable q hR' { p with now := p.now ++ [[]] } fun x hx => by
          rw [choice_same (hR' x hx) k]; exact h' x hx]
        exact k.now

/-- If nothing is chosen in a pass during which the run does not stop, nothing could be. -/
theorem unable_passFrom : ∀ (q : List (List α)),
    (∀ l ∈ q, ∀ n ∈ l, ∀ p p' : Past α, SameCalls p p' → R n p' = R n p) → ∀ p : Past α,
    (∀ p' : Past α, SameCalls p p' → p'.before = p.before → T p' = false) →
    (passFrom abs R T q p).now.flatten = [] → ∀ l ∈ q, choice R l p = []
  | [], _, _, _, _ => fun _ h => by cases h
  | l :: q, hR, p, hT, h => by
    have hR' := fun x hx => hR x (List.mem_cons_of_mem _ hx)
    simp only [passFrom] at h
    rw [if_neg (by rw [hT p ⟨rfl, rfl, rfl, rfl⟩ rfl]; simp)] at h
    by_cases hc : choice R l p = []
    · rw [hc] at h
      intro x hx
      rcases List.mem_cons.1 hx with rfl | hx
      · exact hc
      · split at h
        · exact unable_passFrom q hR' p hT h x hx
        · have k := SameCalls.addEmpty p
          have := unable_passFrom q hR' { p with now := p.now ++ [[]] } (fun p' h1 h2 =>
            hT p' ⟨h1.runs, h1.inRun.trans k.inRun, h1.now.trans k.now, h1.next⟩ h2) h x hx
          rw [choice_same (hR' x hx) k] at this
          exact this
    · rw [if_neg fun k => hc k.1] at h
      obtain ⟨z, hz⟩ := (passFrom_frame (abs := abs) (R := R) (T := T) q
        { p with now := p.now ++ [choice R l p] }).2.2.2
      rw [← hz] at h
      simp only [List.flatten_append, List.flatten_singleton, List.append_eq_nil_iff] at h
      exact absurd h.1.2 hc

/-- After a pass in which nothing executes, nothing executes any more. -/
theorem reference_standstill (runs : List (List (List (List α))))
    (hR : ∀ l ∈ q, ∀ n ∈ l, ∀ p p' : Past α, SameCalls p p' → R n p' = R n p)
    (hT : ∀ p p' : Past α, SameCalls p p' → p'.before.length = p.before.length → T p' = T p) : ∀ N : Nat,
      (reference abs R T q N ⟨runs, [], [], []⟩).now = [] ∧
      ((∃ P ∈ (reference abs R T q N ⟨runs, [], [], []⟩).before, Idle P) →
        (∀ l ∈ q, choice R l (reference abs R T q N ⟨runs, [], [], []⟩) = []) ∧
        ((∀ p p' : Past α, SameCalls p p' → T p' = T p) →
          T (reference abs R T q N ⟨runs, [], [], []⟩) = false)) ∧
      ∀ B P C, (reference abs R T q N ⟨runs, [], [], []⟩).before = B ++ P :: C → Idle P →
        ∀ P' ∈ C, Idle P'
  | 0 => ⟨rfl, fun ⟨P, h, _⟩ => (by simp [reference] at h), fun B P C h => by simp [reference] at h⟩
  | N + 1 => by
    obtain ⟨h1, h2, h3⟩ := reference_standstill runs hR hT N
    rw [reference_succ]
    split
    · exact ⟨h1, h2, h3⟩
    · rename_i hstop
      revert h1 h2 h3 hstop
      generalize reference abs R T q N ⟨runs, [], [], []⟩ = p
      intro h1 h2 h3 hstop
      have hTp : T p = false := Bool.eq_false_iff.2 hstop
      have hf := passFrom_frame (abs := abs) (R := R) (T := T) q p
      obtain ⟨P0, e0, f0⟩ : ∃ P0, (closePass abs (passFrom abs R T q p)).before = p.before ++ [P0] ∧
          P0.flatten = (passFrom abs R T q p).now.flatten := by
        refine ⟨_, by unfold closePass; rw [hf.2.1], ?_⟩
        split
        · rename_i hn
          rw [hn.1]; rfl
        · rfl
      have old : (∃ P ∈ p.before, Idle P) → Idle P0 := fun hx => by
        have := passFrom_unable (abs := abs) (T := T) q hR p (h2 hx).1
        unfold Idle
        rw [f0, this, h1]; rfl
      have new : Idle P0 → SameCalls p (closePass abs (passFrom abs R T q p)) ∧
          ∀ l ∈ q, choice R l p = [] := fun hx => by
        refine ⟨⟨hf.1, ?_, ?_, hf.2.2.1⟩, unable_passFrom (abs := abs) (T := T) q hR p (fun p' k1 k2 => ?_) ?_⟩
        · have e1 : (closePass abs (passFrom abs R T q p)).now = [] := rfl
          unfold Idle at hx
          rw [Past.inRun, Past.inRun, e0, e1, h1]
          simp [hx]
        · rw [h1]; rfl
        · rw [hT p p' k1 (by rw [k2])]; exact hTp
        · rw [← f0]; exact hx
      have any : (∃ P ∈ p.before ++ [P0], Idle P) → Idle P0 := fun ⟨P, hP, hi⟩ => by
        rcases List.mem_append.1 hP with k | k
        · exact old ⟨P, k, hi⟩
        · rw [List.mem_singleton] at k
          exact k ▸ hi
      refine ⟨rfl, fun hx => ?_, ?_⟩
      · rw [e0] at hx
        obtain ⟨k1, k2⟩ := new (any hx)
        exact ⟨fun l hl => by rw [choice_same (hR l hl) k1]; exact k2 l hl,
          fun hT' => by rw [hT' _ _ k1]; exact hTp⟩
      · rw [e0]
        intro B P C e hP P' hP'
        obtain ⟨C', x, rfl⟩ : ∃ C' x, C = C' ++ [x] := by
          rcases List.eq_nil_or_concat C with rfl | ⟨C', x, rfl⟩
          · cases hP'
          · exact ⟨C', x, by simp⟩
        have e' : p.before ++ [P0] = (B ++ P :: C') ++ [x] := by rw [e]; simp
        obtain ⟨e1, e2⟩ := List.append_inj' e' rfl
        cases e2
        rcases List.mem_append.1 hP' with k | k
        · exact h3 B P C' e1 hP P' k
        · rw [List.mem_singleton] at k
          rw [k]
          exact old ⟨P, by rw [e1]; simp, hP⟩
end
end GS
