import Verif.RunCounts
/-!
# Invariants of runs: the choice of a set is a fixpoint, and ends
-/

set_option linter.unusedSectionVars false

namespace GS
open Spec
variable {α κ W β : Type _} [DecidableEq α] [DecidableEq κ]
variable {E : Sys α κ W → Sys α κ W → Prop} {a : RunArgs α κ W} {s0 s : Sys α κ W}
variable {abs : Bool} {h : History α κ W} {pc : PC α}

/-! ## Conditions without counters of their own -/

mutual
/-- No `NWhen` in the condition. -/
def Spec.Stateless : Cond α κ W → Prop
  | .leaf _ _ => True
  | .whileNot _ _ => True
  | .all _ args => StatelessAll args
  | .any _ args => StatelessAll args
  | .not _ c => Stateless c
  | .nwhen _ _ _ => False
/-- No `NWhen` in the components. -/
def Spec.StatelessAll : List (Cond α κ W) → Prop
  | [] => True
  | c :: cs => Stateless c ∧ StatelessAll cs
end

mutual
theorem eval_stateless (v : View α κ W) (id : Option κ) : ∀ (c : Cond α κ W) (st : Store α κ),
    Stateless c → (eval v id c st).2 = st ∧
      ∀ st', st'.owner = st.owner → (eval v id c st').1 = (eval v id c st).1
  | .leaf o k, st, _ => ⟨rfl, fun st' h => by simp [eval, h]⟩
  | .whileNot o f, st, _ => ⟨rfl, fun st' h => by simp [eval, h]⟩
  | .all o args, st, hs => evalAll_stateless v id args st hs
  | .any o args, st, hs => evalAny_stateless v id args st hs
  | .not o c, st, hs => by
    obtain ⟨h1, h2⟩ := eval_stateless v id c st hs
    exact ⟨h1, fun st' h => by simp [eval, h2 st' h]⟩
  | .nwhen o c n, st, hs => absurd hs (by simp [Stateless])
theorem evalAll_stateless (v : View α κ W) (id : Option κ) :
    ∀ (cs : List (Cond α κ W)) (st : Store α κ),
    StatelessAll cs → (evalAll v id cs st).2 = st ∧
      ∀ st', st'.owner = st.owner → (evalAll v id cs st').1 = (evalAll v id cs st).1
  | [], st, _ => ⟨rfl, fun st' h => rfl⟩
  | c :: cs, st, hs => by
    obtain ⟨h1, h2⟩ := eval_stateless v id c st hs.1
    obtain ⟨k1, k2⟩ := evalAll_stateless v id cs st hs.2
    rcases hc : eval v id c st with ⟨r, st1⟩
    rw [hc] at h1 h2
    simp only at h1 h2
    subst h1
    constructor
    · simp only [evalAll, hc]
      rcases r with e | b
      · rfl
      · cases b
        · rfl
        · exact k1
    · intro st' h
      have g1 := h2 st' h
      obtain ⟨g2, _⟩ := eval_stateless v id c st' hs.1
      rcases hc' : eval v id c st' with ⟨r', st2⟩
      rw [hc'] at g1 g2
      simp only at g1 g2
      subst g1 g2
      simp only [evalAll, hc, hc']
      rcases r' with e | b
      · rfl
      · cases b
        · rfl
        · exact k2 _ h
theorem evalAny_stateless (v : View α κ W) (id : Option κ) :
    ∀ (cs : List (Cond α κ W)) (st : Store α κ),
    StatelessAll cs → (evalAny v id cs st).2 = st ∧
      ∀ st', st'.owner = st.owner → (evalAny v id cs st').1 = (evalAny v id cs st).1
  | [], st, _ => ⟨rfl, fun st' h => rfl⟩
  | c :: cs, st, hs => by
    obtain ⟨h1, h2⟩ := eval_stateless v id c st hs.1
    obtain ⟨k1, k2⟩ := evalAny_stateless v id cs st hs.2
    rcases hc : eval v id c st with ⟨r, st1⟩
    rw [hc] at h1 h2
    simp only at h1 h2
    subst h1
    constructor
    · simp only [evalAny, hc]
      rcases r with e | b
      · rfl
      · cases b
        · exact k1
        · rfl
    · intro st' h
      have g1 := h2 st' h
      obtain ⟨g2, _⟩ := eval_stateless v id c st' hs.1
      rcases hc' : eval v id c st' with ⟨r', st2⟩
      rw [hc'] at g1 g2
      simp only at g1 g2
      subst g1 g2
      simp only [evalAny, hc, hc']
      rcases r' with e | b
      · rfl
      · cases b
        · exact k2 _ h
        · rfl
end

/-! ## Fixpoint -/

/-- `n` was found unsatisfied in the view of `s`, with an earlier state of the condition
objects. -/
def Refused (s : Sys α κ W) (id : Option κ) (n : α) : Prop :=
  ∃ cond st, Dict.get? s.conds n = some cond ∧ StoreStep id st s.store ∧
    (eval s.toView id cond st).1 = .ok false

theorem Refused.stateless {s : Sys α κ W} {id : Option κ} {n : α} (h : Refused s id n)
    {c} (hc : Dict.get? s.conds n = some c) (hs : Stateless c) : NodeCond s id n false := by
  obtain ⟨cond, st, h1, h2, h3⟩ := h
  rw [hc] at h1; injection h1 with h1; subst h1
  refine ⟨c, hc, ?_⟩
  unfold Evaluates
  rw [(eval_stateless s.toView id c st hs).2 _ h2.owner, h3]

theorem Reach.fix (hr : Reach E a s0 abs h s pc) :
    ∀ c, pc = .choosing c → c.again = false → ∀ d, c.layer = d ++ c.todo →
      ∀ n ∈ d, n ∈ c.exec ∨ Refused s a.id n := by
  refine hr.ind (P := fun h s pc => ∀ c, pc = .choosing c → c.again = false → ∀ d,
    c.layer = d ++ c.todo → ∀ n ∈ d, n ∈ c.exec ∨ Refused s a.id n) ?_ ?_ ?_
  · intro s _ c hc; cases hc
  · intro h s s' pc pc' ev _ ih hst c' hc' hag d hd n hn
    cases hst with
    | consider hq' =>
      cases hc'
      have : d = [] := by
        have := congrArg List.length hd
        simp at this
        exact this
      subst this; simp at hn
    | again =>
      cases hc'
      have : d = [] := by
        have := congrArg List.length hd
        simp at this
        exact this
      subst this; simp at hn
    | @skip c m ns ht hm =>
      cases hc'
      simp only at hd hag ⊢
      -- the processed part grew by `m`
      rcases List.eq_nil_or_concat d with rfl | ⟨d', x, rfl⟩
      · simp at hn
      · rw [List.concat_eq_append] at hd hn
        by_cases hx : c.layer = d' ++ c.todo
        · have : x = m := by
            rw [ht] at hx
            rw [hx] at hd
            simp at hd; exact hd.symm
          subst this
          rcases List.mem_append.1 hn with hn | hn
          · exact ih c rfl hag d' hx n hn
          · simp at hn; subst hn; exact .inl hm
        · exfalso
          apply hx
          obtain ⟨d2, hd2⟩ := (Reach.choice ‹Reach E a s0 abs h s _› c rfl).todo
          have hlen := congrArg List.length hd
          have hlen2 := congrArg List.length hd2
          rw [ht] at hlen2
          simp at hlen hlen2
          have hdd : d2.length = d'.length := by omega
          have h3 : d2 ++ m :: ns = d' ++ x :: ns := by
            rw [← ht, ← hd2, hd]; simp
          obtain ⟨e1, e2⟩ := List.append_inj h3 hdd
          rw [hd2, e1]
    | @reject c m ns cond st ht hm hcond he =>
      cases hc'
      simp only at hd hag ⊢
      have hfr : StoreStep a.id s.store st := eval_store' he
      rcases List.eq_nil_or_concat d with rfl | ⟨d', x, rfl⟩
      · simp at hn
      · rw [List.concat_eq_append] at hd hn
        obtain ⟨d2, hd2⟩ := (Reach.choice ‹Reach E a s0 abs h s _› c rfl).todo
        have hlen := congrArg List.length hd
        have hlen2 := congrArg List.length hd2
        rw [ht] at hlen2
        simp at hlen hlen2
        have hdd : d2.length = d'.length := by omega
        have h3 : d2 ++ m :: ns = d' ++ x :: ns := by
          rw [← ht, ← hd2, hd]; simp
        obtain ⟨e1, e2⟩ := List.append_inj h3 hdd
        simp at e2
        subst e1 e2
        rcases List.mem_append.1 hn with hn | hn
        · rcases ih c rfl hag d2 hd2 n hn with h1 | ⟨cond', st', h1, h2, h3⟩
          · exact .inl h1
          · exact .inr ⟨cond', st', h1, h2.trans hfr, h3⟩
        · simp at hn; subst hn
          exact .inr ⟨cond, s.store, hcond, hfr, by
            show (eval s.toView a.id cond s.store).1 = _
            rw [he]⟩
    | add => cases hc'; simp at hag
    | _ => cases hc'
  · intro h s s' pc _ ih hp _ c hc
    subst hc; simp [PC.suspended] at hp

/-! ## Termination of `next()` -/

/-- A bound for the remaining steps of a choice. -/
def choiceCost (c : Choice α) : Nat :=
  (c.layer.length - c.exec.length) * (c.layer.length + 2) +
    (if c.again then c.layer.length + 1 else 0) + c.todo.length

/-- A bound for the cost of choosing from a layer. -/
def layerCost (l : List α) : Nat := l.length * (l.length + 2) + l.length

/-- A bound for the cost of choosing from any layer. -/
def maxCost (q : List (List α)) : Nat := (q.map layerCost).foldr max 0

theorem layerCost_le {q : List (List α)} {l : List α} (hl : l ∈ q) : layerCost l ≤ maxCost q := by
  unfold maxCost
  induction q with
  | nil => simp at hl
  | cons x q ih =>
    simp only [List.map_cons, List.foldr_cons]
    rcases List.mem_cons.1 hl with rfl | hl
    · exact Nat.le_max_left _ _
    · exact Nat.le_trans (ih hl) (Nat.le_max_right _ _)

end GS
