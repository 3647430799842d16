import Verif.ReferenceSim
import Verif.Objects
/-!
# `NWhen` and the reference scheduler: what changes the number of satisfactions
-/

set_option linter.unusedSectionVars false

namespace GS
open Spec TimeScale
variable {α κ W : Type _} [DecidableEq α] [DecidableEq κ]
variable {a : RunArgs α κ W} {s s' : Sys α κ W} {abs : Bool} {pc pc' : PC α}
variable {ev : Option (Event α)}

mutual
/-- Evaluation changes the number of satisfactions of those `NWhen` only that occur. -/
theorem eval_sat (v : View α κ W) (id : Option κ) {o : OId} :
    ∀ (c : Cond α κ W) (st : Store α κ), o ∉ nwhens c → (eval v id c st).2.sat o = st.sat o
  | .leaf _ _, _, _ => rfl
  | .whileNot _ _, _, _ => rfl
  | .all _ cs, st, h => evalAll_sat v id cs st h
  | .any _ cs, st, h => evalAny_sat v id cs st h
  | .not _ c, st, h => by
    simp only [eval]
    exact eval_sat v id c st h
  | .nwhen o' c n, st, h => by
    simp only [nwhens, List.mem_cons, not_or] at h
    simp only [eval]
    split
    · have ih := eval_sat v id c st h.2
      rcases e : eval v id c st with ⟨r, st'⟩
      rw [e] at ih
      rcases r with x | b
      · exact ih
      · cases b
        · exact ih
        · simp only [nwhenResult]
          rw [← ih]
          funext i
          simp [Store.bumpSat, h.1]
    · rfl
theorem evalAll_sat (v : View α κ W) (id : Option κ) {o : OId} :
    ∀ (cs : List (Cond α κ W)) (st : Store α κ), o ∉ nwhensOf cs →
      (evalAll v id cs st).2.sat o = st.sat o
  | [], _, _ => rfl
  | c :: cs, st, h => by
    simp only [nwhensOf, List.mem_append, not_or] at h
    have ih := eval_sat v id c st h.1
    simp only [evalAll]
    rcases e : eval v id c st with ⟨r, st'⟩
    rw [e] at ih
    rcases r with x | b
    · exact ih
    · cases b
      · exact ih
      · exact (evalAll_sat v id cs st' h.2).trans ih
theorem evalAny_sat (v : View α κ W) (id : Option κ) {o : OId} :
    ∀ (cs : List (Cond α κ W)) (st : Store α κ), o ∉ nwhensOf cs →
      (evalAny v id cs st).2.sat o = st.sat o
  | [], _, _ => rfl
  | c :: cs, st, h => by
    simp only [nwhensOf, List.mem_append, not_or] at h
    have ih := eval_sat v id c st h.1
    simp only [evalAny]
    rcases e : eval v id c st with ⟨r, st'⟩
    rw [e] at ih
    rcases r with x | b
    · exact ih
    · cases b
      · exact (evalAny_sat v id cs st' h.2).trans ih
      · exact ih
end

theorem Spec.Described.no_nwhens {st : Store α κ} {own : Option α} {c : Cond α κ W}
    (hd : Described st own c) : nwhens c = [] := by
  have key : ∀ cs : List (Cond α κ W), (∀ c ∈ cs, nwhens c = []) → nwhensOf cs = [] := by
    intro cs
    induction cs with
    | nil => intro _; rfl
    | cons c cs ih =>
      intro h
      simp only [nwhensOf]
      rw [h c (by simp), ih fun c' hc' => h c' (by simp [hc'])]; rfl
  induction hd with
  | leaf _ _ => rfl
  | whileNot _ => rfl
  | all _ ih => exact key _ ih
  | any _ ih => exact key _ ih
  | not _ ih => exact ih

theorem Spec.Evaluated.keepsSat {P : Cond α κ W → Prop} {st st' : Store α κ} {o : OId}
    (h : Evaluated P st st') (hP : ∀ c, P c → o ∉ nwhens c) : st'.sat o = st.sat o := by
  induction h with
  | refl => rfl
  | eval v id c _ hp ih => exact (eval_sat v id c _ (hP c hp)).trans ih

/-- Outside of the choice of a set, only termination conditions are evaluated. -/
theorem Sys.step_sat (h : s.step a abs pc = (s', pc', ev)) {o : OId} (h1 : o ∉ nwhens a.esu)
    (h2 : o ∉ nwhens a.seq) (hpc : ∀ c, pc ≠ .choosing c) : s'.store.sat o = s.store.sat o := by
  have cont : ∀ {t r}, s.continues a = (t, r) → t.store.sat o = s.store.sat o := by
    intro t r hc
    have e1 := eval_sat s.toView a.id a.esu s.store h1
    unfold Sys.continues Sys.evalCond at hc
    rcases g1 : eval s.toView a.id a.esu s.store with ⟨r1, st1⟩
    rw [g1] at hc e1
    rcases r1 with x | b
    · cases hc; exact e1
    · cases b
      · dsimp only at hc
        have e2 := eval_sat s.toView a.id a.seq st1 h2
        rcases g2 : eval s.toView a.id a.seq st1 with ⟨r2, st2⟩
        rw [g2] at hc e2
        rcases r2 with x | b
        · cases hc; exact e2.trans e1
        · cases hc; exact e2.trans e1
      · cases hc; exact e1
  cases pc with
  | outer =>
    simp only [Sys.step] at h
    rcases e1 : s.continues a with ⟨s1, e | b⟩ <;> rw [e1] at h
    · cases h; exact cont e1
    · have k1 := cont e1
      cases b
      · dsimp only at h
        unfold Sys.finish at h
        split at h
        · cases h; exact k1
        · rename_i t ht
          have hts : t.store = s1.store := by
            split at ht
            · cases ht; rfl
            · exact (Sys.incrClock_store ht).1
          have k2 := eval_sat t.toView a.id a.seq t.store h2
          unfold Sys.evalCond at h
          rcases g2 : eval t.toView a.id a.seq t.store with ⟨r2, st2⟩
          rw [g2] at h k2
          rw [hts] at k2
          rcases r2 with x | b <;> (cases h; exact k2.trans k1)
      · dsimp only at h
        split at h
        · cases h; exact k1
        · rename_i hr
          cases h
          rw [(Sys.resetTotal_store hr).1]; exact k1
  | inner idx changed =>
    simp only [Sys.step] at h
    split at h
    · rw [(Sys.endPass_store h).1]
    · rcases e1 : s.continues a with ⟨s1, e | b⟩ <;> rw [e1] at h
      · cases h; exact cont e1
      · cases b
        · rw [(Sys.endPass_store h).1]; exact cont e1
        · cases h; exact cont e1
  | choosing c => exact absurd rfl (hpc c)
  | yielded idx changed =>
    simp only [Sys.step] at h
    split at h
    · cases h; rfl
    · rename_i hi; cases h; rw [(Sys.incrClock_store hi).1]
  | yieldedEmpty =>
    simp only [Sys.step] at h
    split at h
    · cases h; rfl
    · rename_i hi
      split at h
      · cases h; rw [(Sys.incrClock_store hi).1]
      · rename_i hj
        cases h; rw [(Sys.incrClock_store hj).1, (Sys.incrClock_store hi).1]
  | returned => cases h; rfl
  | raised e => cases h; rfl

end GS
