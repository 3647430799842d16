import Verif.EquivStart
/-!
# Lemmas: interchangeable conditions
-/

set_option linter.unusedSectionVars false

namespace GS
open Spec
variable {α κ W : Type _} [DecidableEq α] [DecidableEq κ]
variable {b b' : Store α κ} {c c' d d' : Cond α κ W} {cs ds : List (Cond α κ W)}

/-- Interchangeable as far as absolute time is not concerned. -/
def Alike2 (b b' : Store α κ) (c c' : Cond α κ W) : Prop :=
  ∀ v id st st', OwnersKept b st → OwnersKept b' st' → st'.sat = st.sat →
    (eval v id c' st').1 = (eval v id c st).1 ∧ (eval v id c' st').2.sat = (eval v id c st).2.sat

theorem alike_plain (h : Alike2 b b' c c') (h1 : c.isAbsolute = false) (h2 : c'.isAbsolute = false) :
    Interchangeable b b' c c' :=
  ⟨h, by rw [h1, h2], fun k => absurd k (by rw [h1]; simp), fun k => absurd k (by rw [h1]; simp)⟩

theorem Spec.Interchangeable.symm (h : Interchangeable b b' c c') : Interchangeable b' b c' c := by
  refine ⟨?_, h.absolute.symm, ?_, ?_⟩
  · intro v id st st' h1 h2 h3
    obtain ⟨k1, k2⟩ := h.same v id st' st h2 h1 h3.symm
    exact ⟨k1.symm, k2.symm⟩
  · intro k; exact (h.intervals (by rw [← h.absolute]; exact k)).symm
  · intro k; exact (h.points (by rw [← h.absolute]; exact k)).symm

theorem Spec.SameDurations.trans {l1 l2 l3 : List Qty} (h : SameDurations l1 l2)
    (k : SameDurations l2 l3) : SameDurations l1 l3 := fun x => (k x).trans (h x)

/-- Transitivity; the store in the middle is the first one. -/
theorem Spec.Interchangeable.trans {c1 c2 c3 : Cond α κ W} (h : Interchangeable b b c1 c2)
    (k : Interchangeable b b' c2 c3) : Interchangeable b b' c1 c3 := by
  refine ⟨?_, k.absolute.trans h.absolute, ?_, ?_⟩
  · intro v id st st' h1 h2 h3
    obtain ⟨a1, a2⟩ := h.same v id st st h1 h1 rfl
    obtain ⟨b1, b2⟩ := k.same v id st st' h1 h2 h3
    exact ⟨b1.trans a1, b2.trans a2⟩
  · intro x; exact (h.intervals x).trans (k.intervals (by rw [h.absolute]; exact x))
  · intro x; exact (h.points x).trans (k.points (by rw [h.absolute]; exact x))

theorem keptOf (v : View α κ W) (id : Option κ) (c : Cond α κ W) {st : Store α κ}
    (h : OwnersKept b st) : OwnersKept b (eval v id c st).2 :=
  h.trans (eval_store v id c st).ownersKept

theorem alike_all (h : Listwise (Alike2 b b') cs ds) : ∀ v id st st', OwnersKept b st →
    OwnersKept b' st' → st'.sat = st.sat →
    (evalAll v id ds st').1 = (evalAll v id cs st).1 ∧
      (evalAll v id ds st').2.sat = (evalAll v id cs st).2.sat := by
  induction h with
  | nil => intro v id st st' _ _ h3; exact ⟨rfl, h3⟩
  | @cons c c' l l' h _ ih =>
    intro v id st st' h1 h2 h3
    obtain ⟨k1, k2⟩ := h v id st st' h1 h2 h3
    have g1 := keptOf v id c h1
    have g2 := keptOf v id c' h2
    simp only [evalAll]
    rcases e : eval v id c st with ⟨r, t⟩
    rcases e' : eval v id c' st' with ⟨r', t'⟩
    rw [e, e'] at k1 k2
    rw [e] at g1; rw [e'] at g2
    dsimp only at k1 k2 g1 g2
    subst k1
    rcases r' with x | x
    · exact ⟨rfl, k2⟩
    · cases x
      · exact ⟨rfl, k2⟩
      · exact ih v id t t' g1 g2 k2

theorem alike_any (h : Listwise (Alike2 b b') cs ds) : ∀ v id st st', OwnersKept b st →
    OwnersKept b' st' → st'.sat = st.sat →
    (evalAny v id ds st').1 = (evalAny v id cs st).1 ∧
      (evalAny v id ds st').2.sat = (evalAny v id cs st).2.sat := by
  induction h with
  | nil => intro v id st st' _ _ h3; exact ⟨rfl, h3⟩
  | @cons c c' l l' h _ ih =>
    intro v id st st' h1 h2 h3
    obtain ⟨k1, k2⟩ := h v id st st' h1 h2 h3
    have g1 := keptOf v id c h1
    have g2 := keptOf v id c' h2
    simp only [evalAny]
    rcases e : eval v id c st with ⟨r, t⟩
    rcases e' : eval v id c' st' with ⟨r', t'⟩
    rw [e, e'] at k1 k2
    rw [e] at g1; rw [e'] at g2
    dsimp only at k1 k2 g1 g2
    subst k1
    rcases r' with x | x
    · exact ⟨rfl, k2⟩
    · cases x
      · exact ih v id t t' g1 g2 k2
      · exact ⟨rfl, k2⟩

theorem listwise_absolute (h : Listwise (Interchangeable b b') cs ds) :
    anyAbsolute ds = anyAbsolute cs ∧ SameDurations (intervalsOf cs) (intervalsOf ds) ∧
      SameDurations (fixedPointsOf cs) (fixedPointsOf ds) := by
  induction h with
  | nil => exact ⟨rfl, .refl _, .refl _⟩
  | @cons c c' l l' h _ ih =>
    obtain ⟨i1, i2, i3⟩ := ih
    simp only [anyAbsolute, intervalsOf, fixedPointsOf]
    rw [h.absolute, i1]
    refine ⟨rfl, SameDurations.append ?_ i2, SameDurations.append ?_ i3⟩
    · by_cases k : c.isAbsolute = true
      · rw [if_pos k, if_pos k]; exact h.intervals k
      · rw [if_neg k, if_neg k]; exact .refl _
    · by_cases k : c.isAbsolute = true
      · rw [if_pos k, if_pos k]; exact h.points k
      · rw [if_neg k, if_neg k]; exact .refl _

theorem congr_all (o o' : OId) (h : Listwise (Interchangeable b b') cs ds) :
    Interchangeable b b' (.all o cs) (.all o' ds) := by
  obtain ⟨h1, h2, h3⟩ := listwise_absolute h
  exact ⟨alike_all (h.imp fun _ _ k => k.same), h1, fun _ => h2, fun _ => h3⟩

theorem congr_any (o o' : OId) (h : Listwise (Interchangeable b b') cs ds) :
    Interchangeable b b' (.any o cs) (.any o' ds) := by
  obtain ⟨h1, h2, h3⟩ := listwise_absolute h
  exact ⟨alike_any (h.imp fun _ _ k => k.same), h1, fun _ => h2, fun _ => h3⟩

theorem congr_not (o o' : OId) (h : Alike2 b b' c c') :
    Interchangeable b b' (.not o c) (.not o' c') := by
  refine alike_plain ?_ rfl rfl
  intro v id st st' h1 h2 h3
  obtain ⟨k1, k2⟩ := h v id st st' h1 h2 h3
  exact ⟨congrArg notResult k1, k2⟩

theorem congr_nwhen (o : OId) (n : Int) (h : Alike2 b b' c c') :
    Interchangeable b b' (.nwhen o c n) (.nwhen o c' n) := by
  refine alike_plain ?_ rfl rfl
  intro v id st st' h1 h2 h3
  obtain ⟨k1, k2⟩ := h v id st st' h1 h2 h3
  simp only [eval]
  rw [h3]
  split
  · rcases e : eval v id c st with ⟨r, t⟩
    rcases e' : eval v id c' st' with ⟨r', t'⟩
    rw [e, e'] at k1 k2
    dsimp only at k1 k2
    subst k1
    rcases r' with x | x
    · exact ⟨rfl, k2⟩
    · cases x
      · exact ⟨rfl, k2⟩
      · refine ⟨rfl, ?_⟩
        show (t'.bumpSat o id).sat = (t.bumpSat o id).sat
        simp only [Store.bumpSat, k2]
  · exact ⟨rfl, h3⟩

/-- Two conditions without components whose results do not depend on the owner. -/
theorem leaves_alike {k k' : Leaf α κ W} (o o' : OId)
    (h : ∀ v id own own', evalLeaf v id own' k' = evalLeaf v id own k)
    (h1 : k.isAbsolute = false) (h2 : k'.isAbsolute = false) :
    Interchangeable b b' (.leaf o k) (.leaf o' k') :=
  alike_plain (fun v id _ _ _ _ h3 => ⟨h v id _ _, h3⟩) h1 h2

/-- The same with `Not`. -/
theorem leaves_not {k k' : Leaf α κ W} (o o' o2 : OId)
    (h : ∀ v id own own', evalLeaf v id own' k' = notResult (evalLeaf v id own k))
    (h2 : k'.isAbsolute = false) :
    Interchangeable b b' (.not o2 (.leaf o k)) (.leaf o' k') :=
  alike_plain (fun v id _ _ _ _ h3 => ⟨h v id _ _, h3⟩) rfl h2

theorem all_single (o : OId) (h : Interchangeable b b' c c') :
    Interchangeable b b' c (.all o [c']) := by
  refine ⟨?_, ?_, ?_, ?_⟩
  · intro v id st st' h1 h2 h3
    obtain ⟨k1, k2⟩ := h.same v id st st' h1 h2 h3
    simp only [eval, evalAll]
    rcases e : eval v id c' st' with ⟨r', t'⟩
    rw [e] at k1 k2
    dsimp only at k1 k2
    rcases r' with x | x
    · exact ⟨k1, k2⟩
    · cases x <;> exact ⟨k1, k2⟩
  · simp only [Cond.isAbsolute, anyAbsolute, Bool.or_false]; exact h.absolute
  · intro k
    simp only [Cond.intervals, intervalsOf, h.absolute, k, if_true, List.append_nil]
    exact h.intervals k
  · intro k
    simp only [Cond.fixedPoints, fixedPointsOf, h.absolute, k, if_true, List.append_nil]
    exact h.points k

theorem any_single (o : OId) (h : Interchangeable b b' c c') :
    Interchangeable b b' c (.any o [c']) := by
  refine ⟨?_, ?_, ?_, ?_⟩
  · intro v id st st' h1 h2 h3
    obtain ⟨k1, k2⟩ := h.same v id st st' h1 h2 h3
    simp only [eval, evalAny]
    rcases e : eval v id c' st' with ⟨r', t'⟩
    rw [e] at k1 k2
    dsimp only at k1 k2
    rcases r' with x | x
    · exact ⟨k1, k2⟩
    · cases x <;> exact ⟨k1, k2⟩
  · simp only [Cond.isAbsolute, anyAbsolute, Bool.or_false]; exact h.absolute
  · intro k
    simp only [Cond.intervals, intervalsOf, h.absolute, k, if_true, List.append_nil]
    exact h.intervals k
  · intro k
    simp only [Cond.fixedPoints, fixedPointsOf, h.absolute, k, if_true, List.append_nil]
    exact h.points k

theorem notResult_notResult (r : Except Err Bool) : notResult (notResult r) = r := by
  cases r <;> simp [notResult]

theorem not_not_alike (o1 o2 : OId) (h : Alike2 b b' c c') (hc : c.isAbsolute = false) :
    Interchangeable b b' c (.not o1 (.not o2 c')) := by
  refine alike_plain ?_ hc rfl
  intro v id st st' h1 h2 h3
  obtain ⟨k1, k2⟩ := h v id st st' h1 h2 h3
  refine ⟨?_, k2⟩
  show notResult (notResult (eval v id c' st').1) = _
  rw [notResult_notResult]; exact k1

/-- `ds` are the negations of conditions that can replace those in `cs`. -/
abbrev Negations (b b' : Store α κ) (cs ds : List (Cond α κ W)) : Prop :=
  Listwise (fun c d => ∃ o c', d = .not o c' ∧ Alike2 b b' c c') cs ds

theorem negations_absolute (h : Negations b b' cs ds) : anyAbsolute ds = false := by
  induction h with
  | nil => rfl
  | cons h _ ih => obtain ⟨o, c', rfl, _⟩ := h; simpa [anyAbsolute, Cond.isAbsolute] using ih

theorem deMorgan_all (h : Negations b b' cs ds) : ∀ v id st st', OwnersKept b st →
    OwnersKept b' st' → st'.sat = st.sat →
    (evalAny v id ds st').1 = notResult (evalAll v id cs st).1 ∧
      (evalAny v id ds st').2.sat = (evalAll v id cs st).2.sat := by
  induction h with
  | nil => intro v id st st' _ _ h3; exact ⟨rfl, h3⟩
  | @cons c d l l' h _ ih =>
    intro v id st st' h1 h2 h3
    obtain ⟨o, c', rfl, h⟩ := h
    obtain ⟨k1, k2⟩ := h v id st st' h1 h2 h3
    have g1 := keptOf v id c h1
    have g2 := keptOf v id c' h2
    simp only [evalAll, evalAny, eval]
    rcases e : eval v id c st with ⟨r, t⟩
    rcases e' : eval v id c' st' with ⟨r', t'⟩
    rw [e, e'] at k1 k2
    rw [e] at g1; rw [e'] at g2
    dsimp only at k1 k2 g1 g2
    subst k1
    rcases r' with x | x
    · exact ⟨rfl, k2⟩
    · cases x
      · exact ⟨rfl, k2⟩
      · exact ih v id t t' g1 g2 k2

theorem deMorgan_any (h : Negations b b' cs ds) : ∀ v id st st', OwnersKept b st →
    OwnersKept b' st' → st'.sat = st.sat →
    (evalAll v id ds st').1 = notResult (evalAny v id cs st).1 ∧
      (evalAll v id ds st').2.sat = (evalAny v id cs st).2.sat := by
  induction h with
  | nil => intro v id st st' _ _ h3; exact ⟨rfl, h3⟩
  | @cons c d l l' h _ ih =>
    intro v id st st' h1 h2 h3
    obtain ⟨o, c', rfl, h⟩ := h
    obtain ⟨k1, k2⟩ := h v id st st' h1 h2 h3
    have g1 := keptOf v id c h1
    have g2 := keptOf v id c' h2
    simp only [evalAll, evalAny, eval]
    rcases e : eval v id c st with ⟨r, t⟩
    rcases e' : eval v id c' st' with ⟨r', t'⟩
    rw [e, e'] at k1 k2
    rw [e] at g1; rw [e'] at g2
    dsimp only at k1 k2 g1 g2
    subst k1
    rcases r' with x | x
    · exact ⟨rfl, k2⟩
    · cases x
      · exact ih v id t t' g1 g2 k2
      · exact ⟨rfl, k2⟩

end GS
