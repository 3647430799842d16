import Verif.Spec.Quota
import Verif.Objects
/-!
# The counter of an `NWhen` object and the executions of its node
-/

set_option linter.unusedSectionVars false

namespace GS
open Spec
variable {α κ W β : Type _} [DecidableEq α] [DecidableEq κ]
variable {U : Sys α κ W → Sys α κ W → Prop} {a : RunArgs α κ W} {s0 s s' : Sys α κ W}
variable {abs : Bool} {pc pc' : PC α} {ev : Option (Event α)}
variable {log : List (Option κ × Entry α κ W)} {gs : List (Gen α κ W)}
variable {o : Nat} {c : Cond α κ W} {n : Int} {b : α}

mutual
theorem Spec.Without.eval (v : View α κ W) (id : Option κ) : ∀ (d : Cond α κ W) (st : Store α κ),
    Without o d → ∀ i, (GS.eval v id d st).2.sat o i = st.sat o i
  | .leaf x k, st, _ => fun _ => rfl
  | .whileNot x f, st, _ => fun _ => rfl
  | .all x args, st, hu => Spec.Without.evalAll v id args st hu.2
  | .any x args, st, hu => Spec.Without.evalAny v id args st hu.2
  | .not x c, st, hu => Spec.Without.eval v id c st hu.2
  | .nwhen x c n, st, hu => by
    intro i
    simp only [GS.eval]
    split
    · have := Spec.Without.eval v id c st hu.2 i
      generalize GS.eval v id c st = p at this ⊢
      obtain ⟨r, st1⟩ := p
      rcases r with e | b
      · exact this
      · cases b
        · exact this
        · show (if o = x ∧ i = id then st1.sat o i + 1 else st1.sat o i) = st.sat o i
          rw [if_neg (fun e => hu.1 e.1.symm)]; exact this
    · rfl
theorem Spec.Without.evalAll (v : View α κ W) (id : Option κ) : ∀ (cs : List (Cond α κ W))
    (st : Store α κ), WithoutAll o cs → ∀ i, (GS.evalAll v id cs st).2.sat o i = st.sat o i
  | [], st, _ => fun _ => rfl
  | c :: cs, st, hu => by
    intro i
    have k := Spec.Without.eval v id c st hu.1 i
    simp only [GS.evalAll]
    generalize GS.eval v id c st = p at k ⊢
    obtain ⟨r, st1⟩ := p
    rcases r with e | b
    · exact k
    · cases b
      · exact k
      · exact (Spec.Without.evalAll v id cs st1 hu.2 i).trans k
theorem Spec.Without.evalAny (v : View α κ W) (id : Option κ) : ∀ (cs : List (Cond α κ W))
    (st : Store α κ), WithoutAll o cs → ∀ i, (GS.evalAny v id cs st).2.sat o i = st.sat o i
  | [], st, _ => fun _ => rfl
  | c :: cs, st, hu => by
    intro i
    have k := Spec.Without.eval v id c st hu.1 i
    simp only [GS.evalAny]
    generalize GS.eval v id c st = p at k ⊢
    obtain ⟨r, st1⟩ := p
    rcases r with e | b
    · exact k
    · cases b
      · exact (Spec.Without.evalAny v id cs st1 hu.2 i).trans k
      · exact k
end

/-- What an evaluation of the `NWhen` object itself does to its counter. -/
theorem nwhen_sat (v : View α κ W) (id : Option κ) (hc : Without o c) (st : Store α κ) :
    ∀ i, (eval v id (.nwhen o c n) st).2.sat o i =
      st.sat o i + if i = id ∧ (eval v id (.nwhen o c n) st).1 = .ok true then 1 else 0 := by
  intro i
  simp only [eval]
  split
  · have k := Spec.Without.eval v id c st hc i
    generalize eval v id c st = p at k ⊢
    obtain ⟨r, st1⟩ := p
    rcases r with e | b
    · simpa [nwhenResult] using k
    · cases b
      · simpa [nwhenResult] using k
      · show (if o = o ∧ i = id then st1.sat o i + 1 else st1.sat o i) = _
        dsimp only at k
        by_cases hi : i = id <;> simp [nwhenResult, hi] <;> (try subst hi) <;> omega
  · simp

/-- It is satisfied only while its quota is not used up, and counts. -/
theorem nwhen_true {v : View α κ W} {id : Option κ} {st st' : Store α κ}
    (h : eval v id (.nwhen o c n) st = (.ok true, st')) :
    (st.sat o id : Int) < n ∧ st.sat o id + 1 ≤ st'.sat o id := by
  simp only [eval] at h
  split at h
  · rename_i hlt
    refine ⟨hlt, ?_⟩
    have k := (eval_store v id c st).grow o id
    generalize eval v id c st = p at k h
    obtain ⟨r, st1⟩ := p
    rcases r with e | b
    · cases h
    · cases b
      · cases h
      · obtain ⟨_, rfl⟩ := Prod.mk.inj h
        show st.sat o id + 1 ≤ if o = o ∧ id = id then st1.sat o id + 1 else st1.sat o id
        rw [if_pos ⟨rfl, rfl⟩]
        dsimp only at k
        omega
  · cases h

/-! ## The beginning of a run -/

theorem validateConditions_sat : ∀ (ns : List α) (s : Sys α κ W), o < s.store.fresh →
    o < (Sys.validateConditions ns s).1.store.fresh ∧
      ∀ i, (Sys.validateConditions ns s).1.store.sat o i = s.store.sat o i
  | [], s, h => ⟨h, fun _ => rfl⟩
  | n :: ns, s, h => by
    unfold Sys.validateConditions
    split
    · exact validateConditions_sat ns s h
    · split
      · exact ⟨h, fun _ => rfl⟩
      · rename_i deps _
        obtain ⟨_, d2, d3⟩ := addDefault s n deps
        obtain ⟨k1, k2⟩ := validateConditions_sat ns
          ((s.alloc (deps.length + 1)).addBasic n (Sys.defaultCond s.store.fresh deps))
          (by rw [d2]; omega)
        exact ⟨k1, fun i => (k2 i).trans ((d3 o h).2 i)⟩

theorem start_quota {r} (hs : s.start a = (s', r)) (ho : o < s.store.fresh) :
    o < s'.store.fresh ∧ (∀ i, s'.store.sat o i = s.store.sat o i) ∧
      ∀ m d, Dict.get? s.conds m = some d → Dict.get? s'.conds m = some d := by
  obtain ⟨h1, h2⟩ := Sys.start_store hs
  rw [h1, h2]
  unfold Sys.validateRunState
  split
  · exact ⟨ho, fun _ => rfl, fun _ _ h => h⟩
  · obtain ⟨k1, k2⟩ := validateConditions_sat s.nodes s ho
    exact ⟨k1, k2, fun m d hd => Sys.validateConditions_mono _ _ _ _ hd⟩

theorem withoutAll_leaves : ∀ (ds : List α) (k : Nat), o < k →
    WithoutAll o (defaultLeaves k ds : List (Cond α κ W))
  | [], _, _ => trivial
  | _ :: ds, k, h => ⟨fun e => by omega, withoutAll_leaves ds (k + 1) (by omega)⟩

theorem without_default (k : Nat) (h : o < k) (deps : List α) :
    Without o (Sys.defaultCond k deps : Cond α κ W) := by
  match deps with
  | [] => exact fun e => by omega
  | [d] => exact fun e => by omega
  | d :: d' :: ds =>
    have e : (Sys.defaultCond k (d :: d' :: ds) : Cond α κ W) =
        .all k (defaultLeaves (k + 1) (d :: d' :: ds)) := by
      simp only [Sys.defaultCond]; rw [defaultLeaves_eq]
    rw [e]
    exact ⟨fun e => by omega, withoutAll_leaves _ _ (by omega)⟩

theorem validateConditions_onlyFor : ∀ (ns : List α) (s : Sys α κ W), OnlyFor b o c n s →
    OnlyFor b o c n (Sys.validateConditions ns s).1
  | [], s, h => h
  | m :: ns, s, h => by
    unfold Sys.validateConditions
    split
    · exact validateConditions_onlyFor ns s h
    · rename_i hm
      split
      · exact h
      · rename_i deps _
        obtain ⟨_, d2, d3⟩ := addDefault s m deps
        have hmb : m ≠ b := by
          rintro rfl
          rw [h.cond] at hm
          cases hm
        refine validateConditions_onlyFor ns _
          ⟨by rw [d2]; have := h.made; omega, ?_, h.inner, fun x d hx hd => ?_⟩
        · show Dict.get? (Dict.set s.conds m _) b = _
          rw [Dict.get?_set_ne (Ne.symm hmb)]
          exact h.cond
        · have hd : Dict.get? (Dict.set s.conds m _) x = some d := hd
          rw [Dict.get?_set] at hd
          split at hd
          · cases hd; exact without_default _ h.made deps
          · exact h.others x d hx hd

theorem Spec.OnlyFor.start {r} (h : OnlyFor b o c n s) (hs : s.start a = (s', r)) :
    OnlyFor b o c n s' := by
  obtain ⟨h1, h2⟩ := Sys.start_store hs
  have k : OnlyFor b o c n s.validateRunState.1 := by
    unfold Sys.validateRunState
    split
    · exact h
    · exact validateConditions_onlyFor _ s h
  exact ⟨by rw [h1]; exact k.made, by rw [h2]; exact k.cond, k.inner, by rw [h2]; exact k.others⟩

/-! ## Steps -/

theorem Spec.Evaluated.without {P : Cond α κ W → Prop} {st st' : Store α κ}
    (h : Evaluated P st st') (hp : ∀ d, P d → Without o d) (i : Option κ) :
    st'.sat o i = st.sat o i := by
  induction h with
  | refl => rfl
  | eval v id d _ hd ih => exact (Spec.Without.eval v id d _ (hp d hd) i).trans ih

/-- The termination conditions of the run. -/
def Terms (a : RunArgs α κ W) (d : Cond α κ W) : Prop := d = a.esu ∨ d = a.seq

theorem continues_terms {r} (h : s.continues a = (s', r)) :
    Evaluated (Terms a) s.store s'.store := by
  have h1 : ∀ (t : Sys α κ W) c, Terms a c →
      Evaluated (Terms a) t.store (t.evalCond a.id c).1.store := fun t c hc => .one _ _ hc
  unfold Sys.continues at h
  rcases e1 : s.evalCond a.id a.esu with ⟨s1, e | b⟩
  · rw [e1] at h; cases h
    have := h1 s a.esu (.inl rfl); rwa [e1] at this
  · have k1 := h1 s a.esu (.inl rfl)
    rw [e1] at h k1
    cases b
    · dsimp only at h
      have k2 := h1 s1 a.seq (.inr rfl)
      rcases e2 : s1.evalCond a.id a.seq with ⟨s2, e | b⟩ <;> rw [e2] at h k2 <;> cases h <;>
        exact k1.trans k2
    · cases h; exact k1

/-- Outside the choice of a set only the termination conditions are evaluated. -/
theorem step_terms (h : s.step a abs pc = (s', pc', ev)) (hpc : ∀ ch, pc ≠ .choosing ch) :
    Evaluated (Terms a) s.store s'.store := by
  cases pc with
  | outer =>
    simp only [Sys.step] at h
    rcases e1 : s.continues a with ⟨s1, e | b⟩ <;> rw [e1] at h
    · cases h; exact continues_terms e1
    · have k1 := continues_terms e1
      cases b
      · dsimp only at h
        unfold Sys.finish at h
        have key : ∀ t : Sys α κ W, t.store = s1.store →
            Evaluated (Terms a) s.store (t.evalCond a.id a.seq).1.store := by
          intro t ht
          refine k1.trans ?_
          rw [← ht]; exact .one _ _ (.inr rfl)
        split at h
        · cases h; exact k1
        · rename_i t ht
          have hts : t.store = s1.store := by
            split at ht
            · cases ht; rfl
            · exact (Sys.incrClock_store ht).1
          have k2 := key t hts
          rcases e2 : t.evalCond a.id a.seq with ⟨s2, e | b⟩ <;> rw [e2] at h k2 <;> cases h <;>
            exact k2
      · dsimp only at h
        split at h
        · cases h; exact k1
        · rename_i hr
          cases h
          rw [(Sys.resetTotal_store hr).1]; exact k1
  | inner idx changed =>
    simp only [Sys.step] at h
    split at h
    · rw [(Sys.endPass_store h).1]; exact .refl
    · rcases e1 : s.continues a with ⟨s1, e | b⟩ <;> rw [e1] at h
      · cases h; exact continues_terms e1
      · have k1 := continues_terms e1
        cases b
        · rw [(Sys.endPass_store h).1]; exact k1
        · cases h; exact k1
  | choosing c => exact absurd rfl (hpc c)
  | yielded idx changed =>
    simp only [Sys.step] at h
    split at h
    · cases h; exact .refl
    · rename_i hi; cases h
      rw [(Sys.incrClock_store hi).1]; exact .refl
  | yieldedEmpty =>
    simp only [Sys.step] at h
    split at h
    · cases h; exact .refl
    · rename_i hi
      split at h
      · cases h; rw [(Sys.incrClock_store hi).1]; exact .refl
      · rename_i hj
        cases h; rw [(Sys.incrClock_store hj).1, (Sys.incrClock_store hi).1]; exact .refl
  | returned => simp only [Sys.step] at h; cases h; exact .refl
  | raised e => simp only [Sys.step] at h; cases h; exact .refl

/-- A step that does not raise counts exactly the selections of the node. -/
theorem step_quota (h : s.step a abs pc = (s', pc', ev)) (hf : OnlyFor b o c n s)
    (ht : Without o a.esu ∧ Without o a.seq) (hr : ∀ e, pc' ≠ .raised e) (i : Option κ) :
    s'.store.sat o i = s.store.sat o i + if i = a.id ∧ ev = some (.add b) then 1 else 0 := by
  by_cases hpc : ∃ ch, pc = .choosing ch
  · obtain ⟨ch, rfl⟩ := hpc
    have hst := Sys.step_stepR h
    cases hst with
    | @reject _ m ns d st h1 h2 h3 h4 =>
      by_cases hm : m = b
      · subst hm
        rw [hf.cond] at h3
        cases h3
        have := nwhen_sat (n := n) s.toView a.id hf.inner s.store i
        rw [h4] at this
        simpa [Sys.putStore] using this
      · have := Spec.Without.eval s.toView a.id d s.store (hf.others m d hm h3) i
        rw [h4] at this
        simpa [Sys.putStore] using this
    | @add _ m ns d st f u h1 h2 h3 h4 h5 h6 h7 =>
      by_cases hm : m = b
      · subst hm
        rw [hf.cond] at h3
        cases h3
        have := nwhen_sat (n := n) s.toView a.id hf.inner s.store i
        rw [h4] at this
        simpa [Sys.putStore, Sys.putTotal, Sys.putUseable] using this
      · have := Spec.Without.eval s.toView a.id d s.store (hf.others m d hm h3) i
        rw [h4] at this
        simpa [Sys.putStore, Sys.putTotal, Sys.putUseable, hm] using this
    | fails => exact absurd rfl (hr _)
    | _ => simp [Sys.putList, Sys.putStamps]
  · have hpc : ∀ ch, pc ≠ .choosing ch := fun ch e => hpc ⟨ch, e⟩
    have k := (step_terms h hpc).without (o := o) (by
      rintro d (rfl | rfl)
      · exact ht.1
      · exact ht.2) i
    have hev : ev ≠ some (.add b) := by
      rintro rfl
      have hst := Sys.step_stepR h
      cases hst with
      | add => exact hpc _ rfl
      | fails _ _ hev => rcases hev with hev | ⟨_, hev, _⟩ <;> cases hev
    simp [k, hev]

end GS
