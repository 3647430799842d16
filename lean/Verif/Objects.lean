import Verif.Spec.Cond
import Verif.LifeDefault
/-!
# Condition objects over the life of a scheduler: which evaluations change them
-/

set_option linter.unusedSectionVars false

namespace GS
open Spec
variable {α κ W β : Type _} [DecidableEq α] [DecidableEq κ]
variable {U : Sys α κ W → Sys α κ W → Prop} {a : RunArgs α κ W} {s0 s s' : Sys α κ W}
variable {abs : Bool} {pc pc' : PC α} {ev : Option (Event α)}
variable {log : List (Option κ × Entry α κ W)} {gs : List (Gen α κ W)}

/-- `st'` comes from `st` by evaluating conditions satisfying `P`. -/
inductive Spec.Evaluated (P : Cond α κ W → Prop) (st : Store α κ) : Store α κ → Prop
  | refl : Evaluated P st st
  | eval {st1 : Store α κ} (v : View α κ W) (id : Option κ) (c : Cond α κ W) :
      Evaluated P st st1 → P c → Evaluated P st (GS.eval v id c st1).2

theorem Spec.Evaluated.one {P : Cond α κ W → Prop} {st : Store α κ} (v : View α κ W) (id : Option κ)
    {c : Cond α κ W} (h : P c) : Evaluated P st (GS.eval v id c st).2 := .eval v id c .refl h

theorem Spec.Evaluated.trans {P : Cond α κ W → Prop} {s1 s2 s3 : Store α κ}
    (h : Evaluated P s1 s2) (k : Evaluated P s2 s3) : Evaluated P s1 s3 := by
  induction k with
  | refl => exact h
  | eval v id c _ hp ih => exact .eval v id c ih hp

theorem Spec.Evaluated.imp {P Q : Cond α κ W → Prop} {s1 s2 : Store α κ}
    (h : Evaluated P s1 s2) (hpq : ∀ c, P c → Q c) : Evaluated Q s1 s2 := by
  induction h with
  | refl => exact .refl
  | eval v id c _ hp ih => exact .eval v id c ih (hpq c hp)

/-- A condition that a step of a run with arguments `a` may evaluate. -/
def InUse (a : RunArgs α κ W) (s : Sys α κ W) (c : Cond α κ W) : Prop :=
  c = a.esu ∨ c = a.seq ∨ ∃ n, Dict.get? s.conds n = some c

namespace Sys

theorem continues_evaluated {r} (h : s.continues a = (s', r)) :
    Evaluated (InUse a s) s.store s'.store ∧ s'.conds = s.conds := by
  have h1 : ∀ (t : Sys α κ W) c, InUse a s c →
      Evaluated (InUse a s) t.store (t.evalCond a.id c).1.store ∧
      (t.evalCond a.id c).1.conds = t.conds := fun t c hc => ⟨.one _ _ hc, rfl⟩
  unfold continues at h
  rcases e1 : s.evalCond a.id a.esu with ⟨s1, e | b⟩
  · rw [e1] at h; cases h
    have := h1 s a.esu (.inl rfl); rwa [e1] at this
  · have k1 := h1 s a.esu (.inl rfl)
    rw [e1] at h k1
    cases b
    · dsimp only at h
      have k2 := h1 s1 a.seq (.inr (.inl rfl))
      rcases e2 : s1.evalCond a.id a.seq with ⟨s2, e | b⟩ <;> rw [e2] at h k2 <;> cases h <;>
        exact ⟨k1.1.trans k2.1, k2.2.trans k1.2⟩
    · cases h; exact k1

theorem incrClock_store {ts} (h : s.incrClock a.id ts = .ok s') :
    s'.store = s.store ∧ s'.conds = s.conds := by
  obtain ⟨c, _, rfl⟩ := Sys.incrClock_ok h
  exact ⟨rfl, rfl⟩

theorem resetTotal_store {ts} (h : s.resetTotal ts a.id = .ok s') :
    s'.store = s.store ∧ s'.conds = s.conds := by
  unfold resetTotal at h
  split at h
  · cases h
  · cases h; exact ⟨rfl, rfl⟩

theorem record_store {set r} (h : s.record a.id abs set = (s', r)) :
    s'.store = s.store ∧ s'.conds = s.conds := by
  unfold record at h
  split at h
  · cases h; exact ⟨rfl, rfl⟩
  · dsimp only at h
    split at h
    · split at h <;> cases h <;> exact ⟨rfl, rfl⟩
    · cases h; exact ⟨rfl, rfl⟩

theorem fire_store {n} (h : s.fire a.id n = .ok s') :
    s'.store = s.store ∧ s'.conds = s.conds := by
  unfold fire at h
  split at h
  · cases h
  · split at h
    · split at h
      · cases h
      · cases h; exact ⟨rfl, rfl⟩
    · cases h

theorem considerNode_evaluated {n r} (h : s.considerNode a.id n = (s', r)) :
    Evaluated (InUse a s) s.store s'.store ∧ s'.conds = s.conds := by
  unfold considerNode at h
  split at h
  · cases h; exact ⟨.refl, rfl⟩
  · rename_i c hc
    have k1 : Evaluated (InUse a s) s.store (s.evalCond a.id c).1.store ∧
      (s.evalCond a.id c).1.conds = s.conds := ⟨.one _ _ (.inr (.inr ⟨n, hc⟩)), rfl⟩
    rcases e1 : s.evalCond a.id c with ⟨s1, e | b⟩ <;> rw [e1] at h k1
    · cases h; exact k1
    · cases b
      · cases h; exact k1
      · dsimp only at h
        split at h
        · cases h; exact k1
        · rename_i hf
          cases h
          obtain ⟨f1, f2⟩ := fire_store (a := a) hf
          rw [f1, f2]; exact k1

theorem endPass_store {changed} (h : s.endPass a abs changed = (s', pc', ev)) :
    s'.store = s.store ∧ s'.conds = s.conds := by
  unfold endPass at h
  split at h
  · rcases e : s.record a.id false [] with ⟨s1, _ | x⟩ <;> rw [e] at h <;> cases h <;>
      exact record_store e
  · split at h
    · cases h; exact ⟨rfl, rfl⟩
    · rename_i hi; cases h; exact incrClock_store hi

/-- A step of a run changes condition objects only by evaluating the termination
conditions and the conditions of nodes. -/
theorem step_evaluated (h : s.step a abs pc = (s', pc', ev)) :
    Evaluated (InUse a s) s.store s'.store ∧ s'.conds = s.conds := by
  cases pc with
  | outer =>
    simp only [step] at h
    rcases e1 : s.continues a with ⟨s1, e | b⟩ <;> rw [e1] at h
    · cases h; exact continues_evaluated e1
    · have k1 := continues_evaluated e1
      cases b
      · dsimp only at h
        unfold finish at h
        have key : ∀ t : Sys α κ W, t.store = s1.store → t.conds = s1.conds →
            Evaluated (InUse a s) s.store (t.evalCond a.id a.seq).1.store ∧
              (t.evalCond a.id a.seq).1.conds = s.conds := by
          intro t ht hc
          refine ⟨k1.1.trans ?_, hc.trans k1.2⟩
          rw [← ht]; exact .one _ _ (.inr (.inl rfl))
        split at h
        · cases h; exact k1
        · rename_i t ht
          have hts : t.store = s1.store ∧ t.conds = s1.conds := by
            split at ht
            · cases ht; exact ⟨rfl, rfl⟩
            · exact incrClock_store ht
          have k2 := key t hts.1 hts.2
          rcases e2 : t.evalCond a.id a.seq with ⟨s2, e | b⟩ <;> rw [e2] at h k2 <;> cases h <;>
            exact k2
      · dsimp only at h
        split at h
        · cases h; exact k1
        · rename_i hr
          cases h
          obtain ⟨r1, r2⟩ := resetTotal_store hr
          rw [r1, r2]; exact k1
  | inner idx changed =>
    simp only [step] at h
    split at h
    · obtain ⟨r1, r2⟩ := endPass_store h
      rw [r1, r2]; exact ⟨.refl, rfl⟩
    · rcases e1 : s.continues a with ⟨s1, e | b⟩ <;> rw [e1] at h
      · cases h; exact continues_evaluated e1
      · have k1 := continues_evaluated e1
        cases b
        · obtain ⟨r1, r2⟩ := endPass_store h
          rw [r1, r2]; exact k1
        · cases h; exact k1
  | choosing c =>
    simp only [step, choose] at h
    split at h
    · split at h
      · cases h; exact ⟨.refl, rfl⟩
      · unfold endChoice at h
        dsimp only at h
        split at h
        · rcases e : s.record a.id abs c.exec with ⟨s1, _ | x⟩ <;> rw [e] at h <;> cases h <;>
          · obtain ⟨r1, r2⟩ := record_store e
            rw [r1, r2]; exact ⟨.refl, rfl⟩
        · cases h; exact ⟨.refl, rfl⟩
    · rename_i n ns hn
      split at h
      · cases h; exact ⟨.refl, rfl⟩
      · rcases e : s.considerNode a.id n with ⟨s1, x | b⟩ <;> rw [e] at h
        · cases h; exact considerNode_evaluated e
        · cases b <;> cases h <;> exact considerNode_evaluated e
  | yielded idx changed =>
    simp only [step] at h
    split at h
    · cases h; exact ⟨.refl, rfl⟩
    · rename_i hi; cases h
      obtain ⟨r1, r2⟩ := incrClock_store hi
      rw [r1, r2]; exact ⟨.refl, rfl⟩
  | yieldedEmpty =>
    simp only [step] at h
    split at h
    · cases h; exact ⟨.refl, rfl⟩
    · rename_i hi
      obtain ⟨r1, r2⟩ := incrClock_store hi
      split at h
      · cases h; rw [r1, r2]; exact ⟨.refl, rfl⟩
      · rename_i hj
        obtain ⟨r3, r4⟩ := incrClock_store hj
        cases h; rw [r3, r4, r1, r2]; exact ⟨.refl, rfl⟩
  | returned => simp only [step] at h; cases h; exact ⟨.refl, rfl⟩
  | raised e => simp only [step] at h; cases h; exact ⟨.refl, rfl⟩

/-- The beginning of a run changes condition objects only in `_validate_conditions`. -/
theorem start_store {r} (h : s.start a = (s', r)) :
    s'.store = s.validateRunState.1.store ∧ s'.conds = s.validateRunState.1.conds := by
  have hi : ∀ (s s' : Sys α κ W) r, s.initCounts a.id a.base = (s', r) →
      s'.store = s.store ∧ s'.conds = s.conds := by
    intro s s' r h
    unfold initCounts at h
    split at h
    · cases h; exact ⟨rfl, rfl⟩
    · rename_i s1 h1
      obtain ⟨d1, rfl, _⟩ := Sys.initTotal_ok h1
      split at h
      · cases h; exact ⟨rfl, rfl⟩
      · rename_i s2 h2
        obtain ⟨d2, rfl, _⟩ := Sys.initUseable_ok h2
        split at h
        · cases h; exact ⟨rfl, rfl⟩
        · rename_i s3 h3
          obtain ⟨d3, rfl, _⟩ := Sys.initList_ok h3
          split at h
          · cases h; exact ⟨rfl, rfl⟩
          · rename_i s4 h4
            obtain ⟨d4, rfl, _⟩ := Sys.initClock_ok h4
            cases h; exact ⟨rfl, rfl⟩
  unfold start at h
  rcases hv : s.validateRunState with ⟨s1, _ | e⟩ <;> rw [hv] at h
  · dsimp only at h ⊢
    have hg : (s1.getClock a.id).store = s1.store ∧ (s1.getClock a.id).conds = s1.conds := by
      unfold getClock; split <;> exact ⟨rfl, rfl⟩
    have hs : ∀ t r, (s1.getClock a.id).setupAbsolute a = (t, r) →
        t.store = s1.store ∧ t.conds = s1.conds := by
      intro t r ht
      unfold setupAbsolute at ht
      dsimp only at ht
      split at ht
      · cases ht; exact hg
      · split at ht <;> cases ht <;> exact hg
    rcases hx : (s1.getClock a.id).setupAbsolute a with ⟨s2, e | b⟩ <;> rw [hx] at h
    · cases h; exact hs _ _ hx
    · dsimp only at h
      obtain ⟨e1, e2⟩ := hs _ _ hx
      rcases hc : s2.initCounts a.id a.base with ⟨s3, _ | e⟩ <;> rw [hc] at h
      · obtain ⟨e3, e4⟩ := hi _ _ _ hc
        dsimp only at h
        split at h
        · cases h; exact ⟨e3.trans e1, e4.trans e2⟩
        · rename_i hr
          cases h
          obtain ⟨e5, e6⟩ := resetTotal_store (s := s3.resetUseable a.id) hr
          exact ⟨e5.trans (e3.trans e1), e6.trans (e4.trans e2)⟩
      · cases h
        obtain ⟨e3, e4⟩ := hi _ _ _ hc
        exact ⟨e3.trans e1, e4.trans e2⟩
  · cases h; exact ⟨rfl, rfl⟩

end Sys

/-! ## Uses of one object -/

theorem usesAll_leaves (o : Nat) (obj : Cond α κ W) : ∀ (ds : List α) (k : Nat), o < k →
    UsesAll o obj (defaultLeaves k ds : List (Cond α κ W))
  | [], _, _ => trivial
  | _ :: ds, k, h => ⟨fun e => by omega, usesAll_leaves o obj ds (k + 1) (by omega)⟩

theorem uses_default (o : Nat) (obj : Cond α κ W) (k : Nat) (h : o < k) (deps : List α) :
    Uses o obj (Sys.defaultCond k deps : Cond α κ W) := by
  match deps with
  | [] => exact fun e => by omega
  | [d] => exact fun e => by omega
  | d :: d' :: ds =>
    have e : (Sys.defaultCond k (d :: d' :: ds) : Cond α κ W) =
        .all k (defaultLeaves (k + 1) (d :: d' :: ds)) := by
      simp only [Sys.defaultCond]; rw [defaultLeaves_eq]
    rw [e]
    exact ⟨fun e => by omega, usesAll_leaves o obj _ _ (by omega)⟩

/-- The object `o` exists, and wherever it occurs in the conditions of nodes it is
`obj`. -/
structure Spec.Placed (o : Nat) (obj : Cond α κ W) (s : Sys α κ W) : Prop where
  made : o < s.store.fresh
  uses : ∀ n c, Dict.get? s.conds n = some c → Uses o obj c

theorem validateConditions_placed (o : Nat) (obj : Cond α κ W) :
    ∀ (ns : List α) (s : Sys α κ W), Placed o obj s →
    Placed o obj (Sys.validateConditions ns s).1 ∧
      ∀ i, (Sys.validateConditions ns s).1.store.sat o i = s.store.sat o i
  | [], s, h => ⟨h, fun _ => rfl⟩
  | n :: ns, s, h => by
    unfold Sys.validateConditions
    split
    · exact validateConditions_placed o obj ns s h
    · split
      · exact ⟨h, fun _ => rfl⟩
      · rename_i deps _
        obtain ⟨_, d2, d3⟩ := addDefault s n deps
        obtain ⟨k1, k2⟩ := validateConditions_placed o obj ns
          ((s.alloc (deps.length + 1)).addBasic n (Sys.defaultCond s.store.fresh deps))
          ⟨by rw [d2]; have := h.made; omega, fun m c hm => by
            have hm : Dict.get? (Dict.set s.conds n _) m = some c := hm
            rw [Dict.get?_set] at hm
            split at hm
            · cases hm; exact uses_default o obj _ h.made deps
            · exact h.uses m c hm⟩
        exact ⟨k1, fun i => (k2 i).trans ((d3 o h.made).2 i)⟩

theorem Spec.Placed.validate {o : Nat} {obj : Cond α κ W} (h : Placed o obj s) :
    Placed o obj s.validateRunState.1 ∧
      ∀ i, s.validateRunState.1.store.sat o i = s.store.sat o i := by
  unfold Sys.validateRunState
  split
  · exact ⟨h, fun _ => rfl⟩
  · exact validateConditions_placed o obj _ s h

theorem Spec.Placed.start {o : Nat} {obj : Cond α κ W} (h : Placed o obj s) {r}
    (hs : s.start a = (s', r)) : Placed o obj s' ∧ ∀ i, s'.store.sat o i = s.store.sat o i := by
  obtain ⟨h1, h2⟩ := Sys.start_store hs
  obtain ⟨h3, h4⟩ := h.validate
  exact ⟨⟨by rw [h1]; exact h3.made, by rw [h2]; exact h3.uses⟩, fun i => by rw [h1]; exact h4 i⟩

theorem Spec.Evaluated.fresh {P : Cond α κ W → Prop} {st st' : Store α κ}
    (h : Evaluated P st st') : st'.fresh = st.fresh := by
  induction h with
  | refl => rfl
  | eval v id c _ _ ih => exact (eval_store v id c _).fresh.trans ih

/-! ## `NWhen` -/

mutual
theorem eval_sat_other (v : View α κ W) (id : Option κ) (o : Nat) (obj : Cond α κ W) :
    ∀ (c : Cond α κ W) (st : Store α κ), sizeOf c ≤ sizeOf obj → c ≠ obj → Uses o obj c →
    ∀ i, (eval v id c st).2.sat o i = st.sat o i
  | .leaf x k, st, _, _, _ => fun _ => rfl
  | .whileNot x f, st, _, _, _ => fun _ => rfl
  | .all x args, st, hs, hn, hu =>
    evalAll_sat_other v id o obj args st (by simp at hs; omega) hu.2
  | .any x args, st, hs, hn, hu =>
    evalAny_sat_other v id o obj args st (by simp at hs; omega) hu.2
  | .not x c, st, hs, hn, hu => by
    have hlt : sizeOf c < sizeOf obj := by simp at hs; omega
    exact eval_sat_other v id o obj c st (by omega) (fun e => by subst e; omega) hu.2
  | .nwhen x c n, st, hs, hn, hu => by
    have hx : x ≠ o := fun e => hn (hu.1 e)
    have hlt : sizeOf c < sizeOf obj := by simp at hs; omega
    intro i
    simp only [eval]
    split
    · have := eval_sat_other v id o obj c st (by omega) (fun e => by subst e; omega) hu.2 i
      generalize eval v id c st = p at this ⊢
      obtain ⟨r, st1⟩ := p
      rcases r with e | b
      · exact this
      · cases b
        · exact this
        · show (if o = x ∧ i = id then st1.sat o i + 1 else st1.sat o i) = st.sat o i
          rw [if_neg (fun e => hx e.1.symm)]; exact this
    · rfl
theorem evalAll_sat_other (v : View α κ W) (id : Option κ) (o : Nat) (obj : Cond α κ W) :
    ∀ (cs : List (Cond α κ W)) (st : Store α κ), sizeOf cs < sizeOf obj → UsesAll o obj cs →
    ∀ i, (evalAll v id cs st).2.sat o i = st.sat o i
  | [], st, _, _ => fun _ => rfl
  | c :: cs, st, hs, hu => by
    have h1 : sizeOf c < sizeOf obj := by simp at hs; omega
    have h2 : sizeOf cs < sizeOf obj := by simp at hs; omega
    intro i
    have k := eval_sat_other v id o obj c st (by omega) (fun e => by subst e; omega) hu.1 i
    simp only [evalAll]
    generalize eval v id c st = p at k ⊢
    obtain ⟨r, st1⟩ := p
    rcases r with e | b
    · exact k
    · cases b
      · exact k
      · exact (evalAll_sat_other v id o obj cs st1 h2 hu.2 i).trans k
theorem evalAny_sat_other (v : View α κ W) (id : Option κ) (o : Nat) (obj : Cond α κ W) :
    ∀ (cs : List (Cond α κ W)) (st : Store α κ), sizeOf cs < sizeOf obj → UsesAll o obj cs →
    ∀ i, (evalAny v id cs st).2.sat o i = st.sat o i
  | [], st, _, _ => fun _ => rfl
  | c :: cs, st, hs, hu => by
    have h1 : sizeOf c < sizeOf obj := by simp at hs; omega
    have h2 : sizeOf cs < sizeOf obj := by simp at hs; omega
    intro i
    have k := eval_sat_other v id o obj c st (by omega) (fun e => by subst e; omega) hu.1 i
    simp only [evalAny]
    generalize eval v id c st = p at k ⊢
    obtain ⟨r, st1⟩ := p
    rcases r with e | b
    · exact k
    · cases b
      · exact (evalAny_sat_other v id o obj cs st1 h2 hu.2 i).trans k
      · exact k
end

section NWhen
variable {o : Nat} {c : Cond α κ W} {n : Int} {st0 st : Store α κ} {l : List (NEval κ)}

mutual
/-- Evaluating any condition in which `o` is the `NWhen` extends its history. -/
theorem eval_nhistory (v : View α κ W) (id : Option κ) : ∀ (d : Cond α κ W) (st : Store α κ)
    (l : List (NEval κ)), Uses o (.nwhen o c n) d → NHistory o c n st0 l st →
    ∃ l', NHistory o c n st0 (l ++ l') (eval v id d st).2
  | .leaf x k, st, l, _, h => ⟨[], by simpa [eval] using h⟩
  | .whileNot x f, st, l, _, h => ⟨[], by simpa [eval] using h⟩
  | .all x args, st, l, hu, h => evalAll_nhistory v id args st l hu.2 h
  | .any x args, st, l, hu, h => evalAny_nhistory v id args st l hu.2 h
  | .not x d, st, l, hu, h => eval_nhistory v id d st l hu.2 h
  | .nwhen x d m, st, l, hu, h => by
    by_cases hx : x = o
    · have e := hu.1 hx
      rw [e]
      exact ⟨_, .eval v id h⟩
    · simp only [eval]
      split
      · obtain ⟨l', hl⟩ := eval_nhistory v id d st l hu.2 h
        refine ⟨l', .other hl fun i => ?_⟩
        rcases eval v id d st with ⟨r, st1⟩
        rcases r with e | b
        · rfl
        · cases b
          · rfl
          · show (if o = x ∧ i = id then st1.sat o i + 1 else st1.sat o i) = st1.sat o i
            rw [if_neg (fun e => hx e.1.symm)]
      · exact ⟨[], by simpa using h⟩
theorem evalAll_nhistory (v : View α κ W) (id : Option κ) : ∀ (ds : List (Cond α κ W))
    (st : Store α κ) (l : List (NEval κ)), UsesAll o (.nwhen o c n) ds → NHistory o c n st0 l st →
    ∃ l', NHistory o c n st0 (l ++ l') (evalAll v id ds st).2
  | [], st, l, _, h => ⟨[], by simpa [evalAll, evalAny] using h⟩
  | d :: ds, st, l, hu, h => by
    obtain ⟨l1, h1⟩ := eval_nhistory v id d st l hu.1 h
    simp only [evalAll]
    generalize eval v id d st = p at h1 ⊢
    obtain ⟨r, st1⟩ := p
    rcases r with e | b
    · exact ⟨l1, h1⟩
    · cases b
      · exact ⟨l1, h1⟩
      · obtain ⟨l2, h2⟩ := evalAll_nhistory v id ds st1 (l ++ l1) hu.2 h1
        exact ⟨l1 ++ l2, by rw [← List.append_assoc]; exact h2⟩
theorem evalAny_nhistory (v : View α κ W) (id : Option κ) : ∀ (ds : List (Cond α κ W))
    (st : Store α κ) (l : List (NEval κ)), UsesAll o (.nwhen o c n) ds → NHistory o c n st0 l st →
    ∃ l', NHistory o c n st0 (l ++ l') (evalAny v id ds st).2
  | [], st, l, _, h => ⟨[], by simpa [evalAll, evalAny] using h⟩
  | d :: ds, st, l, hu, h => by
    obtain ⟨l1, h1⟩ := eval_nhistory v id d st l hu.1 h
    simp only [evalAny]
    generalize eval v id d st = p at h1 ⊢
    obtain ⟨r, st1⟩ := p
    rcases r with e | b
    · exact ⟨l1, h1⟩
    · cases b
      · obtain ⟨l2, h2⟩ := evalAny_nhistory v id ds st1 (l ++ l1) hu.2 h1
        exact ⟨l1 ++ l2, by rw [← List.append_assoc]; exact h2⟩
      · exact ⟨l1, h1⟩
end

theorem Spec.NHistory.evaluated {st' : Store α κ} (h : NHistory o c n st0 l st)
    (he : Evaluated (Uses o (.nwhen o c n)) st st') : ∃ l', NHistory o c n st0 (l ++ l') st' := by
  induction he with
  | refl => exact ⟨[], by simpa using h⟩
  | eval v id d _ hd ih =>
    obtain ⟨l1, h1⟩ := ih
    obtain ⟨l2, h2⟩ := eval_nhistory v id d _ _ hd h1
    exact ⟨l1 ++ l2, by rw [← List.append_assoc]; exact h2⟩

/-- The counter is the number of satisfied evaluations. -/
theorem Spec.NHistory.sat (h : NHistory o c n st0 l st)
    (hc : Uses o (.nwhen o c n) c) (h0 : ∀ i, st0.sat o i = 0) :
    ∀ i, st.sat o i = evals i NEval.satisfied l ∧
      ((st.sat o i : Int) = min (evals i NEval.hit l : Int) (max n 0)) := by
  induction h with
  | new => intro i; rw [h0]; exact ⟨rfl, by simp [evals]; omega⟩
  | other _ hs ih => intro i; rw [hs]; exact ih i
  | @eval l st v id _ ih =>
    intro i
    obtain ⟨i1, i2⟩ := ih i
    obtain ⟨j1, j2⟩ := ih id
    have hlt : sizeOf c < sizeOf (Cond.nwhen o c n) := by simp; omega
    have hsat := eval_sat_other v id o (.nwhen o c n) c st (by omega)
      (fun e => absurd (congrArg sizeOf e) (by omega)) hc
    have he : GS.eval v id (.nwhen o c n) st =
        if (st.sat o id : Int) < n then nwhenResult o id (GS.eval v id c st) else (.ok false, st) := by
      simp only [GS.eval]
    have ev : ∀ p (e : NEval κ), evals i p (l ++ [e]) =
        evals i p l + if e.id = i ∧ p e = true then 1 else 0 := by
      intro p e
      simp only [evals, List.countP_append, List.countP_singleton]
      congr 1
      by_cases h1 : e.id = i <;> by_cases h2 : p e = true <;> simp [h1, h2]
    rw [ev, ev]
    generalize GS.eval v id (.nwhen o c n) st = p at he ⊢
    by_cases hlt : (st.sat o id : Int) < n
    · rw [if_pos hlt] at he
      have hs := hsat i
      subst he
      rcases hr : GS.eval v id c st with ⟨r, st1⟩
      rw [hr] at hs
      rcases r with e | b
      · simp only [nwhenResult, NEval.hit, NEval.satisfied]
        dsimp only at hs
        rw [hs]
        exact ⟨by rw [i1]; simp, by rw [i2]; simp⟩
      · cases b
        · simp only [nwhenResult, NEval.hit, NEval.satisfied]
          dsimp only at hs
          rw [hs]
          exact ⟨by rw [i1]; simp, by rw [i2]; simp⟩
        · have hb : ∀ x y, (st1.bumpSat o id).sat x y =
              if x = o ∧ y = id then st1.sat x y + 1 else st1.sat x y := fun _ _ => rfl
          dsimp only at hs
          show (st1.bumpSat o id).sat o i = _ + (if id = i ∧ true = true then 1 else 0) ∧
            (((st1.bumpSat o id).sat o i : Nat) : Int) =
              min ((evals i NEval.hit l + (if id = i ∧ true = true then 1 else 0) : Nat) : Int) _
          rw [hb, hs]
          by_cases hi : id = i
          · subst hi
            simp only [and_self, if_true]
            exact ⟨by rw [i1], by omega⟩
          · have hi' : i ≠ id := fun e => hi e.symm
            simp only [hi, hi', and_true, if_false, false_and, and_false, Nat.add_zero]
            exact ⟨i1, i2⟩
    · rw [if_neg hlt] at he; subst he
      show st.sat o i = _ + (if id = i ∧ false = true then 1 else 0) ∧ (st.sat o i : Int) = _
      refine ⟨by rw [i1]; simp, ?_⟩
      by_cases hi : id = i
      · subst hi
        split <;> omega
      · simp only [hi, false_and, if_false, Nat.add_zero]; exact i2

/-- Over the life of a scheduler the object is changed only by its evaluations. -/
theorem Spec.Life.nhistory (hl : Life U s0 log s gs) (hp : Placed o (.nwhen o c n) s0)
    (hg : ∀ g ∈ gs, Uses o (.nwhen o c n) g.args.esu ∧ Uses o (.nwhen o c n) g.args.seq)
    (hU : ∀ s s', U s s' → Placed o (.nwhen o c n) s → Placed o (.nwhen o c n) s' ∧
      ∃ st, Evaluated (Uses o (.nwhen o c n)) s.store st ∧ ∀ i, s'.store.sat o i = st.sat o i) :
    Placed o (.nwhen o c n) s ∧ ∃ l, NHistory o c n s0.store l s.store := by
  induction hl with
  | init => exact ⟨hp, _, .new⟩
  | start _ hs ih =>
    obtain ⟨h1, l, h2⟩ := ih fun g hm => hg g (List.mem_append_left _ hm)
    obtain ⟨h3, h4⟩ := h1.start hs
    exact ⟨h3, l, .other h2 h4⟩
  | startFails _ hs ih =>
    obtain ⟨h1, l, h2⟩ := ih hg
    obtain ⟨h3, h4⟩ := h1.start hs
    exact ⟨h3, l, .other h2 h4⟩
  | @step log s s' gs k g pc' ev hl hk hs ih =>
    have hlt : k < gs.length := (List.getElem?_eq_some_iff.1 hk).1
    have hmem : { g with pc := pc' } ∈ gs.set k { g with pc := pc' } :=
      List.mem_of_getElem? (i := k) (by rw [List.getElem?_set_self hlt])
    have hga := hg _ hmem
    have hg' : ∀ x ∈ gs, Uses o (.nwhen o c n) x.args.esu ∧ Uses o (.nwhen o c n) x.args.seq := by
      intro x hx
      obtain ⟨j, hj⟩ := List.getElem?_of_mem hx
      by_cases hjk : j = k
      · subst hjk; rw [hk] at hj; cases hj; exact hga
      · exact hg x (List.mem_of_getElem? (i := j) (by rw [List.getElem?_set_ne (Ne.symm hjk)]; exact hj))
    obtain ⟨h1, l, h2⟩ := ih hg'
    obtain ⟨e1, e2⟩ := Sys.step_evaluated hs
    have e3 := e1.imp (Q := Uses o (.nwhen o c n)) (by
      rintro d (rfl | rfl | ⟨m, hm⟩)
      · exact hga.1
      · exact hga.2
      · exact h1.uses m d hm)
    obtain ⟨l', h3⟩ := h2.evaluated e3
    exact ⟨⟨by rw [e1.fresh]; exact h1.made, by rw [e2]; exact h1.uses⟩, _, h3⟩
  | user _ hu ih =>
    obtain ⟨h1, l, h2⟩ := ih hg
    obtain ⟨h3, st, h4, h5⟩ := hU _ _ hu h1
    obtain ⟨l', h6⟩ := h2.evaluated h4
    exact ⟨h3, _, .other h6 h5⟩

end NWhen

end GS
