import Verif.Spec.Share
import Verif.RunInv
/-!
# Lemmas: evaluation depends only on the objects of a condition
-/

set_option linter.unusedSectionVars false

namespace GS
open Spec
variable {α κ W : Type _} [DecidableEq α] [DecidableEq κ]

/-- The attributes of the objects satisfying `P` agree. -/
def SameOn (P : Nat → Prop) (st st' : Store α κ) : Prop :=
  ∀ o, P o → st'.owner o = st.owner o ∧ ∀ i, st'.sat o i = st.sat o i

theorem SameOn.mono {P Q : Nat → Prop} {st st' : Store α κ} (h : SameOn P st st')
    (hq : ∀ o, Q o → P o) : SameOn Q st st' := fun o ho => h o (hq o ho)

/-- The change made by an evaluation, for the objects satisfying `P`. -/
def SameRes (P : Nat → Prop) (r r' : EvalResult α κ) : Prop := r'.1 = r.1 ∧ SameOn P r.2 r'.2

theorem SameOn.bump {P : Nat → Prop} {st st' : Store α κ} (h : SameOn P st st') (o : Nat)
    (i : Option κ) : SameOn P (st.bumpSat o i) (st'.bumpSat o i) := by
  intro x hx
  obtain ⟨h1, h2⟩ := h x hx
  refine ⟨h1, fun j => ?_⟩
  simp only [Store.bumpSat]
  rw [h2]

theorem SameRes.nwhen {P : Nat → Prop} {r r' : EvalResult α κ} (h : SameRes P r r') (o : Nat)
    (i : Option κ) : SameRes P (nwhenResult o i r) (nwhenResult o i r') := by
  obtain ⟨r1, st1⟩ := r
  obtain ⟨r2, st2⟩ := r'
  obtain ⟨h1, h2⟩ := h
  dsimp only at h1 h2
  subst h1
  rcases r2 with e | b
  · exact ⟨rfl, h2⟩
  · cases b
    · exact ⟨rfl, h2⟩
    · exact ⟨rfl, h2.bump o i⟩

mutual
theorem eval_sameOn (v : View α κ W) (id : Option κ) (P : Nat → Prop) :
    ∀ (c : Cond α κ W) (st st' : Store α κ), (∀ o, Occurs o c → P o) → SameOn P st st' →
    SameRes P (eval v id c st) (eval v id c st')
  | .leaf x k, st, st', hp, h => by
    simp only [eval]; rw [(h x (hp x rfl)).1]; exact ⟨rfl, h⟩
  | .whileNot x f, st, st', hp, h => by
    simp only [eval]; rw [(h x (hp x rfl)).1]; exact ⟨rfl, h⟩
  | .all x args, st, st', hp, h =>
    evalAll_sameOn v id P args st st' (fun o ho => hp o (.inr ho)) h
  | .any x args, st, st', hp, h =>
    evalAny_sameOn v id P args st st' (fun o ho => hp o (.inr ho)) h
  | .not x c, st, st', hp, h => by
    have k := eval_sameOn v id P c st st' (fun o ho => hp o (.inr ho)) h
    simp only [eval]
    exact ⟨by rw [k.1], k.2⟩
  | .nwhen x c n, st, st', hp, h => by
    have k := eval_sameOn v id P c st st' (fun o ho => hp o (.inr ho)) h
    simp only [eval]
    rw [(h x (hp x (.inl rfl))).2 id]
    split
    · exact k.nwhen x id
    · exact ⟨rfl, h⟩
theorem evalAll_sameOn (v : View α κ W) (id : Option κ) (P : Nat → Prop) :
    ∀ (cs : List (Cond α κ W)) (st st' : Store α κ), (∀ o, OccursAny o cs → P o) →
    SameOn P st st' → SameRes P (evalAll v id cs st) (evalAll v id cs st')
  | [], st, st', _, h => ⟨rfl, h⟩
  | c :: cs, st, st', hp, h => by
    have k := eval_sameOn v id P c st st' (fun o ho => hp o (.inl ho)) h
    simp only [evalAll]
    generalize eval v id c st = r at k ⊢
    generalize eval v id c st' = r' at k ⊢
    obtain ⟨r1, st1⟩ := r
    obtain ⟨r2, st2⟩ := r'
    obtain ⟨k1, k2⟩ := k
    dsimp only at k1 k2
    subst k1
    rcases r2 with e | b
    · exact ⟨rfl, k2⟩
    · cases b
      · exact ⟨rfl, k2⟩
      · exact evalAll_sameOn v id P cs st1 st2 (fun o ho => hp o (.inr ho)) k2
theorem evalAny_sameOn (v : View α κ W) (id : Option κ) (P : Nat → Prop) :
    ∀ (cs : List (Cond α κ W)) (st st' : Store α κ), (∀ o, OccursAny o cs → P o) →
    SameOn P st st' → SameRes P (evalAny v id cs st) (evalAny v id cs st')
  | [], st, st', _, h => ⟨rfl, h⟩
  | c :: cs, st, st', hp, h => by
    have k := eval_sameOn v id P c st st' (fun o ho => hp o (.inl ho)) h
    simp only [evalAny]
    generalize eval v id c st = r at k ⊢
    generalize eval v id c st' = r' at k ⊢
    obtain ⟨r1, st1⟩ := r
    obtain ⟨r2, st2⟩ := r'
    obtain ⟨k1, k2⟩ := k
    dsimp only at k1 k2
    subst k1
    rcases r2 with e | b
    · exact ⟨rfl, k2⟩
    · cases b
      · exact evalAny_sameOn v id P cs st1 st2 (fun o ho => hp o (.inr ho)) k2
      · exact ⟨rfl, k2⟩
end

theorem SameOn.refl (P : Nat → Prop) (st : Store α κ) : SameOn P st st :=
  fun _ _ => ⟨rfl, fun _ => rfl⟩

theorem SameOn.trans {P : Nat → Prop} {s1 s2 s3 : Store α κ} (h : SameOn P s1 s2)
    (k : SameOn P s2 s3) : SameOn P s1 s3 :=
  fun o ho => ⟨(k o ho).1.trans (h o ho).1, fun i => ((k o ho).2 i).trans ((h o ho).2 i)⟩

theorem SameOn.symm {P : Nat → Prop} {s1 s2 : Store α κ} (h : SameOn P s1 s2) : SameOn P s2 s1 :=
  fun o ho => ⟨(h o ho).1.symm, fun i => ((h o ho).2 i).symm⟩

mutual
/-- An evaluation leaves the objects outside the condition alone. -/
theorem eval_outside (v : View α κ W) (id : Option κ) (P : Nat → Prop) :
    ∀ (c : Cond α κ W) (st : Store α κ), (∀ o, Occurs o c → ¬ P o) →
    SameOn P st (eval v id c st).2
  | .leaf x k, st, hp => .refl _ _
  | .whileNot x f, st, hp => .refl _ _
  | .all x args, st, hp => evalAll_outside v id P args st (fun o ho => hp o (.inr ho))
  | .any x args, st, hp => evalAny_outside v id P args st (fun o ho => hp o (.inr ho))
  | .not x c, st, hp => eval_outside v id P c st (fun o ho => hp o (.inr ho))
  | .nwhen x c n, st, hp => by
    have k := eval_outside v id P c st (fun o ho => hp o (.inr ho))
    simp only [eval]
    split
    · generalize eval v id c st = r at k ⊢
      obtain ⟨r1, st1⟩ := r
      rcases r1 with e | b
      · exact k
      · cases b
        · exact k
        · refine k.trans fun o ho => ⟨rfl, fun i => ?_⟩
          have hne : o ≠ x := fun e => hp x (.inl rfl) (e ▸ ho)
          show (if o = x ∧ i = id then st1.sat o i + 1 else st1.sat o i) = st1.sat o i
          rw [if_neg (fun e => hne e.1)]
    · exact .refl _ _
theorem evalAll_outside (v : View α κ W) (id : Option κ) (P : Nat → Prop) :
    ∀ (cs : List (Cond α κ W)) (st : Store α κ), (∀ o, OccursAny o cs → ¬ P o) →
    SameOn P st (evalAll v id cs st).2
  | [], st, _ => .refl _ _
  | c :: cs, st, hp => by
    have k := eval_outside v id P c st (fun o ho => hp o (.inl ho))
    simp only [evalAll]
    generalize eval v id c st = r at k ⊢
    obtain ⟨r1, st1⟩ := r
    rcases r1 with e | b
    · exact k
    · cases b
      · exact k
      · exact k.trans (evalAll_outside v id P cs st1 (fun o ho => hp o (.inr ho)))
theorem evalAny_outside (v : View α κ W) (id : Option κ) (P : Nat → Prop) :
    ∀ (cs : List (Cond α κ W)) (st : Store α κ), (∀ o, OccursAny o cs → ¬ P o) →
    SameOn P st (evalAny v id cs st).2
  | [], st, _ => .refl _ _
  | c :: cs, st, hp => by
    have k := eval_outside v id P c st (fun o ho => hp o (.inl ho))
    simp only [evalAny]
    generalize eval v id c st = r at k ⊢
    obtain ⟨r1, st1⟩ := r
    rcases r1 with e | b
    · exact k
    · cases b
      · exact k.trans (evalAny_outside v id P cs st1 (fun o ho => hp o (.inr ho)))
      · exact k
end

theorem putOwner_outside (n : Option α) (P : Nat → Prop) (x : Nat) (st : Store α κ) (hx : ¬ P x) :
    SameOn P st (st.putOwner x n) := by
  intro o ho
  refine ⟨?_, fun _ => rfl⟩
  show (if o = x then n else st.owner o) = st.owner o
  rw [if_neg (fun (e : o = x) => hx (e ▸ ho))]

mutual
/-- Setting the owner of a condition leaves the objects outside it alone. -/
theorem setOwner_outside (n : Option α) (P : Nat → Prop) :
    ∀ (c : Cond α κ W) (st : Store α κ), (∀ o, Occurs o c → ¬ P o) →
    SameOn P st (setOwner n c st)
  | .leaf x k, st, hp => putOwner_outside n P x st (hp x rfl)
  | .whileNot x f, st, hp => putOwner_outside n P x st (hp x rfl)
  | .all x args, st, hp => (putOwner_outside n P x st (hp x (.inl rfl))).trans
      (setOwners_outside n P args _ (fun o ho => hp o (.inr ho)))
  | .any x args, st, hp => (putOwner_outside n P x st (hp x (.inl rfl))).trans
      (setOwners_outside n P args _ (fun o ho => hp o (.inr ho)))
  | .not x c, st, hp => (putOwner_outside n P x st (hp x (.inl rfl))).trans
      (setOwner_outside n P c _ (fun o ho => hp o (.inr ho)))
  | .nwhen x c _, st, hp => (putOwner_outside n P x st (hp x (.inl rfl))).trans
      (setOwner_outside n P c _ (fun o ho => hp o (.inr ho)))
theorem setOwners_outside (n : Option α) (P : Nat → Prop) :
    ∀ (cs : List (Cond α κ W)) (st : Store α κ), (∀ o, OccursAny o cs → ¬ P o) →
    SameOn P st (setOwners n cs st)
  | [], st, _ => .refl _ _
  | c :: cs, st, hp => by
    simp only [setOwners]
    split
    · exact (setOwner_outside n P c st (fun o ho => hp o (.inl ho))).trans
        (setOwners_outside n P cs _ (fun o ho => hp o (.inr ho)))
    · exact setOwners_outside n P cs st (fun o ho => hp o (.inr ho))
end

theorem answers_own (c : Cond α κ W) : ∀ (ps : List (Probe α κ W)) (st st' : Store α κ),
    (∀ v id d, Probe.other v id d ∈ ps → Apart d c) → SameOn (fun o => Occurs o c) st st' →
    answers c ps st' = answers c (ownOnly ps) st
  | [], _, _, _, _ => rfl
  | .this v id :: ps, st, st', hp, h => by
    have k := eval_sameOn v id (fun o => Occurs o c) c st st' (fun _ ho => ho) h
    show (eval v id c st').1 :: answers c ps (eval v id c st').2 =
      (eval v id c st).1 :: answers c (ownOnly ps) (eval v id c st).2
    rw [k.1, answers_own c ps _ _ (fun v id d hd => hp v id d (List.mem_cons_of_mem _ hd)) k.2]
  | .other v id d :: ps, st, st', hp, h => by
    show answers c ps (eval v id d st').2 = answers c (ownOnly ps) st
    exact answers_own c ps st _ (fun v id d hd => hp v id d (List.mem_cons_of_mem _ hd))
      (h.trans (eval_outside v id _ d st' (hp v id d List.mem_cons_self)))

mutual
theorem eval_plain (v : View α κ W) (id : Option κ) :
    ∀ (c : Cond α κ W) (st st' : Store α κ), Plain c →
    (eval v id c st').1 = (eval v id c st).1
  | .leaf x k, st, st', hp => by
    cases k <;> first | rfl | exact hp.elim
  | .whileNot x f, st, st', hp => hp.elim
  | .all x args, st, st', hp => evalAll_plain v id args st st' hp
  | .any x args, st, st', hp => evalAny_plain v id args st st' hp
  | .not x c, st, st', hp => by
    simp only [eval]; rw [eval_plain v id c st st' hp]
  | .nwhen x c n, st, st', hp => hp.elim
theorem evalAll_plain (v : View α κ W) (id : Option κ) :
    ∀ (cs : List (Cond α κ W)) (st st' : Store α κ), PlainAll cs →
    (evalAll v id cs st').1 = (evalAll v id cs st).1
  | [], _, _, _ => rfl
  | c :: cs, st, st', hp => by
    have k := eval_plain v id c st st' hp.1
    simp only [evalAll]
    generalize eval v id c st = r at k ⊢
    generalize eval v id c st' = r' at k ⊢
    obtain ⟨r1, st1⟩ := r
    obtain ⟨r2, st2⟩ := r'
    dsimp only at k
    subst k
    rcases r2 with e | b
    · rfl
    · cases b
      · rfl
      · exact evalAll_plain v id cs st1 st2 hp.2
theorem evalAny_plain (v : View α κ W) (id : Option κ) :
    ∀ (cs : List (Cond α κ W)) (st st' : Store α κ), PlainAll cs →
    (evalAny v id cs st').1 = (evalAny v id cs st).1
  | [], _, _, _ => rfl
  | c :: cs, st, st', hp => by
    have k := eval_plain v id c st st' hp.1
    simp only [evalAny]
    generalize eval v id c st = r at k ⊢
    generalize eval v id c st' = r' at k ⊢
    obtain ⟨r1, st1⟩ := r
    obtain ⟨r2, st2⟩ := r'
    dsimp only at k
    subst k
    rcases r2 with e | b
    · rfl
    · cases b
      · exact evalAny_plain v id cs st1 st2 hp.2
      · rfl
end

theorem answers_plain (c : Cond α κ W) (hc : Plain c) :
    ∀ (ps : List (Probe α κ W)) (st st' : Store α κ),
    answers c ps st' = answers c (ownOnly ps) st
  | [], _, _ => rfl
  | .this v id :: ps, st, st' => by
    show (eval v id c st').1 :: answers c ps (eval v id c st').2 =
      (eval v id c st).1 :: answers c (ownOnly ps) (eval v id c st).2
    rw [eval_plain v id c st st' hc, answers_plain c hc ps]
  | .other v id d :: ps, st, st' => by
    show answers c ps (eval v id d st').2 = answers c (ownOnly ps) st
    exact answers_plain c hc ps st _

end GS
