import Verif.Spec.Patterns
import Verif.Props.Restate
import Verif.Props.Safe
import Verif.Props.NPasses
/-!
# Patterns of execution: the reference scheduler with timetables
-/

set_option linter.unusedSectionVars false

namespace GS
open Spec
variable {α κ W : Type _} [DecidableEq α] [DecidableEq κ]

/-! ## Timetables in the reference scheduler -/

section
variable {R : α → Past α → Bool} {f : α → Bool}

theorem choice_static {l : List α} {p : Past α} (hp : p.next = [])
    (hR : ∀ n ∈ l, ∀ p' : Past α, p'.before = p.before → R n p' = f n) (n : α) :
    n ∈ choice R l p ↔ n ∈ l ∧ f n = true := by
  have thr : ∀ (ns : List α) (p' : Past α), (∀ n ∈ ns, n ∈ l) → p'.before = p.before →
      (goThrough R ns p').before = p.before ∧
      ∀ n, n ∈ (goThrough R ns p').next ↔ n ∈ p'.next ∨ (n ∈ ns ∧ f n = true) := by
    intro ns
    induction ns with
    | nil => intro p' _ h; exact ⟨h, by simp [goThrough]⟩
    | cons m ns ih =>
      intro p' hs hb
      simp only [goThrough]
      by_cases h1 : m ∈ p'.next
      · rw [if_pos h1]
        obtain ⟨i1, i2⟩ := ih p' (fun n hn => hs n (by simp [hn])) hb
        refine ⟨i1, fun n => ?_⟩
        rw [i2]
        constructor
        · rintro (h | ⟨h, h'⟩)
          · exact .inl h
          · exact .inr ⟨by simp [h], h'⟩
        · rintro (h | ⟨h, h'⟩)
          · exact .inl h
          · rcases List.mem_cons.1 h with rfl | h
            · exact .inl h1
            · exact .inr ⟨h, h'⟩
      · rw [if_neg h1, hR m (hs m (by simp)) p' hb]
        by_cases h2 : f m = true
        · rw [if_pos h2]
          obtain ⟨i1, i2⟩ := ih { p' with next := p'.next ++ [m] } (fun n hn => hs n (by simp [hn])) hb
          refine ⟨i1, fun n => ?_⟩
          rw [i2]
          simp only [List.mem_append, List.mem_cons, List.not_mem_nil, or_false]
          constructor
          · rintro ((h | rfl) | ⟨h, h'⟩)
            · exact .inl h
            · exact .inr ⟨.inl rfl, h2⟩
            · exact .inr ⟨.inr h, h'⟩
          · rintro (h | ⟨rfl | h, h'⟩)
            · exact .inl (.inl h)
            · exact .inl (.inr rfl)
            · exact .inr ⟨h, h'⟩
        · rw [if_neg h2]
          obtain ⟨i1, i2⟩ := ih p' (fun n hn => hs n (by simp [hn])) hb
          refine ⟨i1, fun n => ?_⟩
          rw [i2]
          constructor
          · rintro (h | ⟨h, h'⟩)
            · exact .inl h
            · exact .inr ⟨by simp [h], h'⟩
          · rintro (h | ⟨h, h'⟩)
            · exact .inl h
            · rcases List.mem_cons.1 h with rfl | h
              · exact absurd h' h2
              · exact .inr ⟨h, h'⟩
  have rnd : ∀ (k : Nat) (p' : Past α), p'.before = p.before →
      (∀ n, n ∈ p'.next ↔ n ∈ l ∧ f n = true) →
      ∀ n, n ∈ (goRound R l k p').next ↔ n ∈ l ∧ f n = true := by
    intro k
    induction k with
    | zero => intro p' _ h; exact h
    | succ k ih =>
      intro p' hb h
      obtain ⟨i1, i2⟩ := thr l p' (fun _ h => h) hb
      exact ih _ i1 fun n => by
        rw [i2, h]
        exact ⟨fun h => h.elim id id, .inl⟩
  unfold choice
  simp only [goRound]
  obtain ⟨i1, i2⟩ := thr l p (fun _ h => h) rfl
  exact rnd _ _ i1 (fun n => by rw [i2, hp]; simp) n

theorem passFrom_possible {T : Past α → Bool} {B : List (List (List α))} (hT : ∀ p, p.before = B → T p = false) :
    ∀ {q ps : List (List α)}, Possible q ps → q.flatten.Nodup →
      (∀ n ∈ q.flatten, ∀ p' : Past α, p'.before = B → R n p' = decide (n ∈ ps.flatten)) →
      ∀ p : Past α, p.before = B → p.next = [] →
      ∃ z, passFrom false R T q p = { p with now := p.now ++ z } ∧ SameSets z ps := by
  have hsub : ∀ {q ps : List (List α)}, Possible q ps → ∀ n ∈ ps.flatten, n ∈ q.flatten := by
    intro q ps h
    induction h with
    | nil => simp
    | over _ ih => intro n hn; simp only [List.flatten_cons, List.mem_append]; exact .inr (ih n hn)
    | some _ h2 _ ih =>
      intro n hn
      simp only [List.flatten_cons, List.mem_append] at hn ⊢
      exact hn.imp (h2 n) (ih n)
  intro q ps h
  induction h with
  | nil => intro _ _ p _ _; exact ⟨[], by simp [passFrom], .nil⟩
  | @over l q ps hp ih =>
    intro hq hR p hb hn
    rw [List.flatten_cons, List.nodup_append] at hq
    have hch : choice R l p = [] := by
      rw [List.eq_nil_iff_forall_not_mem]
      intro n hc
      rw [choice_static (f := fun n => decide (n ∈ ps.flatten)) hn (fun n hn' p' hp' =>
        hR n (by simp [hn']) p' (hp'.trans hb))] at hc
      exact hq.2.2 n hc.1 n (hsub hp n (of_decide_eq_true hc.2)) rfl
    simp only [passFrom]
    rw [hT p hb, if_neg (by simp), if_pos ⟨hch, trivial⟩]
    exact ih hq.2.1 (fun n hn' => hR n (by simp only [List.flatten_cons, List.mem_append]; exact .inr hn')) p hb hn
  | @some l x q ps hx hsx hp ih =>
    intro hq hR p hb hn
    rw [List.flatten_cons, List.nodup_append] at hq
    have hch : SameMembers (choice R l p) x := by
      intro n
      rw [choice_static (f := fun n => decide (n ∈ (x :: ps).flatten)) hn (fun n hn' p' hp' =>
        hR n (by simp [hn']) p' (hp'.trans hb))]
      simp only [decide_eq_true_eq, List.flatten_cons, List.mem_append]
      constructor
      · rintro ⟨h1, h2 | h2⟩
        · exact h2
        · exact absurd rfl (hq.2.2 n h1 n (hsub hp n h2))
      · exact fun h => ⟨hsx n h, .inl h⟩
    have hne : choice R l p ≠ [] := by
      obtain ⟨m, hm⟩ := List.exists_mem_of_ne_nil x hx
      exact List.ne_nil_of_mem ((hch m).2 hm)
    simp only [passFrom]
    rw [hT p hb, if_neg (by simp), if_neg (fun h => hne h.1)]
    obtain ⟨z, i1, i2⟩ := ih hq.2.1 (fun n hn' p' hp' => by
      rw [hR n (by simp only [List.flatten_cons, List.mem_append]; exact .inr hn') p' hp']
      simp only [List.flatten_cons, List.mem_append, decide_eq_decide]
      refine ⟨fun h => h.elim (fun h => ?_) id, .inr⟩
      exact absurd rfl (hq.2.2 n (hsx n h) n hn')) { p with now := p.now ++ [choice R l p] } hb hn
    exact ⟨choice R l p :: z, by rw [i1]; simp, .cons hch i2⟩

theorem passFrom_nothing {T : Past α → Bool} {B : List (List (List α))} (hT : ∀ p, p.before = B → T p = false) :
    ∀ {q : List (List α)}, (∀ n ∈ q.flatten, ∀ p' : Past α, p'.before = B → R n p' = false) →
      ∀ p : Past α, p.before = B → p.next = [] → passFrom false R T q p = p
  | [], _, p, _, _ => rfl
  | l :: q, hR, p, hb, hn => by
    have hch : choice R l p = [] := by
      rw [List.eq_nil_iff_forall_not_mem]
      intro n hc
      rw [choice_static (f := fun _ => false) hn (fun n hn' p' hp' =>
        hR n (by simp [hn']) p' (hp'.trans hb))] at hc
      exact absurd hc.2 (by simp)
    simp only [passFrom]
    rw [hT p hb, if_neg (by simp), if_pos ⟨hch, trivial⟩]
    exact passFrom_nothing hT (fun n hn' => hR n (by
      simp only [List.flatten_cons, List.mem_append]; exact .inr hn')) p hb hn

end

theorem SameSets.nonempty {x y : List (List α)} (h : SameSets x y) (hy : y ≠ []) : x ≠ [] := by
  cases h with
  | nil => exact hy
  | cons => simp

theorem All2.snoc {β γ : Type _} {R : β → γ → Prop} {xs : List β} {ys : List γ} (h : All2 R xs ys)
    {x : β} {y : γ} (hx : R x y) : All2 R (xs ++ [x]) (ys ++ [y]) := by
  induction h with
  | nil => exact .cons hx .nil
  | cons h _ ih => exact .cons h ih

theorem All2.length {β γ : Type _} {R : β → γ → Prop} {xs : List β} {ys : List γ} (h : All2 R xs ys) :
    xs.length = ys.length := by
  induction h with
  | nil => rfl
  | cons _ _ ih => simp [ih]

theorem mem_passesOf {T : List (List (List α))} {n : α} {k : Nat} :
    k ∈ passesOf T n ↔ ∃ p, T[k]? = some p ∧ n ∈ p.flatten := by
  unfold passesOf
  rw [List.mem_filter, List.mem_range]
  constructor
  · rintro ⟨h1, h2⟩
    refine ⟨T[k], List.getElem?_eq_getElem h1, ?_⟩
    rw [List.getElem?_eq_getElem h1] at h2
    exact of_decide_eq_true h2
  · rintro ⟨p, h1, h2⟩
    obtain ⟨h3, rfl⟩ := List.getElem?_eq_some_iff.1 h1
    exact ⟨h3, by rw [h1]; exact decide_eq_true h2⟩

/-- The passes of a reference scheduler with timetables. -/
theorem reference_timetable {R : α → Past α → Bool} {S : Past α → Bool} {q : List (List α)}
    {T : List (List (List α))} (hq : q.flatten.Nodup)
    (hR : ∀ n ∈ q.flatten, ∀ p, R n p = decide (p.before.length ∈ passesOf T n))
    (hS : ∀ p, S p = decide (T.length ≤ p.before.length)) (hp : ∀ p ∈ T, PossiblePass q p)
    (runs : List (List (List (List α)))) :
    ∀ (T2 T1 B : List (List (List α))), T = T1 ++ T2 → SamePasses B T1 →
      ∃ B', reference false R S q T2.length ⟨runs, B, [], []⟩ = ⟨runs, B', [], []⟩ ∧ SamePasses B' T
  | [], T1, B, hT, hB => ⟨B, rfl, by rw [hT, List.append_nil]; exact hB⟩
  | x :: T2, T1, B, hT, hB => by
    have hlen := All2.length hB
    have hx : T[B.length]? = some x := by rw [hT, hlen]; simp
    have hlt : B.length < T.length := by rw [hT, hlen]; simp
    have hS' : ∀ p : Past α, p.before = B → S p = false := by
      intro p h; rw [hS, h]; simpa using hlt
    have hR' : ∀ n ∈ q.flatten, ∀ p' : Past α, p'.before = B → R n p' = decide (n ∈ x.flatten) := by
      intro n hn p' h
      rw [hR n hn, h, decide_eq_decide, mem_passesOf]
      constructor
      · rintro ⟨y, h1, h2⟩; rw [hx] at h1; cases h1; exact h2
      · exact fun h => ⟨x, hx, h⟩
    have key : ∃ y, closePass false (passFrom false R S q ⟨runs, B, [], []⟩) = ⟨runs, B ++ [y], [], []⟩ ∧
        SameSets y x := by
      rcases hp x (List.mem_of_getElem? hx) with ⟨h1, h2⟩ | h1
      · obtain ⟨z, i1, i2⟩ := passFrom_possible hS' h2 hq hR' ⟨runs, B, [], []⟩ rfl rfl
        refine ⟨z, ?_, i2⟩
        rw [i1]
        simp only [closePass, List.nil_append]
        rw [if_neg (fun h => SameSets.nonempty i2 h1 h.1)]
      · refine ⟨[[]], ?_, by rw [h1]; exact .cons (fun _ => Iff.rfl) .nil⟩
        rw [passFrom_nothing hS' (fun n hn p' h => by rw [hR' n hn p' h, h1]; simp) _ rfl rfl]
        simp [closePass]
    obtain ⟨y, k1, k2⟩ := key
    simp only [List.length_cons, reference]
    rw [hS' _ rfl, if_neg (by simp), k1]
    exact reference_timetable hq hR hS hp runs T2 (T1 ++ [x]) (B ++ [y]) (by rw [hT]; simp) (All2.snoc hB k2)

/-! ## Timetables in the code -/

theorem bares_atPasses {cs : List (Cond α κ W)} : ∀ {ks : List Nat},
    bares cs = ks.map (fun (k : Nat) => .leaf 0 (.atPass (k : Int) .environment_state_update)) →
    All2 (fun c (k : Nat) => ∃ o, c = .leaf o (.atPass (k : Int) .environment_state_update)) cs ks := by
  induction cs with
  | nil => intro ks h; cases ks with
    | nil => exact .nil
    | cons => simp [bares] at h
  | cons c cs ih =>
    intro ks h
    cases ks with
    | nil => simp [bares] at h
    | cons k ks =>
      simp only [bares, List.map_cons, List.cons.injEq] at h
      refine .cons ?_ (ih h.2)
      cases c with
      | leaf o l => simp only [bare, Cond.leaf.injEq, true_and] at h; exact ⟨o, by rw [h.1]⟩
      | _ => simp [bare] at h

theorem Spec.IsAtPasses.shape {ks : List Nat} {c : Cond α κ W} (h : IsAtPasses ks c) :
    ∃ o cs, c = .any o cs ∧
      All2 (fun c (k : Nat) => ∃ o, c = .leaf o (.atPass (k : Int) .environment_state_update)) cs ks := by
  unfold IsAtPasses at h
  cases c with
  | any o cs => simp only [bare, Cond.any.injEq, true_and] at h; exact ⟨o, cs, rfl, bares_atPasses h⟩
  | _ => simp [bare] at h

theorem Spec.IsAtPasses.holds {ks : List Nat} {c : Cond α κ W} (h : IsAtPasses ks c) (e : Around α κ W)
    (own : Option α) (p : Past α) : holds e own p c = decide (p.before.length ∈ ks) := by
  obtain ⟨o, cs, rfl, hk⟩ := h.shape
  clear h
  simp only [Spec.holds]
  induction hk with
  | nil => simp [holdsAny]
  | cons hx _ ih =>
    obtain ⟨o, rfl⟩ := hx
    simp only [holdsAny, ih, Spec.holds, holdsLeaf, List.mem_cons]
    rw [Bool.decide_or]
    congr 1
    rw [decide_eq_decide]
    show ((p.before.length : Nat) : Int) = _ ↔ _
    omega

theorem Spec.IsAtPasses.described {ks : List Nat} {c : Cond α κ W} (h : IsAtPasses ks c)
    (st : Store α κ) (own : Option α) : Described st own c := by
  obtain ⟨o, cs, rfl, hk⟩ := h.shape
  clear h
  refine .any ?_
  induction hk with
  | nil => simp
  | cons hx _ ih =>
    obtain ⟨o, rfl⟩ := hx
    intro c hc
    rcases List.mem_cons.1 hc with rfl | hc
    · exact .leaf (by simp [DescribedLeaf, TimeScale.val]) (by simp [UsesOwner])
    · exact ih c hc

theorem Spec.IsAtPasses.sane {ks : List Nat} {c : Cond α κ W} (h : IsAtPasses ks c)
    (S : Setting α κ W) (st : Store α κ) : Sane S st c := by
  obtain ⟨o, cs, rfl, hk⟩ := h.shape
  clear h
  simp only [Sane]
  induction hk with
  | nil => simp [SaneAll]
  | cons hx _ ih =>
    obtain ⟨o, rfl⟩ := hx
    exact ⟨trivial, ih⟩

theorem Spec.IsAtPasses.relative {ks : List Nat} {c : Cond α κ W} (h : IsAtPasses ks c) :
    c.isAbsolute = false := by
  obtain ⟨o, cs, rfl, hk⟩ := h.shape
  clear h
  simp only [Cond.isAbsolute]
  induction hk with
  | nil => rfl
  | cons hx _ ih =>
    obtain ⟨o, rfl⟩ := hx
    simp [anyAbsolute, Cond.isAbsolute, Leaf.isAbsolute, ih]

theorem Spec.AfterPasses.shape {N : Nat} {a : RunArgs α κ W} (h : AfterPasses N a) : ∃ o o',
    a.esu = .leaf o (.afterNPasses (N : Int) .environment_state_update) ∧ a.seq = .leaf o' .never := by
  obtain ⟨h1, h2⟩ := h
  revert h1 h2
  cases a.esu <;> cases a.seq <;> simp only [bare, Cond.leaf.injEq, true_and, reduceCtorEq, false_implies, implies_true]
  rintro rfl rfl
  exact ⟨_, _, ⟨rfl, rfl⟩, rfl, rfl⟩

theorem Spec.Timetable.described {T : List (List (List α))} {s : Sys α κ W} (h : Timetable T s)
    (hq : ∀ n ∈ s.queue.flatten, n ∈ s.nodes) : DescribedNodes s := by
  intro n hn
  obtain ⟨c, h1, h2⟩ := h n (hq n hn)
  exact ⟨hq n hn, .inl ⟨c, h1, h2.described _ _⟩⟩

theorem Spec.Timetable.rule {T : List (List (List α))} {s : Sys α κ W} (h : Timetable T s)
    (e : Around α κ W) {n : α} (hn : n ∈ s.nodes) (p : Past α) :
    rule s e n p = decide (p.before.length ∈ passesOf T n) := by
  obtain ⟨c, h1, h2⟩ := h n hn
  have := h2.holds e (some n) p
  obtain ⟨o, cs, rfl, _⟩ := h2.shape
  unfold Spec.rule
  rw [h1]
  exact this

theorem Spec.AfterPasses.stop {N : Nat} {a : RunArgs α κ W} (h : AfterPasses N a) (e : Around α κ W)
    (p : Past α) : stop a e p = decide (N ≤ p.before.length) := by
  obtain ⟨o, o', h1, h2⟩ := h.shape
  unfold Spec.stop
  rw [h1, h2]
  simp only [Spec.holds, holdsLeaf, Bool.or_false]
  rw [decide_eq_decide]
  show ((p.before.length : Nat) : Int) ≥ _ ↔ _
  omega

theorem Spec.AfterPasses.described {N : Nat} {a : RunArgs α κ W} (h : AfterPasses N a) : DescribedEnd a := by
  obtain ⟨o, o', h1, h2⟩ := h.shape
  intro st
  rw [h1, h2]
  exact ⟨.leaf (by simp [DescribedLeaf, TimeScale.val]) (by simp [UsesOwner]),
    .leaf (by simp [DescribedLeaf]) (by simp [UsesOwner])⟩

end GS
