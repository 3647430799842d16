import Verif.Spec.GoesFirst
import Verif.PatternLemmas
import Verif.RestateRule
/-!
# A node that goes first: the reference scheduler
-/

set_option linter.unusedSectionVars false

namespace GS
open Spec
variable {α κ W : Type _} [DecidableEq α] [DecidableEq κ]

section
variable {d n : α}

theorem since_has_snoc {x : α} {l : List α} :
    d ∈ since n (l ++ [x]) ↔ x ≠ n ∧ (x = d ∨ d ∈ since n l) := by
  rw [since_snoc]
  split
  · rename_i h; simp [h]
  · rename_i h; simp only [List.mem_append, List.mem_singleton]
    constructor
    · rintro (h' | rfl)
      · exact ⟨h, .inr h'⟩
      · exact ⟨h, .inl rfl⟩
    · rintro ⟨_, rfl | h'⟩
      · exact .inr rfl
      · exact .inl h'

theorem since_has_append {l x : List α} (h : n ∉ x) :
    d ∈ since n (l ++ x) ↔ d ∈ since n l ∨ d ∈ x := by
  rw [since_append_not_mem x l h, List.mem_append]

theorem since_has_not {l x : List α} (h : n ∈ x) (hd : d ∉ x) : d ∉ since n (l ++ x) :=
  fun hm => hd (since_suffix_part x l h d hm)

/-! ## The choice from one consideration set -/

variable {R : α → Past α → Bool}

theorem choice_steady {f : α → Bool} {l : List α} {p : Past α} (hp : p.next = [])
    (hR : ∀ n ∈ l, ∀ x : List α, (∀ m ∈ x, m ∈ l) → n ∉ x → R n { p with next := x } = f n) (n : α) :
    n ∈ choice R l p ↔ n ∈ l ∧ f n = true := by
  have thr : ∀ (ns x : List α), (∀ n ∈ ns, n ∈ l) → (∀ m ∈ x, m ∈ l) →
      ∃ y, goThrough R ns { p with next := x } = { p with next := y } ∧ (∀ m ∈ y, m ∈ l) ∧
      ∀ n, n ∈ y ↔ n ∈ x ∨ (n ∈ ns ∧ f n = true) := by
    intro ns
    induction ns with
    | nil => intro x _ h; exact ⟨x, rfl, h, by simp⟩
    | cons m ns ih =>
      intro x hs hx
      simp only [goThrough]
      by_cases h1 : m ∈ x
      · rw [if_pos h1]
        obtain ⟨y, i1, i2, i3⟩ := ih x (fun n hn => hs n (by simp [hn])) hx
        refine ⟨y, i1, i2, fun n => ?_⟩
        rw [i3]
        constructor
        · rintro (h | ⟨h, h'⟩)
          · exact .inl h
          · exact .inr ⟨by simp [h], h'⟩
        · rintro (h | ⟨h, h'⟩)
          · exact .inl h
          · rcases List.mem_cons.1 h with rfl | h
            · exact .inl h1
            · exact .inr ⟨h, h'⟩
      · rw [if_neg h1, hR m (hs m (by simp)) x hx h1]
        by_cases h2 : f m = true
        · rw [if_pos h2]
          obtain ⟨y, i1, i2, i3⟩ := ih (x ++ [m]) (fun n hn => hs n (by simp [hn])) (by
            intro k hk
            rcases List.mem_append.1 hk with hk | hk
            · exact hx k hk
            · rw [List.mem_singleton] at hk; subst hk; exact hs k (by simp))
          refine ⟨y, i1, i2, fun n => ?_⟩
          rw [i3]
          simp only [List.mem_append, List.mem_cons, List.not_mem_nil, or_false]
          constructor
          · rintro ((h | rfl) | ⟨h, h'⟩)
            · exact .inl h
            · exact .inr ⟨.inl rfl, h2⟩
            · exact .inr ⟨.inr h, h'⟩
          · rintro (h | ⟨rfl | h, h'⟩)
            · exact .inl (.inl h)
            · exact .inl (.inr rfl)
            · exact .inr ⟨h, h'⟩
        · rw [if_neg h2]
          obtain ⟨y, i1, i2, i3⟩ := ih x (fun n hn => hs n (by simp [hn])) hx
          refine ⟨y, i1, i2, fun n => ?_⟩
          rw [i3]
          constructor
          · rintro (h | ⟨h, h'⟩)
            · exact .inl h
            · exact .inr ⟨by simp [h], h'⟩
          · rintro (h | ⟨h, h'⟩)
            · exact .inl h
            · rcases List.mem_cons.1 h with rfl | h
              · exact absurd h' h2
              · exact .inr ⟨h, h'⟩
  have rnd : ∀ (k : Nat) (x : List α), (∀ m ∈ x, m ∈ l) →
      (∀ n, n ∈ x ↔ n ∈ l ∧ f n = true) →
      ∀ n, n ∈ (goRound R l k { p with next := x }).next ↔ n ∈ l ∧ f n = true := by
    intro k
    induction k with
    | zero => intro x _ h; exact h
    | succ k ih =>
      intro x hb h
      obtain ⟨y, i1, i2, i3⟩ := thr l x (fun _ h => h) hb
      simp only [goRound]
      rw [i1]
      exact ih y i2 fun n => by
        rw [i3, h]
        exact ⟨fun h => h.elim id id, .inl⟩
  unfold choice
  simp only [goRound]
  obtain ⟨y, i1, i2, i3⟩ := thr l [] (fun _ h => h) (by simp)
  have e : ({ p with next := [] } : Past α) = p := by rw [← hp]
  rw [e] at i1
  rw [i1]
  exact rnd _ y i2 (fun n => by rw [i3]; simp) n

variable {q : List (List α)} (hRd : ∀ p, R d p = true)
  (hRn : ∀ n ∈ q.flatten, n ≠ d → ∀ p : Past α, R n p = decide (d ∈ since n (p.inRun.flatten ++ p.next)))

include hRn in
/-- A set without `d`. -/
theorem choice_others {l : List α} {p : Past α} (hp : p.next = []) (hl : ∀ n ∈ l, n ∈ q.flatten)
    (hd : d ∉ l) (n : α) : n ∈ choice R l p ↔ n ∈ l ∧ d ∈ since n p.inRun.flatten := by
  rw [choice_steady (f := fun n => decide (d ∈ since n p.inRun.flatten)) hp]
  · simp
  · intro n hn x hx hnx
    rw [hRn n (hl n hn) (fun e => hd (e ▸ hn)), decide_eq_decide]
    show d ∈ since n (p.inRun.flatten ++ x) ↔ _
    rw [since_has_append hnx]
    exact ⟨fun h => h.elim id fun h => absurd (hx d h) hd, .inl⟩

/-- While a set with `d` is chosen. -/
structure FirstInv (d : α) (l I x : List α) : Prop where
  sub : ∀ m ∈ x, m ∈ l
  first : d ∉ x → x = []
  none : ∀ m ∈ x, m ≠ d → d ∉ since m (I ++ x)

include hRd hRn in
theorem goThrough_first {l : List α} (hl : ∀ n ∈ l, n ∈ q.flatten) {p : Past α}
    (hn : ∀ n ∈ l, n ≠ d → d ∉ since n p.inRun.flatten) : ∀ (ns x : List α), (∀ n ∈ ns, n ∈ l) →
      FirstInv d l p.inRun.flatten x → ∃ y, goThrough R ns { p with next := x } = { p with next := y } ∧
        FirstInv d l p.inRun.flatten y ∧ (∀ m ∈ x, m ∈ y) ∧ (d ∈ ns → d ∈ y) ∧
        (d ∈ x → ∀ m ∈ ns, m ∈ y)
  | [], x, _, hx => ⟨x, rfl, hx, fun _ h => h, by simp, by simp⟩
  | m :: ns, x, hs, hx => by
    simp only [goThrough]
    have hml := hs m (by simp)
    have hs' : ∀ n ∈ ns, n ∈ l := fun n h => hs n (by simp [h])
    by_cases h1 : m ∈ x
    · rw [if_pos h1]
      obtain ⟨y, i1, i2, i3, i4, i5⟩ := goThrough_first hl hn ns x hs' hx
      refine ⟨y, i1, i2, i3, fun h => ?_, fun h k hk => ?_⟩
      · rcases List.mem_cons.1 h with rfl | h
        · exact i3 _ h1
        · exact i4 h
      · rcases List.mem_cons.1 hk with rfl | hk
        · exact i3 _ h1
        · exact i5 h k hk
    · rw [if_neg h1]
      by_cases hmd : m = d
      · have hx0 := hx.first (hmd ▸ h1)
        subst hx0
        obtain ⟨y, i1, i2, i3, i4, i5⟩ := goThrough_first hl hn ns [m] hs'
          ⟨by simpa using hml, by simp [hmd], by simp [hmd]⟩
        rw [if_pos (by rw [hmd]; exact hRd _)]
        exact ⟨y, i1, i2, by simp, fun _ => hmd ▸ i3 m (by simp), by simp⟩
      · have hR := hRn m (hl m hml) hmd { p with next := x }
        rw [hR]
        show ∃ y, goThrough R ns (if decide (d ∈ since m (p.inRun.flatten ++ x)) = true then _ else _) = _ ∧ _
        by_cases hdx : d ∈ x
        · rw [if_pos (by rw [decide_eq_true_eq, since_has_append h1]; exact .inr hdx)]
          obtain ⟨y, i1, i2, i3, i4, i5⟩ := goThrough_first hl hn ns (x ++ [m]) hs' ⟨by
              intro k hk
              rcases List.mem_append.1 hk with hk | hk
              · exact hx.sub k hk
              · rw [List.mem_singleton] at hk; subst hk; exact hml,
            fun h => absurd (List.mem_append_left _ hdx) h, by
              intro k hk hkd
              rw [← List.append_assoc, since_has_snoc]
              rintro ⟨h2, h3⟩
              rcases List.mem_append.1 hk with hk | hk
              · exact hx.none k hk hkd (h3.elim (fun h => absurd h hmd) id)
              · rw [List.mem_singleton] at hk; exact h2 hk.symm⟩
          refine ⟨y, i1, i2, fun k hk => i3 k (List.mem_append_left _ hk), fun _ =>
            i3 d (List.mem_append_left _ hdx), fun _ k hk => ?_⟩
          rcases List.mem_cons.1 hk with rfl | hk
          · exact i3 _ (by simp)
          · exact i5 (List.mem_append_left _ hdx) k hk
        · have hx0 := hx.first hdx
          subst hx0
          rw [if_neg (by rw [List.append_nil, decide_eq_true_eq]; exact hn m hml hmd)]
          obtain ⟨y, i1, i2, i3, i4, i5⟩ := goThrough_first hl hn ns [] hs' hx
          refine ⟨y, i1, i2, i3, fun h => ?_, by simp⟩
          rcases List.mem_cons.1 h with h | h
          · exact absurd h.symm hmd
          · exact i4 h

include hRd hRn in
/-- The set with `d`. -/
theorem choice_first {l : List α} (hl : ∀ n ∈ l, n ∈ q.flatten) {p : Past α} (hp : p.next = [])
    (hd : d ∈ l) (hn : ∀ n ∈ l, n ≠ d → d ∉ since n p.inRun.flatten) :
    (∀ n, n ∈ choice R l p ↔ n ∈ l) ∧
    ∀ n ∈ l, n ≠ d → d ∉ since n (p.inRun.flatten ++ choice R l p) := by
  have e : ({ p with next := [] } : Past α) = p := by rw [← hp]
  obtain ⟨y, i1, i2, _, i4, _⟩ := goThrough_first hRd hRn hl hn l [] (fun _ h => h)
    ⟨by simp, by simp, by simp⟩
  rw [e] at i1
  have hdy := i4 hd
  have more : ∀ (k : Nat) (x : List α), d ∈ x → FirstInv d l p.inRun.flatten x → ∃ z,
      goRound R l (k + 1) { p with next := x } = { p with next := z } ∧
      FirstInv d l p.inRun.flatten z ∧ ∀ m ∈ l, m ∈ z := by
    intro k
    induction k with
    | zero =>
      intro x hdx hx
      obtain ⟨z, j1, j2, j3, j4, j5⟩ := goThrough_first hRd hRn hl hn l x (fun _ h => h) hx
      exact ⟨z, by simp only [goRound]; exact j1, j2, j5 hdx⟩
    | succ k ih =>
      intro x hdx hx
      obtain ⟨z, j1, j2, j3, j4, j5⟩ := goThrough_first hRd hRn hl hn l x (fun _ h => h) hx
      obtain ⟨z', k1, k2, k3⟩ := ih z (j3 d hdx) j2
      refine ⟨z', ?_, k2, k3⟩
      rw [goRound, j1]; exact k1
  obtain ⟨k, hk⟩ : ∃ k, l.length = k + 1 := ⟨l.length - 1, by
    have := List.length_pos_of_mem hd; omega⟩
  obtain ⟨z, j1, j2, j3⟩ := more k y hdy i2
  have hz : choice R l p = z := by
    unfold choice
    rw [goRound, i1, hk, j1]
  rw [hz]
  exact ⟨fun n => ⟨j2.sub n, j3 n⟩, fun n hnl hne => j2.none n (j3 n hnl) hne⟩

/-! ## The rest of a pass -/

variable {S : Past α → Bool}

theorem inRun_more (p : Past α) (z : List (List α)) :
    ({ p with now := p.now ++ z } : Past α).inRun.flatten = p.inRun.flatten ++ z.flatten := by
  simp [Past.inRun]

include hRn in
/-- Sets whose nodes do not execute. -/
theorem passFrom_asleep {rest : List (List α)} {p : Past α} (hp : p.next = []) :
    ∀ ls : List (List α), (∀ n ∈ ls.flatten, n ∈ q.flatten) → d ∉ ls.flatten →
      (∀ n ∈ ls.flatten, d ∉ since n p.inRun.flatten) → S p = false →
      passFrom false R S (ls ++ rest) p = passFrom false R S rest p
  | [], _, _, _, _ => rfl
  | l :: ls, h1, h2, h3, h4 => by
    simp only [List.flatten_cons, List.mem_append, not_or] at h1 h2 h3
    have hch : choice R l p = [] := by
      rw [List.eq_nil_iff_forall_not_mem]
      intro n hn
      rw [choice_others hRn hp (fun n hn => h1 n (.inl hn)) h2.1] at hn
      exact h3 n (.inl hn.1) hn.2
    simp only [List.cons_append, passFrom]
    rw [h4, if_neg (by simp), if_pos ⟨hch, trivial⟩]
    exact passFrom_asleep hp ls (fun n hn => h1 n (.inr hn)) h2.2 (fun n hn => h3 n (.inr hn)) h4

include hRn in
/-- Sets whose nodes all execute. -/
theorem passFrom_awake {rest : List (List α)} :
    ∀ (ls : List (List α)) (p : Past α), p.next = [] → (∀ l ∈ ls, l ≠ []) →
      (∀ n ∈ ls.flatten, n ∈ q.flatten) → d ∉ ls.flatten → ls.flatten.Nodup →
      (∀ n ∈ ls.flatten, d ∈ since n p.inRun.flatten) →
      (∀ a l b z, ls = a ++ l :: b → SameSets z a → S { p with now := p.now ++ z } = false) →
      ∃ z, SameSets z ls ∧
        passFrom false R S (ls ++ rest) p = passFrom false R S rest { p with now := p.now ++ z }
  | [], p, _, _, _, _, _, _, _ => ⟨[], .nil, by simp⟩
  | l :: ls, p, hp, h0, h1, h2, h3, h4, h5 => by
    simp only [List.flatten_cons, List.mem_append, not_or, List.nodup_append] at h1 h2 h3 h4
    have hch : SameMembers (choice R l p) l := by
      intro n
      rw [choice_others hRn hp (fun n hn => h1 n (.inl hn)) h2.1]
      exact ⟨And.left, fun h => ⟨h, h4 n (.inl h)⟩⟩
    have hne : choice R l p ≠ [] := by
      obtain ⟨m, hm⟩ := List.exists_mem_of_ne_nil l (h0 l (by simp))
      exact List.ne_nil_of_mem ((hch m).2 hm)
    have h6 : S p = false := by
      have := h5 [] l ls [] rfl .nil
      simpa using this
    obtain ⟨z, i1, i2⟩ := passFrom_awake (rest := rest) ls { p with now := p.now ++ [choice R l p] } hp
      (fun l hl => h0 l (by simp [hl])) (fun n hn => h1 n (.inr hn)) h2.2 h3.2.1
      (fun n hn => by
        rw [inRun_more, since_has_append]
        · exact .inl (h4 n (.inr hn))
        · simp only [List.flatten_cons, List.flatten_nil, List.append_nil]
          intro hm
          exact h3.2.2 n ((hch n).1 hm) n hn rfl)
      (fun a l' b z hz hs => by
        have := h5 (l :: a) l' b (choice R l p :: z) (by rw [hz]; rfl) (.cons hch hs)
        simpa using this)
    refine ⟨choice R l p :: z, .cons hch i1, ?_⟩
    simp only [List.cons_append, passFrom]
    rw [h6, if_neg (by simp), if_neg (fun h => hne h.1), i2]
    simp

include hRd hRn in
/-- From the set with `d` on. -/
theorem passFrom_first {L : List α} {Q : List (List α)} {p : Past α} (hp : p.next = []) (hd : d ∈ L)
    (h0 : ∀ l ∈ Q, l ≠ []) (h1 : ∀ n ∈ (L :: Q).flatten, n ∈ q.flatten) (h3 : (L :: Q).flatten.Nodup)
    (h4 : ∀ n ∈ L, n ≠ d → d ∉ since n p.inRun.flatten)
    (h5 : ∀ a l b z, L :: Q = a ++ l :: b → SameSets z a → S { p with now := p.now ++ z } = false) :
    ∃ z, SameSets z (L :: Q) ∧ passFrom false R S (L :: Q) p = { p with now := p.now ++ z } ∧
      ∀ n, n ≠ d → (d ∈ since n (p.inRun.flatten ++ z.flatten) ↔ n ∉ (L :: Q).flatten) := by
  simp only [List.flatten_cons, List.nodup_append] at h3
  obtain ⟨hch, haf⟩ := choice_first hRd hRn (fun n hn => h1 n (by simp [hn])) hp hd h4
  have hne : choice R L p ≠ [] := List.ne_nil_of_mem ((hch d).2 hd)
  have h6 : S p = false := by
    have := h5 [] L Q [] rfl .nil
    simpa using this
  have hdQ : d ∉ Q.flatten := fun h => h3.2.2 d hd d h rfl
  obtain ⟨z, i1, i2⟩ := passFrom_awake (S := S) hRn (rest := []) Q { p with now := p.now ++ [choice R L p] } hp
    h0 (fun n hn => h1 n (by simp only [List.flatten_cons, List.mem_append]; exact .inr hn)) hdQ h3.2.1
    (fun n hn => by
      rw [inRun_more, since_has_append]
      · right; simpa using (hch d).2 hd
      · simp only [List.flatten_cons, List.flatten_nil, List.append_nil]
        intro hm
        exact h3.2.2 n ((hch n).1 hm) n hn rfl)
    (fun a l' b z hz hs => by
      have := h5 (L :: a) l' b (choice R L p :: z) (by rw [hz]; rfl) (.cons hch hs)
      simpa using this)
  refine ⟨choice R L p :: z, .cons hch i1, ?_, fun n hnd => ?_⟩
  · rw [List.append_nil] at i2
    simp only [passFrom]
    rw [h6, if_neg (by simp), if_neg (fun h => hne h.1), i2]
    simp [passFrom]
  · have hz := i1.memFlat
    simp only [List.flatten_cons, List.mem_append]
    rw [← List.append_assoc]
    by_cases hQ : n ∈ Q.flatten
    · simp only [hQ, or_true, not_true_eq_false, iff_false]
      exact since_has_not ((hz n).2 hQ) (fun h => hdQ ((hz d).1 h))
    · rw [since_has_append (fun h => hQ ((hz n).1 h))]
      have hdz : d ∉ z.flatten := fun h => hdQ ((hz d).1 h)
      by_cases hL : n ∈ L
      · simp only [hL, true_or, not_true_eq_false, iff_false, not_or]
        exact ⟨haf n hL hnd, hdz⟩
      · simp only [hL, hQ, or_self, not_false_eq_true, iff_true]
        left
        rw [since_has_append (fun h => hL ((hch n).1 h))]
        exact .inr ((hch d).2 hd)

end

/-! ## Whole runs -/

/-- The set with `d`, and the sets before and after it. -/
theorem split_at_set {d : α} : ∀ {q : List (List α)}, d ∈ q.flatten →
    ∃ Q L Q', q = Q ++ L :: Q' ∧ d ∈ L ∧ d ∉ Q.flatten ∧ fromSet d q = L :: Q' ∧ beforeSet d q = Q
  | [], h => by simp at h
  | l :: q, h => by
    by_cases hl : d ∈ l
    · exact ⟨[], l, q, rfl, hl, by simp, by simp [fromSet, hl], by simp [beforeSet, hl]⟩
    · have hq : d ∈ q.flatten := by
        simp only [List.flatten_cons, List.mem_append] at h
        exact h.resolve_left hl
      obtain ⟨Q, L, Q', h1, h2, h3, h4, h5⟩ := split_at_set hq
      refine ⟨l :: Q, L, Q', by rw [h1]; rfl, h2, ?_, ?_, ?_⟩
      · simp only [List.flatten_cons, List.mem_append, not_or]; exact ⟨hl, h3⟩
      · unfold fromSet at h4 ⊢; rw [List.dropWhile_cons_of_pos (by simpa using hl), h4]
      · unfold beforeSet at h5 ⊢; rw [List.takeWhile_cons_of_pos (by simpa using hl), h5]

section
variable {d : α} {R : α → Past α → Bool} {S : Past α → Bool} {q Q Q' : List (List α)} {L : List α}
  {runs : List (List (List (List α)))}
variable (hRd : ∀ p, R d p = true)
  (hRn : ∀ n ∈ q.flatten, n ≠ d → ∀ p : Past α, R n p = decide (d ∈ since n (p.inRun.flatten ++ p.next)))
  (hq : q = Q ++ L :: Q') (hd : d ∈ L) (hdQ : d ∉ Q.flatten) (hnd : q.flatten.Nodup)
  (hne : ∀ l ∈ q, l ≠ [])

include hRd hRn hq hd hdQ hnd hne

theorem first_pass (h5 : ∀ a l b z, L :: Q' = a ++ l :: b → SameSets z a → S ⟨runs, [], z, []⟩ = false) :
    ∃ z, SameSets z (L :: Q') ∧ passFrom false R S q ⟨runs, [], [], []⟩ = ⟨runs, [], z, []⟩ ∧
      ∀ n ∈ q.flatten, n ≠ d → (d ∈ since n z.flatten ↔ n ∈ Q.flatten) := by
  subst hq
  have hnd' := hnd
  simp only [List.flatten_append, List.nodup_append] at hnd'
  have h6 : S ⟨runs, [], [], []⟩ = false := h5 [] L Q' [] rfl .nil
  have h0 : ∀ n : α, d ∉ since n (⟨runs, [], [], []⟩ : Past α).inRun.flatten := by
    intro n; simp [Past.inRun, since, afterLast]
  have e := passFrom_asleep (S := S) (rest := L :: Q') (p := ⟨runs, [], [], []⟩) hRn rfl Q
    (fun n hn => by simp only [List.flatten_append, List.mem_append]; exact .inl hn) hdQ
    (fun n _ => h0 n) h6
  obtain ⟨z, i1, i2, i3⟩ := passFrom_first (S := S) (L := L) (Q := Q') (p := ⟨runs, [], [], []⟩) hRd hRn rfl hd
    (fun l hl => hne l (by simp [hl]))
    (fun n hn => by rw [List.flatten_append, List.mem_append]; exact .inr hn) hnd'.2.1
    (fun n _ _ => h0 n) (fun a l b z h h' => h5 a l b z h h')
  refine ⟨z, i1, e.trans i2, fun n hn hnd => ?_⟩
  have := i3 n hnd
  simp only [Past.inRun, List.flatten_nil, List.nil_append] at this
  rw [this]
  rw [List.flatten_append, List.mem_append] at hn
  exact ⟨fun h => hn.resolve_right h, fun h h' => hnd'.2.2 n h n h' rfl⟩

theorem later_start {B : List (List (List α))}
    (hB : ∀ n ∈ q.flatten, n ≠ d → (d ∈ since n B.flatten.flatten ↔ n ∈ Q.flatten))
    (h5 : ∀ a l b z, Q = a ++ l :: b → SameSets z a → S ⟨runs, B, z, []⟩ = false) :
    ∃ z, SameSets z Q ∧ passFrom false R S q ⟨runs, B, [], []⟩ =
      passFrom false R S (L :: Q') ⟨runs, B, z, []⟩ := by
  subst hq
  have hnd' := hnd
  simp only [List.flatten_append, List.nodup_append] at hnd'
  obtain ⟨z, i1, i2⟩ := passFrom_awake (S := S) (d := d) hRn (rest := L :: Q') Q ⟨runs, B, [], []⟩ rfl
    (fun l hl => hne l (by simp [hl]))
    (fun n hn => by rw [List.flatten_append, List.mem_append]; exact .inl hn) hdQ hnd'.1
    (fun n hn => by
      have := (hB n (by rw [List.flatten_append, List.mem_append]; exact .inl hn)
        (fun e => hdQ (e ▸ hn))).2 hn
      simpa [Past.inRun] using this)
    (fun a l b z h h' => h5 a l b z h h')
  exact ⟨z, i1, i2⟩

theorem later_pass {B : List (List (List α))}
    (hB : ∀ n ∈ q.flatten, n ≠ d → (d ∈ since n B.flatten.flatten ↔ n ∈ Q.flatten))
    (h5 : ∀ a l b z, q = a ++ l :: b → SameSets z a → S ⟨runs, B, z, []⟩ = false) :
    ∃ z, SameSets z q ∧ passFrom false R S q ⟨runs, B, [], []⟩ = ⟨runs, B, z, []⟩ ∧
      ∀ n ∈ q.flatten, n ≠ d → (d ∈ since n (B.flatten.flatten ++ z.flatten) ↔ n ∈ Q.flatten) := by
  obtain ⟨z, i1, i2⟩ := later_start (S := S) (runs := runs) hRd hRn hq hd hdQ hnd hne hB
    (fun a l b z h h' => h5 a l (b ++ L :: Q') z (by rw [hq, h]; simp) h')
  subst hq
  have hnd' := hnd
  simp only [List.flatten_append, List.nodup_append] at hnd'
  have hz := i1.memFlat
  obtain ⟨y, j1, j2, j3⟩ := passFrom_first (S := S) (L := L) (Q := Q') (p := ⟨runs, B, z, []⟩) hRd hRn rfl hd
    (fun l hl => hne l (by simp [hl]))
    (fun n hn => by rw [List.flatten_append, List.mem_append]; exact .inr hn) hnd'.2.1
    (fun n hn hnd => by
      have hnq : n ∉ Q.flatten := fun h => hnd'.2.2 n h n (by simp [hn]) rfl
      simp only [Past.inRun, List.flatten_append]
      rw [since_has_append (fun h => hnq ((hz n).1 h))]
      rintro (h | h)
      · exact hnq ((hB n (by simp [hn]) hnd).1 h)
      · exact hdQ ((hz d).1 h))
    (fun a l b y h h' => h5 (Q ++ a) l b (z ++ y) (by rw [h]; simp) (i1.append h'))
  refine ⟨z ++ y, i1.append j1, i2.trans j2, fun n hn hnd => ?_⟩
  have := j3 n hnd
  simp only [Past.inRun, List.flatten_append, List.append_assoc] at this
  simp only [List.flatten_append]
  rw [this]
  rw [List.flatten_append, List.mem_append] at hn
  exact ⟨fun h => hn.resolve_right h, fun h h' => hnd'.2.2 n h n h' rfl⟩

/-- A run of `N` passes. -/
theorem reference_first_passes {N : Nat} (hS : ∀ p, S p = decide (N ≤ p.before.length)) :
    ∀ k, k ≤ N → ∃ B, reference false R S q k ⟨runs, [], [], []⟩ = ⟨runs, B, [], []⟩ ∧
      SamePasses B (((L :: Q') :: List.replicate (k - 1) q).take k) ∧
      (1 ≤ k → ∀ n ∈ q.flatten, n ≠ d → (d ∈ since n B.flatten.flatten ↔ n ∈ Q.flatten)) := by
  have close : ∀ (B : List (List (List α))) (z : List (List α)), z ≠ [] →
      closePass false (⟨runs, B, z, []⟩ : Past α) = ⟨runs, B ++ [z], [], []⟩ := by
    intro B z hz; simp [closePass, hz]
  intro k
  induction k with
  | zero => intro _; exact ⟨[], rfl, .nil, by simp⟩
  | succ k ih =>
    intro hk
    obtain ⟨B, i1, i2, i3⟩ := ih (by omega)
    have hlen := All2.length i2
    have hBk : B.length = k := by rw [hlen]; simp; omega
    have hS' : ∀ z, S ⟨runs, B, z, []⟩ = false := by intro z; rw [hS]; simp; omega
    rw [reference_succ, i1, hS', if_neg (by simp)]
    by_cases hk0 : k = 0
    · subst hk0
      have hB0 : B = [] := List.eq_nil_of_length_eq_zero hBk
      subst hB0
      obtain ⟨z, j1, j2, j3⟩ := first_pass (S := S) (runs := runs) hRd hRn hq hd hdQ hnd hne
        (fun _ _ _ z _ _ => hS' z)
      refine ⟨[z], ?_, ?_, fun _ n hn hnd => ?_⟩
      · rw [j2, close _ _ (SameSets.nonempty j1 (by simp))]; rfl
      · exact All2.cons (R := SameSets) j1 All2.nil
      · have := j3 n hn hnd
        simpa using this
    · obtain ⟨z, j1, j2, j3⟩ := later_pass (S := S) (runs := runs) hRd hRn hq hd hdQ hnd hne
        (i3 (by omega)) (fun _ _ _ z _ _ => hS' z)
      refine ⟨B ++ [z], ?_, ?_, fun _ n hn hnd => ?_⟩
      · rw [j2, close _ _ (SameSets.nonempty j1 (by rw [hq]; simp))]
      · obtain ⟨m, rfl⟩ : ∃ m, k = m + 1 := ⟨k - 1, by omega⟩
        simp only [Nat.add_sub_cancel, List.take_succ_cons] at i2 ⊢
        rw [List.take_of_length_le (by simp)] at i2 ⊢
        rw [List.replicate_succ', ← List.cons_append]
        exact All2.snoc i2 j1
      · have := j3 n hn hnd
        simpa using this

/-- A run until all nodes have executed. -/
theorem reference_first_all (hS : ∀ p : Past α, p.next = [] →
      (S p = true ↔ ∀ n ∈ q.flatten, n ∈ p.inRun.flatten)) :
    ∃ B, reference false R S q 2 ⟨runs, [], [], []⟩ = ⟨runs, B, [], []⟩ ∧
      SameSets B.flatten (L :: Q' ++ Q) ∧ S ⟨runs, B, [], []⟩ = true := by
  have close : ∀ (B : List (List (List α))) (z : List (List α)), z ≠ [] →
      closePass false (⟨runs, B, z, []⟩ : Past α) = ⟨runs, B ++ [z], [], []⟩ := by
    intro B z hz; simp [closePass, hz]
  have hnd' := hnd
  rw [hq] at hnd'
  simp only [List.flatten_append, List.nodup_append] at hnd'
  have goes : ∀ (B : List (List (List α))) (z : List (List α)) (n : α), n ∈ q.flatten →
      n ∉ (B.flatten ++ z).flatten → S ⟨runs, B, z, []⟩ = false := by
    intro B z n h1 h2
    rw [Bool.eq_false_iff]
    intro h
    exact h2 ((hS _ rfl).1 h n h1)
  -- the first pass
  have hS1 : ∀ a l b z, L :: Q' = a ++ l :: b → SameSets z a → S ⟨runs, [], z, []⟩ = false := by
    intro a l b z h h'
    obtain ⟨n, hn⟩ := List.exists_mem_of_ne_nil l (hne l (by rw [hq, h]; simp))
    refine goes _ _ n (by rw [hq, h]; simp [hn]) fun hm => ?_
    rw [List.flatten_nil, List.nil_append, h'.memFlat] at hm
    have := hnd'.2.1
    rw [h, List.flatten_append, List.nodup_append] at this
    exact this.2.2 n hm n (by simp [hn]) rfl
  obtain ⟨z, j1, j2, j3⟩ := first_pass (S := S) (runs := runs) hRd hRn hq hd hdQ hnd hne hS1
  have hz := j1.memFlat
  have e1 : reference false R S q 1 ⟨runs, [], [], []⟩ = ⟨runs, [z], [], []⟩ := by
    rw [reference_succ, reference, hS1 [] L Q' [] rfl .nil, if_neg (by simp), j2,
      close _ _ (SameSets.nonempty j1 (by simp))]
    rfl
  by_cases hQ : Q = []
  · subst hQ
    have hst : S ⟨runs, [z], [], []⟩ = true := by
      rw [hS _ rfl]
      intro n hn
      rw [hq, List.nil_append] at hn
      simp only [Past.inRun, List.append_nil, List.flatten_cons, List.flatten_nil]
      exact (hz n).2 hn
    refine ⟨[z], ?_, by simpa using j1, hst⟩
    rw [reference_succ, e1, hst, if_pos rfl]
  · -- the second pass
    have hS2 : ∀ a l b y, Q = a ++ l :: b → SameSets y a → S ⟨runs, [z], y, []⟩ = false := by
      intro a l b y h h'
      obtain ⟨n, hn⟩ := List.exists_mem_of_ne_nil l (hne l (by rw [hq, h]; simp))
      have hnQ : n ∈ Q.flatten := by rw [h]; simp [hn]
      refine goes _ _ n (by rw [hq]; simp only [List.flatten_append, List.mem_append]; exact .inl hnQ) fun hm => ?_
      simp only [List.flatten_cons, List.flatten_nil, List.append_nil, List.flatten_append, List.mem_append] at hm
      rcases hm with hm | hm
      · exact hnd'.2.2 n hnQ n ((hz n).1 hm) rfl
      · rw [h'.memFlat] at hm
        have := hnd'.1
        rw [h, List.flatten_append, List.nodup_append] at this
        exact this.2.2 n hm n (by simp [hn]) rfl
    obtain ⟨y, k1, k2⟩ := later_start (S := S) (runs := runs) (B := [z]) hRd hRn hq hd hdQ hnd hne
      (fun n hn hnd => by have := j3 n hn hnd; simpa using this) hS2
    have hy := k1.memFlat
    have hst : S ⟨runs, [z], y, []⟩ = true := by
      rw [hS _ rfl]
      intro n hn
      rw [hq, List.flatten_append, List.mem_append] at hn
      simp only [Past.inRun, List.flatten_cons, List.flatten_nil, List.append_nil, List.flatten_append,
        List.mem_append]
      exact hn.elim (fun h => .inr ((hy n).2 h)) fun h => .inl ((hz n).2 h)
    have e2 : reference false R S q 2 ⟨runs, [], [], []⟩ = ⟨runs, [z, y], [], []⟩ := by
      rw [reference_succ, e1]
      obtain ⟨a, l, h⟩ : ∃ l b, Q = l :: b := by
        cases Q with
        | nil => exact absurd rfl hQ
        | cons l b => exact ⟨l, b, rfl⟩
      rw [hS2 [] a l [] (by rw [h]; rfl) .nil, if_neg (by simp), k2]
      simp only [passFrom]
      rw [hst, if_pos rfl, close _ _ (SameSets.nonempty k1 hQ)]
      rfl
    refine ⟨[z, y], e2, ?_, ?_⟩
    · simpa using j1.append k1
    · rw [hS _ rfl] at hst ⊢
      intro n hn
      have := hst n hn
      simpa [Past.inRun] using this

end

end GS
