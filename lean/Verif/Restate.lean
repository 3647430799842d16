import Verif.Spec.Restate
import Verif.ReferenceSim
import Verif.Order
/-!
# The reference scheduler does not depend on the order of sets
-/

set_option linter.unusedSectionVars false

namespace GS
open Spec
variable {α κ W : Type _} [DecidableEq α] [DecidableEq κ]

/-! ## Lists related one by one -/

section
variable {β γ : Type _} {P : β → γ → Prop}

theorem Spec.All2.append {xs zs : List β} {ys ws : List γ} (h : All2 P xs ys) (h' : All2 P zs ws) :
    All2 P (xs ++ zs) (ys ++ ws) := by
  induction h with
  | nil => exact h'
  | cons h1 _ ih => exact .cons h1 ih

theorem Spec.All2.length {xs : List β} {ys : List γ} (h : All2 P xs ys) : ys.length = xs.length := by
  induction h with
  | nil => rfl
  | cons _ _ ih => simp [ih]

theorem Spec.All2.symm {xs : List β} {ys : List γ} (h : All2 P xs ys) :
    All2 (fun y x => P x y) ys xs := by
  induction h with
  | nil => exact .nil
  | cons h1 _ ih => exact .cons h1 ih

theorem Spec.All2.mono {Q : β → γ → Prop} (hPQ : ∀ x y, P x y → Q x y) {xs : List β} {ys : List γ}
    (h : All2 P xs ys) : All2 Q xs ys := by
  induction h with
  | nil => exact .nil
  | cons h1 _ ih => exact .cons (hPQ _ _ h1) ih

theorem Spec.All2.flatten {xs : List (List β)} {ys : List (List γ)} (h : All2 (All2 P) xs ys) :
    All2 P xs.flatten ys.flatten := by
  induction h with
  | nil => exact .nil
  | cons h1 _ ih => simpa using h1.append ih

theorem Spec.All2.get {xs : List β} {ys : List γ} (h : All2 P xs ys) {i : Nat} {x : β} {y : γ}
    (hx : xs[i]? = some x) (hy : ys[i]? = some y) : P x y := by
  induction h generalizing i with
  | nil => simp at hx
  | cons h1 _ ih =>
    cases i with
    | zero => simp at hx hy; subst hx hy; exact h1
    | succ i => simp at hx hy; exact ih hx hy

theorem Spec.All2.getLast {xs : List β} {ys : List γ} (h : All2 P xs ys) :
    (xs.getLast? = none ∧ ys.getLast? = none) ∨
      ∃ x y, xs.getLast? = some x ∧ ys.getLast? = some y ∧ P x y := by
  induction h with
  | nil => exact .inl ⟨rfl, rfl⟩
  | @cons x y xs ys h1 h2 ih =>
    refine .inr ?_
    rcases ih with ⟨e1, e2⟩ | ⟨x', y', e1, e2, h3⟩
    · rw [List.getLast?_eq_none_iff] at e1 e2
      subst e1 e2
      exact ⟨x, y, rfl, rfl, h1⟩
    · exact ⟨x', y', by simp [List.getLast?_cons, e1], by simp [List.getLast?_cons, e2], h3⟩
end

/-- The same sets, up to the order of their elements. -/
abbrev Perms : List (List α) → List (List α) → Prop := All2 List.Perm

theorem Perms.sameSets {xs ys : List (List α)} (h : Perms xs ys) : SameSets xs ys := by
  induction h with
  | nil => exact .nil
  | cons h1 _ ih => exact .cons (fun _ => h1.mem_iff) ih

theorem Perms.flat {xs ys : List (List α)} (h : Perms xs ys) : xs.flatten.Perm ys.flatten := by
  induction h with
  | nil => exact .refl _
  | cons h1 _ ih => simpa using h1.append ih

theorem perm_of_members {x y : List α} (hx : x.Nodup) (hy : y.Nodup) (h : SameMembers x y) :
    x.Perm y := by
  rw [List.perm_iff_count]
  intro n
  rw [hx.count, hy.count]
  simp [h n]

/-! ## The past -/

/-- The same past, up to the order inside the sets, all of which are parts of consideration sets. -/
structure PastLike (q : List (List α)) (p p' : Past α) : Prop where
  runs : All2 (All2 Perms) p.runs p'.runs
  before : All2 Perms p.before p'.before
  now : Perms p.now p'.now
  inside : ∀ x ∈ p.inRun, ∀ m ∈ x, ∀ n ∈ x, ∃ l ∈ q, m ∈ l ∧ n ∈ l

theorem PastLike.inRun {q : List (List α)} {p p' : Past α} (h : PastLike q p p') :
    Perms p.inRun p'.inRun := h.before.flatten.append h.now

theorem PastLike.all {q : List (List α)} {p p' : Past α} (h : PastLike q p p') :
    Perms p.all p'.all := h.runs.flatten.flatten.append h.inRun

theorem PastLike.symm {q q' : List (List α)} {p p' : Past α} (h : PastLike q p p')
    (hq : SameSets q q') : PastLike q' p' p := by
  have e : ∀ {x y : List (List α)}, Perms x y → Perms y x := fun h => h.symm.mono fun _ _ k => k.symm
  refine ⟨h.runs.symm.mono fun _ _ k => k.symm.mono fun _ _ k => e k,
    h.before.symm.mono fun _ _ k => e k, e h.now, fun x hx m hm n hn => ?_⟩
  obtain ⟨i, hi, hix⟩ := List.getElem_of_mem hx
  have hlt : i < p.inRun.length := by rw [← h.inRun.length]; exact hi
  have hp := h.inRun.get (List.getElem?_eq_getElem hlt) (List.getElem?_eq_getElem hi)
  rw [hix] at hp
  obtain ⟨l, hl, k1, k2⟩ := h.inside _ (List.getElem_mem hlt) m (hp.mem_iff.2 hm) n (hp.mem_iff.2 hn)
  obtain ⟨l', hl', hll'⟩ := hq.mem l hl
  exact ⟨l', hl', (hll' m).1 k1, (hll' n).1 k2⟩

/-! ## The choice -/

/-- Whatever `R` has chosen, and whatever else has been chosen with it, `R'` chooses too. -/
def Climbs (q : List (List α)) (R R' : α → Past α → Bool) : Prop :=
  ∀ (p p' : Past α) (l X Y : List α) (n : α), PastLike q p p' → l ∈ q → n ∈ l →
    X.Nodup → Y.Nodup → (∀ x ∈ X, x ∈ Y) → (∀ y ∈ Y, y ∈ l) → n ∉ Y →
    R n { p with next := X } = true → R' n { p' with next := Y } = true

section
variable {R R' : α → Past α → Bool}

theorem goThrough_grow : ∀ (ns : List α) (p : Past α), p.next <+: (goThrough R ns p).next
  | [], _ => List.prefix_refl _
  | n :: ns, p => by
    simp only [goThrough]
    refine List.IsPrefix.trans ?_ (goThrough_grow ns _)
    split
    · exact List.prefix_refl _
    · split
      · exact List.prefix_append _ _
      · exact List.prefix_refl _

theorem goThrough_part {l : List α} : ∀ (ns : List α) (p : Past α), (∀ n ∈ ns, n ∈ l) →
    p.next.Nodup → (∀ x ∈ p.next, x ∈ l) →
    (goThrough R ns p).next.Nodup ∧ ∀ x ∈ (goThrough R ns p).next, x ∈ l
  | [], _, _, h1, h2 => ⟨h1, h2⟩
  | n :: ns, p, hns, h1, h2 => by
    simp only [goThrough]
    refine goThrough_part ns _ (fun m hm => hns m (by simp [hm])) ?_ ?_
    · split
      · exact h1
      · rename_i hn
        split
        · exact List.nodup_append.2 ⟨h1, by simp, by rintro x hx y hy rfl; simp at hy; subst hy; exact hn hx⟩
        · exact h1
    · split
      · exact h2
      · split
        · intro x hx
          rcases List.mem_append.1 hx with hx | hx
          · exact h2 x hx
          · simp at hx; subst hx; exact hns x (by simp)
        · exact h2

theorem goRound_part {l : List α} : ∀ (k : Nat) (p : Past α), p.next.Nodup → (∀ x ∈ p.next, x ∈ l) →
    (goRound R l k p).next.Nodup ∧ ∀ x ∈ (goRound R l k p).next, x ∈ l
  | 0, _, h1, h2 => ⟨h1, h2⟩
  | k + 1, p, h1, h2 => by
    obtain ⟨h3, h4⟩ := goThrough_part (R := R) l p (fun _ h => h) h1 h2
    exact goRound_part k _ h3 h4

theorem goRound_frame {l : List α} : ∀ (k : Nat) (p : Past α),
    goRound R l k p = { p with next := (goRound R l k p).next }
  | 0, _ => rfl
  | k + 1, p => by
    simp only [goRound]
    rw [goRound_frame k (goThrough R l p), goThrough_frame l p]

/-- After enough rounds nothing is added any more. -/
theorem goRound_done {l : List α} : ∀ (k : Nat) (p : Past α),
    goThrough R l (goRound R l k p) = goRound R l k p ∨
      p.next.length + k ≤ (goRound R l k p).next.length
  | 0, _ => .inr (Nat.le_refl _)
  | k + 1, p => by
    by_cases hp : goThrough R l p = p
    · left; rw [goRound_fix hp]; exact hp
    · have hlen : p.next.length + 1 ≤ (goThrough R l p).next.length := by
        have k1 := goThrough_grow (R := R) l p
        rcases Nat.lt_or_ge p.next.length (goThrough R l p).next.length with h | h
        · exact h
        · exfalso
          have e := k1.eq_of_length (Nat.le_antisymm k1.length_le h)
          apply hp
          rw [goThrough_frame, ← e]
      rcases goRound_done (l := l) k (goThrough R l p) with h | h
      · exact .inl h
      · right; simp only [goRound]; omega

theorem choice_fix {l : List α} {p : Past α} (hp : p.next = []) :
    goThrough R l { p with next := choice R l p } = { p with next := choice R l p } := by
  have h1 := goRound_done (R := R) (l := l) (l.length + 1) p
  have h2 := goRound_part (R := R) (l := l) (l.length + 1) p (by rw [hp]; exact .nil) (by rw [hp]; simp)
  have h3 := nodup_length_le h2.1 h2.2
  have h4 := goRound_frame (R := R) (l := l) (l.length + 1) p
  unfold choice
  rw [← h4]
  rcases h1 with h | h
  · exact h
  · omega

theorem fix_rule : ∀ {ns : List α} {p : Past α}, goThrough R ns p = p →
    ∀ n ∈ ns, n ∉ p.next → R n p = false
  | m :: ns, p, h, n, hn, hnn => by
    simp only [goThrough] at h
    have hs : (if m ∈ p.next then p else if R m p then { p with next := p.next ++ [m] } else p) = p := by
      split
      · rfl
      · split
        · rename_i hm hR
          exfalso
          rw [if_neg hm, if_pos hR] at h
          have k := (goThrough_grow (R := R) ns { p with next := p.next ++ [m] }).length_le
          rw [h] at k
          simp at k
          omega
        · rfl
    rcases List.mem_cons.1 hn with rfl | hn
    · rw [if_neg hnn] at hs
      cases hR : R n p with
      | false => rfl
      | true =>
        rw [if_pos hR] at hs
        have := congrArg (fun p => p.next.length) hs
        simp at this
    · rw [hs] at h
      exact fix_rule h n hn hnn

theorem choice_part {l : List α} {p : Past α} (hp : p.next = []) :
    (choice R l p).Nodup ∧ ∀ x ∈ choice R l p, x ∈ l :=
  goRound_part _ _ (by rw [hp]; exact .nil) (by rw [hp]; simp)

theorem goThrough_sub {q : List (List α)} (hc : Climbs q R R') {p p' : Past α} (hp : PastLike q p p')
    {l F : List α} (hl : l ∈ q) (hF : F.Nodup) (hFl : ∀ x ∈ F, x ∈ l)
    (hfix : ∀ n ∈ l, n ∉ F → R' n { p' with next := F } = false) :
    ∀ (ns X : List α), (∀ n ∈ ns, n ∈ l) → X.Nodup → (∀ x ∈ X, x ∈ F) →
      ∀ x ∈ (goThrough R ns { p with next := X }).next, x ∈ F
  | [], _, _, _, hX => hX
  | n :: ns, X, hns, hXn, hX => by
    simp only [goThrough]
    by_cases hn : n ∈ X
    · rw [if_pos hn]
      exact goThrough_sub hc hp hl hF hFl hfix ns X (fun m hm => hns m (by simp [hm])) hXn hX
    · rw [if_neg hn]
      split
      · rename_i hR
        refine goThrough_sub hc hp hl hF hFl hfix ns (X ++ [n]) (fun m hm => hns m (by simp [hm])) ?_ ?_
        · exact List.nodup_append.2 ⟨hXn, by simp, by rintro x hx y hy rfl; simp at hy; subst hy; exact hn hx⟩
        · intro x hx
          rcases List.mem_append.1 hx with hx | hx
          · exact hX x hx
          · simp at hx; subst hx
            refine Classical.byContradiction fun hxF => ?_
            have hxl := hns x (by simp)
            have := hc p p' l X F x hp hl hxl hXn hF hX hFl hxF hR
            rw [hfix x hxl hxF] at this
            cases this
      · exact goThrough_sub hc hp hl hF hFl hfix ns X (fun m hm => hns m (by simp [hm])) hXn hX

theorem choice_sub {q : List (List α)} (hc : Climbs q R R') {p p' : Past α} (hp : PastLike q p p')
    (hp0 : p.next = []) (hp0' : p'.next = [])
    {l l' : List α} (hl : l ∈ q) (hll : SameMembers l l') :
    ∀ x ∈ choice R l p, x ∈ choice R' l' p' := by
  obtain ⟨k1, k2⟩ := choice_part (R := R') (l := l') hp0'
  have k3 := fix_rule (choice_fix (R := R') (l := l') hp0')
  have key : ∀ (k : Nat) (X : List α), X.Nodup → (∀ x ∈ X, x ∈ choice R' l' p') →
      ∀ x ∈ (goRound R l k { p with next := X }).next, x ∈ choice R' l' p' := by
    intro k
    induction k with
    | zero => intro X _ h; exact h
    | succ k ih =>
      intro X h1 h2
      simp only [goRound]
      have h4 := goThrough_sub hc hp hl k1 (fun x hx => (hll x).2 (k2 x hx))
        (fun n hn hnn => k3 n ((hll n).1 hn) hnn) l X (fun _ h => h) h1 h2
      have h5 := (goThrough_part (R := R) (l := l) l { p with next := X } (fun _ h => h) h1
        (fun x hx => (hll x).2 (k2 x (h2 x hx)))).1
      have h6 := goThrough_frame (R := R) l { p with next := X }
      rw [h6]
      exact ih _ h5 h4
  have h7 := key (l.length + 1) [] .nil (by simp)
  have e : p = { p with next := [] } := by rw [← hp0]
  unfold choice
  rw [e]
  exact h7

theorem choice_perm {q q' : List (List α)} (hq : SameSets q q') (hc : Climbs q R R')
    (hc' : Climbs q' R' R) {p p' : Past α} (hp : PastLike q p p')
    (hp0 : p.next = []) (hp0' : p'.next = []) {l l' : List α} (hl : l ∈ q) (hl' : l' ∈ q')
    (hll : SameMembers l l') : (choice R l p).Perm (choice R' l' p') :=
  perm_of_members (choice_part hp0).1 (choice_part hp0').1 fun n =>
    ⟨choice_sub hc hp hp0 hp0' hl hll n,
      choice_sub hc' (hp.symm hq) hp0' hp0 hl' (fun x => (hll x).symm) n⟩

end

/-! ## Passes -/

section
variable {abs : Bool} {R R' : α → Past α → Bool} {T T' : Past α → Bool}

/-- Both decide to stop, or none. -/
def StopsLike (q : List (List α)) (T T' : Past α → Bool) : Prop :=
  ∀ p p' : Past α, PastLike q p p' → p.next = [] → p'.next = [] → T' p' = T p

theorem passFrom_like {q q' : List (List α)} (hq : SameSets q q') (hc : Climbs q R R')
    (hc' : Climbs q' R' R) (hT : StopsLike q T T') {m m' : List (List α)} (hm : SameSets m m') :
    (∀ l ∈ m, l ∈ q) → (∀ l ∈ m', l ∈ q') → ∀ p p' : Past α, PastLike q p p' → p.next = [] →
      p'.next = [] → PastLike q (passFrom abs R T m p) (passFrom abs R' T' m' p') := by
  induction hm with
  | nil => intro _ _ p p' h _ _; exact h
  | @cons l l' m m' hll _ ih =>
    intro h1 h2 p p' hp hp0 hp0'
    have ih := ih (fun x hx => h1 x (by simp [hx])) (fun x hx => h2 x (by simp [hx]))
    have hch := choice_perm hq hc hc' hp hp0 hp0' (h1 l (by simp)) (h2 l' (by simp)) hll
    simp only [passFrom, hT p p' hp hp0 hp0']
    split
    · exact hp
    · have e : (choice R l p = [] ∧ abs = false) ↔ (choice R' l' p' = [] ∧ abs = false) := by
        constructor
        · rintro ⟨k1, k2⟩; rw [k1] at hch; exact ⟨hch.symm.eq_nil, k2⟩
        · rintro ⟨k1, k2⟩; rw [k1] at hch; exact ⟨hch.eq_nil, k2⟩
      by_cases hb : choice R l p = [] ∧ abs = false
      · rw [if_pos hb, if_pos (e.1 hb)]
        exact ih p p' hp hp0 hp0'
      · rw [if_neg hb, if_neg (fun k => hb (e.2 k))]
        refine ih _ _ ⟨hp.runs, hp.before, hp.now.append (.cons hch .nil), ?_⟩ hp0 hp0'
        intro x hx
        simp only [Past.inRun, ← List.append_assoc, List.mem_append, List.mem_singleton] at hx
        rcases hx with hx | rfl
        · exact hp.inside x (by simpa [Past.inRun] using hx)
        · exact fun m hm n hn => ⟨l, h1 l (by simp), (choice_part hp0).2 m hm, (choice_part hp0).2 n hn⟩

theorem closePass_like {q : List (List α)} {p p' : Past α} (hp : PastLike q p p') :
    PastLike q (closePass abs p) (closePass abs p') := by
  have e : (p.now = [] ∧ abs = false) ↔ (p'.now = [] ∧ abs = false) := by
    have := hp.now.length
    constructor
    · rintro ⟨k1, k2⟩; rw [k1] at this; exact ⟨List.eq_nil_of_length_eq_zero this, k2⟩
    · rintro ⟨k1, k2⟩; rw [k1] at this; exact ⟨List.eq_nil_of_length_eq_zero this.symm, k2⟩
  unfold closePass
  refine ⟨hp.runs, hp.before.append (.cons ?_ .nil), .nil, ?_⟩
  · by_cases hb : p.now = [] ∧ abs = false
    · rw [if_pos hb, if_pos (e.1 hb)]; exact .cons (.refl _) .nil
    · rw [if_neg hb, if_neg (fun k => hb (e.2 k))]; exact hp.now
  · intro x hx
    simp only [Past.inRun, List.flatten_append, List.flatten_singleton, List.append_nil] at hx
    rcases List.mem_append.1 hx with hx | hx
    · exact hp.inside x (by simp [Past.inRun, hx])
    · split at hx
      · simp at hx
        intro m hm
        rw [hx] at hm; cases hm
      · exact hp.inside x (by simp [Past.inRun, hx])

theorem closePass_next {p : Past α} : (closePass abs p).next = p.next := rfl

/-- The reference scheduler yields the same sets. -/
theorem reference_like {q q' : List (List α)} (hq : SameSets q q') (hc : Climbs q R R')
    (hc' : Climbs q' R' R) (hT : StopsLike q T T') : ∀ (N : Nat) (p p' : Past α), PastLike q p p' →
      p.next = [] → p'.next = [] →
      PastLike q (reference abs R T q N p) (reference abs R' T' q' N p')
  | 0, _, _, h, _, _ => h
  | N + 1, p, p', hp, hp0, hp0' => by
    simp only [reference, hT p p' hp hp0 hp0']
    split
    · exact hp
    · refine reference_like hq hc hc' hT N _ _ (closePass_like
        (passFrom_like hq hc hc' hT hq (fun _ h => h) (fun _ h => h) p p' hp hp0 hp0')) ?_ ?_
      · rw [closePass_next, (passFrom_frame q p).2.2.1, hp0]
      · rw [closePass_next, (passFrom_frame q' p').2.2.1, hp0']

end
end GS
