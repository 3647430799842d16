import Verif.Spec.Recurrence
import Verif.AsOne
/-!
# Schedules pass by pass in the reference scheduler
-/

set_option linter.unusedSectionVars false

namespace GS
open Spec
variable {α κ W : Type _} [DecidableEq α] [DecidableEq κ]

section
variable {R : α → Past α → Bool} {T : Past α → Bool} {abs : Bool}

theorem passFrom_append : ∀ (q1 q2 : List (List α)) (p : Past α),
    passFrom abs R T (q1 ++ q2) p = passFrom abs R T q2 (passFrom abs R T q1 p)
  | [], _, _ => rfl
  | l :: q1, q2, p => by
    simp only [List.cons_append, passFrom]
    by_cases hT : T p = true
    · rw [if_pos hT, if_pos hT]
      cases q2 with
      | nil => rfl
      | cons m q2 => simp only [passFrom]; rw [if_pos hT]
    · rw [if_neg hT, if_neg hT]
      split
      · exact passFrom_append q1 q2 p
      · exact passFrom_append q1 q2 _

/-- What a part of a pass adds. -/
theorem passFrom_adds : ∀ (q : List (List α)), q.flatten.Nodup → ∀ p : Past α, p.next = [] →
    ∃ r, (passFrom abs R T q p).now.flatten = p.now.flatten ++ r ∧ r.Nodup ∧ ∀ x ∈ r, x ∈ q.flatten
  | [], _, _, _ => ⟨[], by simp [passFrom], .nil, by simp⟩
  | l :: q, hq, p, h => by
    have hq' : q.flatten.Nodup ∧ ∀ x ∈ l, x ∉ q.flatten := by
      rw [List.flatten_cons, List.nodup_append] at hq
      exact ⟨hq.2.1, fun x hx hx' => hq.2.2 x hx x hx' rfl⟩
    simp only [passFrom]
    split
    · exact ⟨[], by simp, .nil, by simp⟩
    · split
      · obtain ⟨r, h1, h2, h3⟩ := passFrom_adds q hq'.1 p h
        exact ⟨r, h1, h2, fun x hx => by
          rw [List.flatten_cons]; exact List.mem_append_right _ (h3 x hx)⟩
      · obtain ⟨r, h1, h2, h3⟩ := passFrom_adds q hq'.1 { p with now := p.now ++ [choice R l p] } h
        have kp := choice_part (R := R) (l := l) h
        refine ⟨choice R l p ++ r, ?_, ?_, ?_⟩
        · rw [h1]; simp
        · rw [List.nodup_append]
          exact ⟨kp.1, h2, fun x hx y hy e => hq'.2 x (kp.2 x hx) (e ▸ h3 y hy)⟩
        · intro x hx
          rw [List.flatten_cons]
          rcases List.mem_append.1 hx with hx | hx
          · exact List.mem_append_left _ (kp.2 x hx)
          · exact List.mem_append_right _ (h3 x hx)

/-- A pass, seen from one node. -/
theorem passFrom_node {q : List (List α)} (hq : q.flatten.Nodup) {q1 : List (List α)} {l : List α}
    {q2 : List (List α)} (e : q = q1 ++ l :: q2) {n : α} (hn : n ∈ l)
    {runs : List (List (List (List α)))} {B : List (List (List α))}
    {p : Past α} (h1 : p.runs = runs) (h2 : p.before = B)
    (h3 : p.next = []) (h4 : p.now = []) :
    ∃ x y, (passFrom abs R T q p).now.flatten = x ++ y ∧ x.Nodup ∧ y.Nodup ∧ (∀ d ∈ x, d ∈ q1.flatten) ∧
      (∀ d ∈ y, d ∈ (l :: q2).flatten) ∧ ∀ b,
        (∀ N X, N.flatten = x → (∀ d ∈ X, d ∈ l) → n ∉ X → R n ⟨runs, B, N, X⟩ = b) →
        (n ∈ y → b = true) ∧ ((∀ p : Past α, p.before = B → T p = false) → b = true → n ∈ y) := by
  subst e
  have hp := nodup_parts hq rfl
  have hq2 := hq
  rw [List.flatten_append, List.nodup_append] at hq2
  obtain ⟨x, k1, k2, k3⟩ := passFrom_adds (abs := abs) (R := R) (T := T) q1 hq2.1 p h3
  have hf := passFrom_frame (abs := abs) (R := R) (T := T) q1 p
  rw [passFrom_append]
  rw [h4, List.flatten_nil, List.nil_append] at k1
  revert k1 hf
  generalize passFrom abs R T q1 p = p1
  intro k1 hf
  have g3 : p1.next = [] := hf.2.2.1.trans h3
  obtain ⟨y, j1, j2, j3⟩ := passFrom_adds (abs := abs) (R := R) (T := T) (l :: q2) hq2.2.1 p1 g3
  refine ⟨x, y, by rw [j1, k1], k2, j2, k3, j3, fun b hb => ?_⟩
  have hc : n ∈ choice R l p1 ↔ b = true := choice_decided g3 hn b fun X hX hnX => by
    have : ({ p1 with next := X } : Past α) = ⟨runs, B, p1.now, X⟩ := by
      rw [← h1, ← h2, ← hf.1, ← hf.2.1]
    rw [this]
    exact hb _ _ k1 hX hnX
  rw [← hc]
  by_cases hT1 : T p1 = true
  · have : passFrom abs R T (l :: q2) p1 = p1 := by simp only [passFrom]; rw [if_pos hT1]
    rw [this] at j1
    have : y = [] := List.append_cancel_left (j1.symm.trans (List.append_nil _).symm)
    subst this
    exact ⟨(fun h => by cases h), fun hT => by rw [hT p1 (hf.2.1.trans h2)] at hT1; cases hT1⟩
  have hq3 : q2.flatten.Nodup := by
    have := hq2.2.1
    rw [List.flatten_cons, List.nodup_append] at this
    exact this.2.1
  simp only [passFrom] at j1
  rw [if_neg hT1] at j1
  split at j1
  · rename_i hz
    obtain ⟨r, i1, i2, i3⟩ := passFrom_adds (abs := abs) (R := R) (T := T) q2 hq3 p1 g3
    rw [i1] at j1
    have := List.append_cancel_left j1
    subst this
    rw [hz.1]
    exact ⟨fun h => absurd (i3 n h) (hp.1 n hn).2, fun _ h => by cases h⟩
  · obtain ⟨r, i1, i2, i3⟩ := passFrom_adds (abs := abs) (R := R) (T := T) q2 hq3
      { p1 with now := p1.now ++ [choice R l p1] } g3
    rw [i1] at j1
    have e2 : (p1.now ++ [choice R l p1]).flatten ++ r = p1.now.flatten ++ (choice R l p1 ++ r) := by simp
    have := List.append_cancel_left (e2.symm.trans j1)
    subst this
    rw [List.mem_append]
    exact ⟨fun h => h.resolve_right fun h => (hp.1 n hn).2 (i3 n h), fun _ => .inl⟩

end

/-- A pass goes through the sets in order, and no node executes twice in it. -/
def OrderedPass (q : List (List α)) (P : List (List α)) : Prop :=
  P.flatten.Nodup ∧ ∀ q1 q2, q = q1 ++ q2 → ∃ x y, P.flatten = x ++ y ∧
    (∀ d ∈ x, d ∈ q1.flatten) ∧ ∀ d ∈ y, d ∈ q2.flatten

theorem passFrom_ordered {R : α → Past α → Bool} {T : Past α → Bool} {abs : Bool} {q : List (List α)}
    (hq : q.flatten.Nodup) {p : Past α} (h3 : p.next = []) (h4 : p.now = []) :
    OrderedPass q (passFrom abs R T q p).now := by
  constructor
  · obtain ⟨r, h1, h2, _⟩ := passFrom_adds (abs := abs) (R := R) (T := T) q hq p h3
    rw [h1, h4]
    exact h2
  · intro q1 q2 e
    subst e
    rw [List.flatten_append, List.nodup_append] at hq
    rw [passFrom_append]
    obtain ⟨x, h1, _, h2⟩ := passFrom_adds (abs := abs) (R := R) (T := T) q1 hq.1 p h3
    obtain ⟨y, k1, _, k2⟩ := passFrom_adds (abs := abs) (R := R) (T := T) q2 hq.2.1 (passFrom abs R T q1 p)
      ((passFrom_frame (abs := abs) (R := R) (T := T) q1 p).2.2.1.trans h3)
    exact ⟨x, y, by rw [k1, h1, h4]; rfl, h2, k2⟩

theorem count_passes {q : List (List α)} (d : α) : ∀ B : List (List (List α)), (∀ P ∈ B, OrderedPass q P) →
    B.flatten.flatten.count d = passesWith d B
  | [], _ => rfl
  | P :: B, h => by
    rw [List.flatten_cons, List.flatten_append, List.count_append,
      count_passes d B fun x hx => h x (List.mem_cons_of_mem _ hx)]
    unfold passesWith
    rw [List.countP_cons, (h P List.mem_cons_self).1.count, Nat.add_comm]
    simp

theorem since_passes {q q1 : List (List α)} {l : List α} {q2 : List (List α)} (hq : q.flatten.Nodup)
    (e : q = q1 ++ l :: q2) {n d : α} (hn : n ∈ l) (hd : d ∈ q1.flatten) (B : List (List (List α))) :
    (∀ P ∈ B, OrderedPass q P) →
    (since n B.flatten.flatten).count d =
      passesWith d (afterLast (fun p => decide (n ∈ p.flatten)) B) := by
  have hp := nodup_parts hq e
  induction B using snocInd with
  | h0 => intro _; rfl
  | h1 B P ih =>
    intro h
    have ih := ih fun x hx => h x (List.mem_append_left _ hx)
    obtain ⟨k1, k2⟩ := h P (by simp)
    have e2 : (B ++ [P]).flatten.flatten = B.flatten.flatten ++ P.flatten := by simp
    rw [e2, afterLast_snoc]
    by_cases hP : n ∈ P.flatten
    · rw [if_pos (by simpa using hP)]
      obtain ⟨x, y, g1, g2, g3⟩ := k2 q1 (l :: q2) e
      have hny : n ∈ y := by
        rw [g1, List.mem_append] at hP
        exact hP.resolve_left fun hx => (hp.1 n hn).1 (g2 n hx)
      refine List.count_eq_zero_of_not_mem fun hm => ?_
      rw [g1, ← List.append_assoc] at hm
      have := g3 d (since_suffix_part y _ hny d hm)
      rw [List.flatten_cons, List.mem_append] at this
      exact this.elim (hp.2 d hd).1 (hp.2 d hd).2
    · rw [if_neg (by simpa using hP), since_append_not_mem _ _ hP, List.count_append, ih]
      unfold passesWith
      rw [List.countP_append, k1.count]
      simp [List.countP_cons]

theorem fromLast_snoc {β : Type _} (p : β → Bool) (l : List β) (x : β) :
    fromLast p (l ++ [x]) = if p x then [x] else fromLast p l ++ [x] := by
  unfold fromLast
  rw [afterLast_snoc]
  by_cases hx : p x = true
  · rw [if_pos hx, if_pos hx]
    simp
  · rw [if_neg hx, if_neg hx]
    have e : (l ++ [x]).length - (afterLast p l ++ [x]).length - 1 =
        l.length - (afterLast p l).length - 1 := by
      rw [List.length_append, List.length_append]
      omega
    rw [e, List.drop_append_of_le_length (by omega)]

theorem since_passes_later {q q1 : List (List α)} {l : List α} {q2 : List (List α)} (hq : q.flatten.Nodup)
    (e : q = q1 ++ l :: q2) {n d : α} (hn : n ∈ l) (hd : d ∈ q2.flatten) (B : List (List (List α))) :
    (∀ P ∈ B, OrderedPass q P) →
    (since n B.flatten.flatten).count d =
      passesWith d (fromLast (fun p => decide (n ∈ p.flatten)) B) := by
  have hp := nodup_parts hq e
  have hdl : d ∉ l := fun k => (hp.1 d k).2 hd
  have hdq : d ∉ q1.flatten := fun k => (hp.2 d k).2 hd
  induction B using snocInd with
  | h0 => intro _; rfl
  | h1 B P ih =>
    intro h
    have ih := ih fun x hx => h x (List.mem_append_left _ hx)
    obtain ⟨k1, k2⟩ := h P (by simp)
    have e2 : (B ++ [P]).flatten.flatten = B.flatten.flatten ++ P.flatten := by simp
    have e3 : ∀ ps : List (List (List α)), passesWith d (ps ++ [P]) = passesWith d ps + P.flatten.count d := by
      intro ps
      unfold passesWith
      rw [List.countP_append, k1.count]
      simp [List.countP_cons]
    rw [e2, fromLast_snoc]
    by_cases hP : n ∈ P.flatten
    · rw [if_pos (by simpa using hP)]
      have e4 : passesWith d [P] = P.flatten.count d := by
        have := e3 []
        rw [List.nil_append] at this
        rw [this]
        exact Nat.zero_add _
      rw [e4]
      obtain ⟨x, y, g1, g2, g3⟩ := k2 (q1 ++ [l]) q2 (by rw [e]; simp)
      have hny : n ∉ y := fun k => (hp.1 n hn).2 (g3 n k)
      have hnx : n ∈ x := by
        rw [g1, List.mem_append] at hP
        exact hP.resolve_right hny
      have hdx : d ∉ x := fun k => by
        have := g2 d k
        rw [List.flatten_append, List.mem_append] at this
        exact this.elim hdq (by simpa using hdl)
      rw [g1, ← List.append_assoc, since_append_not_mem _ _ hny, List.count_append, List.count_append,
        List.count_eq_zero_of_not_mem hdx,
        List.count_eq_zero_of_not_mem fun k => hdx (since_suffix_part x _ hnx d k)]
    · rw [if_neg (by simpa using hP), since_append_not_mem _ _ hP, List.count_append, ih, e3]

theorem goesBefore_iff {q q1 : List (List α)} {l : List α} {q2 : List (List α)} (hq : q.flatten.Nodup)
    (e : q = q1 ++ l :: q2) {n : α} (hn : n ∈ l) (d : α) : goesBefore q d n = true ↔ d ∈ q1.flatten := by
  have hp := nodup_parts hq e
  have : (q.takeWhile fun l => decide (n ∉ l)) = q1 := by
    rw [e, List.takeWhile_append_of_pos, List.takeWhile_cons_of_neg (by simpa using hn), List.append_nil]
    intro x hx
    simp only [decide_eq_true_eq]
    exact fun k => (hp.1 n hn).1 (List.mem_flatten.2 ⟨x, hx, k⟩)
  unfold goesBefore
  rw [this, decide_eq_true_eq]

/-- What is known about a pass when a node of the set `l` is decided on. -/
structure PassSeen (q q1 : List (List α)) (l : List α) (q2 : List (List α)) (B : List (List (List α)))
    (P : List (List α)) (p : Past α) (n : α) (x y : List α) : Prop where
  nodup : q.flatten.Nodup
  split : q = q1 ++ l :: q2
  mem : n ∈ l
  passes : ∀ P ∈ B, OrderedPass q P
  before : p.before = B
  now : p.now.flatten = x
  next : ∀ d ∈ p.next, d ∈ l
  new : n ∉ p.next
  pass : P.flatten = x ++ y
  xnodup : x.Nodup
  xs : ∀ d ∈ x, d ∈ q1.flatten
  ys : ∀ d ∈ y, d ∈ (l :: q2).flatten

section
variable {q q1 : List (List α)} {l : List α} {q2 : List (List α)} {B : List (List (List α))}
  {P : List (List α)} {p : Past α} {n : α} {x y : List α} {d : α}

theorem PassSeen.now_count (h : PassSeen q q1 l q2 B P p n x y) (hd : d ∉ l) :
    (p.now.flatten ++ p.next).count d = passesWith d (seenNow q P n d) := by
  have h2 : d ∉ p.next := fun k => hd (h.next d k)
  rw [List.count_append, List.count_eq_zero_of_not_mem h2, h.now]
  unfold seenNow
  by_cases hb : goesBefore q d n = true
  · have hp := (nodup_parts h.nodup h.split).2 d ((goesBefore_iff h.nodup h.split h.mem d).1 hb)
    have h3 : d ∉ y := fun k => by
      have := h.ys d k
      rw [List.flatten_cons, List.mem_append] at this
      exact this.elim hp.1 hp.2
    have h4 : d ∈ P.flatten ↔ d ∈ x := by
      rw [h.pass, List.mem_append]
      exact ⟨fun k => k.resolve_right h3, .inl⟩
    rw [if_pos hb, h.xnodup.count]
    unfold passesWith
    simp only [List.countP_cons, List.countP_nil, h4, decide_eq_true_eq, Nat.zero_add, Nat.add_zero]
  · rw [if_neg hb, List.count_eq_zero_of_not_mem fun k =>
      hb ((goesBefore_iff h.nodup h.split h.mem d).2 (h.xs d k))]
    rfl

theorem PassSeen.calls (h : PassSeen q q1 l q2 B P p n x y) (hd : d ∉ l) {ts : TimeScale}
    (ht : ts ≠ .consideration_set_execution) : p.calls ts d = calledBy q p.runs B P ts n d := by
  have h1 := h.now_count hd
  have h2 := count_passes d B h.passes
  have h3 : (p.inRun.flatten ++ p.next).count d = passesWith d (B ++ seenNow q P n d) := by
    rw [Past.inRun, h.before, List.flatten_append, List.append_assoc, List.count_append, h1, h2]
    unfold passesWith
    rw [List.countP_append]
  have h4 : (p.all.flatten ++ p.next).count d =
      p.runs.flatten.flatten.flatten.count d + passesWith d (B ++ seenNow q P n d) := by
    rw [Past.all, List.flatten_append, List.append_assoc, List.count_append, h3]
  cases ts with
  | consideration_set_execution => exact absurd rfl ht
  | pass => exact h1
  | environment_state_update => exact h3
  | environment_sequence => exact h4
  | life => exact h4

theorem PassSeen.since (h : PassSeen q q1 l q2 B P p n x y) (hdq : d ∈ q1.flatten ∨ d ∈ q2.flatten) :
    p.callsSince n d = calledSince q B P n d := by
  have hp := (nodup_parts h.nodup h.split)
  have hd : d ∉ l := fun k => hdq.elim (hp.1 d k).1 (hp.1 d k).2
  have hdn : d ≠ n := fun e => hd (e ▸ h.mem)
  have h1 := h.now_count hd
  have hnn : n ∉ p.now.flatten ++ p.next := by
    rw [List.mem_append, h.now]
    exact fun k => k.elim (fun k => (hp.1 n h.mem).1 (h.xs n k)) h.new
  have hb := goesBefore_iff h.nodup h.split h.mem d
  unfold Past.callsSince calledSince
  rw [if_neg (fun k => hdn k.1), Past.inRun, List.flatten_append, List.append_assoc,
    since_append_not_mem _ _ hnn, List.count_append, h1, h.before]
  unfold seenNow
  by_cases hg : goesBefore q d n = true
  · rw [if_pos hg, if_pos hg, since_passes h.nodup h.split h.mem (hb.1 hg) B h.passes]
    unfold passesWith
    rw [List.countP_append]
    rfl
  · rw [if_neg hg, if_neg hg,
      since_passes_later h.nodup h.split h.mem (hdq.resolve_left fun k => hg (hb.2 k)) B h.passes]
    rfl

theorem PassSeen.other (h : PassSeen q q1 l q2 B P p n x y) (hd : InAnotherSet q d n) :
    d ∈ q1.flatten ∨ d ∈ q2.flatten := by
  obtain ⟨i, j, hij, ⟨a, ha, hda⟩, ⟨b, hb, hnb⟩⟩ := hd
  have hp := (nodup_parts h.nodup h.split).1 n h.mem
  have hj : j = q1.length := by
    rw [h.split] at hb
    by_cases h1 : j < q1.length
    · rw [List.getElem?_append_left h1] at hb
      exact absurd (List.mem_flatten.2 ⟨b, List.mem_of_getElem? hb, hnb⟩) hp.1
    · by_cases h2 : j = q1.length
      · exact h2
      · rw [List.getElem?_append_right (by omega)] at hb
        have e : j - q1.length = (j - q1.length - 1) + 1 := by omega
        rw [e, List.getElem?_cons_succ] at hb
        exact absurd (List.mem_flatten.2 ⟨b, List.mem_of_getElem? hb, hnb⟩) hp.2
  rw [h.split] at ha
  by_cases h1 : i < q1.length
  · rw [List.getElem?_append_left h1] at ha
    exact .inl (List.mem_flatten.2 ⟨a, List.mem_of_getElem? ha, hda⟩)
  · rw [List.getElem?_append_right (by omega)] at ha
    have e : i - q1.length = (i - q1.length - 1) + 1 := by omega
    rw [e, List.getElem?_cons_succ] at ha
    exact .inr (List.mem_flatten.2 ⟨a, List.mem_of_getElem? ha, hda⟩)

theorem PassSeen.outside (h : PassSeen q q1 l q2 B P p n x y) (hd : InAnotherSet q d n) : d ∉ l := by
  intro k
  have hp := (nodup_parts h.nodup h.split).1 d k
  exact (h.other hd).elim hp.1 hp.2

theorem PassSeen.leaf (h : PassSeen q q1 l q2 B P p n x y) (e : Around α κ W) {k : Leaf α κ W}
    (hk : OtherLeaf (fun d => InAnotherSet q d n) k) :
    holdsLeaf e (some n) p k = true ↔ saysLeaf q p.runs B P n k := by
  cases k with
  | beforeNCalls d k ts =>
    simp only [holdsLeaf, saysLeaf, decide_eq_true_eq, h.calls (h.outside hk.1) hk.2]
  | atNCalls d k ts =>
    simp only [holdsLeaf, saysLeaf, decide_eq_true_eq, h.calls (h.outside hk.1) hk.2]
  | afterCall d k ts =>
    simp only [holdsLeaf, saysLeaf, decide_eq_true_eq, h.calls (h.outside hk.1) hk.2, gt_iff_lt]
  | afterNCalls d k ts =>
    simp only [holdsLeaf, saysLeaf, decide_eq_true_eq, h.calls (h.outside hk.1) hk.2, ge_iff_le]
  | everyNCalls d k =>
    simp only [holdsLeaf, saysLeaf, decide_eq_true_eq, h.since (h.other hk), ge_iff_le]
  | allHaveRun ds ts =>
    simp only [holdsLeaf, saysLeaf, decide_eq_true_eq, if_neg hk.1]
    constructor
    · intro g d hd
      rw [← h.calls (h.outside (hk.2.1 d hd)) hk.2.2]
      exact g d hd
    · intro g d hd
      rw [h.calls (h.outside (hk.2.1 d hd)) hk.2.2]
      exact g d hd
  | _ => rw [← h.before]; exact holdsLeaf_due e (some n) p _ hk

mutual
theorem PassSeen.cond (h : PassSeen q q1 l q2 B P p n x y) (e : Around α κ W) : ∀ c : Cond α κ W,
    OtherCond (fun d => InAnotherSet q d n) c → (holds e (some n) p c = true ↔ says q p.runs B P n c)
  | .leaf _ k, hc => by
    cases hc with | leaf hk => exact h.leaf e hk
  | .whileNot _ _, hc => by cases hc
  | .nwhen _ _ _, hc => by cases hc
  | .all _ cs, hc => by
    cases hc with | all hc => exact (PassSeen.conds h e cs hc).1
  | .any _ cs, hc => by
    cases hc with | any hc => exact (PassSeen.conds h e cs hc).2
  | .not _ c, hc => by
    cases hc with
    | not hc =>
      simp only [holds, says, ← PassSeen.cond h e c hc]
      simp
theorem PassSeen.conds (h : PassSeen q q1 l q2 B P p n x y) (e : Around α κ W) :
    ∀ cs : List (Cond α κ W), (∀ c ∈ cs, OtherCond (fun d => InAnotherSet q d n) c) →
    (holdsAll e (some n) p cs = true ↔ saysAll q p.runs B P n cs) ∧
    (holdsAny e (some n) p cs = true ↔ saysAny q p.runs B P n cs)
  | [], _ => by simp [holdsAll, holdsAny, saysAll, saysAny]
  | c :: cs, hc => by
    have h1 := PassSeen.cond h e c (hc c List.mem_cons_self)
    have h2 := PassSeen.conds h e cs fun x hx => hc x (List.mem_cons_of_mem _ hx)
    simp only [holdsAll, holdsAny, saysAll, saysAny, Bool.and_eq_true, Bool.or_eq_true, h1, h2.1, h2.2,
      and_self]
end

theorem PassSeen.rule {s : Sys α κ W} (h : PassSeen s.queue q1 l q2 B P p n x y) (e : Around α κ W)
    (hs : LooksElsewhere s n) : rule s e n p = true ↔ executesIn p.runs B P s n := by
  unfold Spec.rule executesIn
  rcases hs with ⟨c, h1, h2⟩ | ⟨o, c, m, h1, h2⟩ | ⟨h1, h2⟩
  · rw [h1]
    have k := h.cond e c h2
    cases h2 <;> exact k
  · rw [h1]
    have hp := nodup_parts h.nodup h.split
    have hnn : n ∉ p.now.flatten ++ p.next := by
      rw [List.mem_append, h.now]
      exact fun k => k.elim (fun k => (hp.1 n h.mem).1 (h.xs n k)) h.new
    have hc : p.calls .life n = p.runs.flatten.flatten.flatten.count n + passesWith n B := by
      show (p.all.flatten ++ p.next).count n = _
      rw [Past.all, Past.inRun, List.flatten_append, List.flatten_append, List.append_assoc, List.append_assoc,
        List.count_append, List.count_append, List.count_eq_zero_of_not_mem hnn, h.before,
        count_passes n B h.passes]
      rfl
    simp only [Bool.and_eq_true, decide_eq_true_eq, h.cond e c h2, hc]
  · rw [h1]
    cases hg : Dict.get? s.graph n with
    | none => simp
    | some ds =>
      simp only [decide_eq_true_eq]
      constructor
      · intro g d hd
        rw [← h.since (h.other (h2 ds hg d hd))]
        exact g d hd
      · intro g d hd
        rw [h.since (h.other (h2 ds hg d hd))]
        exact g d hd
end

/-- The passes of the reference scheduler. -/
theorem reference_recurrence {s : Sys α κ W} {e : Around α κ W} {T : Past α → Bool} {abs : Bool}
    (runs : List (List (List (List α)))) (hq : s.queue.flatten.Nodup) : ∀ N : Nat,
      (reference abs (rule s e) T s.queue N ⟨runs, [], [], []⟩).runs = runs ∧
      (reference abs (rule s e) T s.queue N ⟨runs, [], [], []⟩).now = [] ∧
      (reference abs (rule s e) T s.queue N ⟨runs, [], [], []⟩).next = [] ∧
      (∀ P ∈ (reference abs (rule s e) T s.queue N ⟨runs, [], [], []⟩).before, OrderedPass s.queue P) ∧
      ∀ B P C, (reference abs (rule s e) T s.queue N ⟨runs, [], [], []⟩).before = B ++ P :: C →
        ∀ n ∈ s.queue.flatten, LooksElsewhere s n → (n ∈ P.flatten → executesIn runs B P s n) ∧
          ((∀ p : Past α, p.before = B → T p = false) → executesIn runs B P s n → n ∈ P.flatten)
  | 0 => ⟨rfl, rfl, rfl, by simp [reference], fun B P C h => by simp [reference] at h⟩
  | N + 1 => by
    obtain ⟨h1, h2, h3, h4, h5⟩ := reference_recurrence (abs := abs) (e := e) runs hq N
    rw [reference_succ]
    split
    · exact ⟨h1, h2, h3, h4, h5⟩
    · revert h1 h2 h3 h4 h5
      generalize reference abs (rule s e) T s.queue N ⟨runs, [], [], []⟩ = p
      intro h1 h2 h3 h4 h5
      have hf := passFrom_frame (abs := abs) (R := rule s e) (T := T) s.queue p
      obtain ⟨P0, e0, e1⟩ : ∃ P, (closePass abs (passFrom abs (rule s e) T s.queue p)).before =
          p.before ++ [P] ∧ P.flatten = (passFrom abs (rule s e) T s.queue p).now.flatten := by
        refine ⟨_, by unfold closePass; rw [hf.2.1], ?_⟩
        split
        · rename_i hz; rw [hz.1]; rfl
        · rfl
      have hord := passFrom_ordered (abs := abs) (R := rule s e) (T := T) hq h3 h2
      refine ⟨hf.1.trans h1, rfl, hf.2.2.1.trans h3, ?_, ?_⟩
      · rw [e0]
        intro P hP
        rcases List.mem_append.1 hP with hP | hP
        · exact h4 P hP
        · rw [List.mem_singleton] at hP
          subst hP
          unfold OrderedPass
          rw [e1]
          exact hord
      · rw [e0]
        intro B P C hB n hn hl
        rcases List.eq_nil_or_concat C with rfl | ⟨C', z, rfl⟩
        · obtain ⟨rfl, hP⟩ := List.append_inj' hB rfl
          cases hP
          obtain ⟨l, hl1, hl2⟩ := List.mem_flatten.1 hn
          obtain ⟨q1, q2, hsplit⟩ := List.append_of_mem hl1
          obtain ⟨x, y, k1, k2, _, k4, k5, k6⟩ := passFrom_node (abs := abs) (R := rule s e) (T := T) hq hsplit
            hl2 h1 rfl h3 h2
          have key : ∀ N X, N.flatten = x → (∀ d ∈ X, d ∈ l) → n ∉ X →
              (rule s e n ⟨runs, p.before, N, X⟩ = true ↔ executesIn runs p.before P0 s n) := by
            intro N X a1 a2 a3
            exact PassSeen.rule (p := ⟨runs, p.before, N, X⟩) (x := x) (y := y)
              ⟨hq, hsplit, hl2, h4, rfl, a1, a2, a3, e1.trans k1, k2, k4, k5⟩ e hl
          have hnx : n ∉ x := fun k => ((nodup_parts hq hsplit).1 n hl2).1 (k4 n k)
          rw [e1, k1, List.mem_append]
          by_cases hE : executesIn runs p.before P0 s n
          · have := k6 true fun N X a1 a2 a3 => (key N X a1 a2 a3).2 hE
            exact ⟨fun _ => hE, fun hT _ => .inr (this.2 hT rfl)⟩
          · have := k6 false fun N X a1 a2 a3 => Bool.eq_false_iff.2 fun k => hE ((key N X a1 a2 a3).1 k)
            exact ⟨fun k => (k.elim (fun k => absurd k hnx) fun k => by cases this.1 k), fun _ k => absurd k hE⟩
        · rw [List.concat_eq_append, ← List.cons_append, ← List.append_assoc] at hB
          obtain ⟨hB, _⟩ := List.append_inj' hB rfl
          exact h5 B P C' hB n hn hl

end GS
